import Verif.Spec.OneByOneConn
import Verif.Props.OneByOne
import Verif.Props.Conn

/-
C103 for connections.
-/
namespace Obsidian.Props
open Obsidian Spec
variable {U : Univ} {σ : Type}

theorem on_append (o o' : Order U) (i : Nat) : Order.on (o ++ o') i = o.on i ++ Order.on o' i := by
  simp [Order.on]

theorem answersOn_append (a : App U σ) (i : Nat) (w : σ) (o o' : Order U) :
    answersOn a i w (o ++ o') = answersOn a i w o ++ answersOn a i (afterServing a w (o.map (·.2))) o' := by
  induction o generalizing w with
  | nil => rfl
  | cons e o ih =>
    obtain ⟨j, req⟩ := e
    simp only [List.cons_append, answersOn, List.map_cons, afterServing, ih]
    split <;> rfl

/-- How far the connection has come, if `reqs` are its requests in the order and `answers` how they end. -/
def Came (a : App U σ) (c : Conn U σ) (received reqs : List (Request U)) (answers : List (Except Crash Sent)) : Prop :=
  ∃ rest, (c.closed = false → rest = c.waiting) ∧
    ((c.current = none ∧ received = reqs ++ rest ∧ answers = c.sent.map .ok) ∨
     (∃ act, c.current = some act ∧ Still act ∧ received = reqs ++ rest ∧
        ∃ out, answers = c.sent.map .ok ++ [out] ∧ ∀ w, (act.run w).out = out) ∨
     (∃ act req, c.current = some act ∧ Waits act ∧ received = reqs ++ req :: rest ∧ answers = c.sent.map .ok ∧
        ∀ w, (act.run w).out = ((a.serve req).run w).out ∧ (act.run w).world = ((a.serve req).run w).world))

/-- The invariant: the requests that have had their step, in order, each with its connection. -/
structure ConnOrder (a : App U σ) (w0 : σ) (s : ConnServer U σ σ) (received : Nat → List (Request U)) (o : Order U) : Prop where
  app : s.app = a
  world : s.world = afterServing a w0 (o.map (·.2))
  conns : ∀ i, Came a (s.conns i) (received i) (o.on i) (answersOn a i w0 o)

theorem came_receive {a : App U σ} {c : Conn U σ} {received reqs : List (Request U)} {answers : List (Except Crash Sent)}
    (h : Came a c received reqs answers) (req : Request U) : Came a (c.receive req) (received ++ [req]) reqs answers := by
  obtain ⟨rest, h1, h2⟩ := h
  refine ⟨rest ++ [req], ?_, ?_⟩
  · intro hc
    cases hcl : c.closed with
    | true => simp [Conn.receive, hcl] at hc
    | false => simp [Conn.receive, hcl, h1 hcl]
  · have e1 : (c.receive req).current = c.current := by rw [Conn.receive]; split <;> rfl
    have e2 : (c.receive req).sent = c.sent := by rw [Conn.receive]; split <;> rfl
    rw [e1, e2]
    rcases h2 with ⟨h2, h3, h4⟩ | ⟨act, h2, h3, h4, h5⟩ | ⟨act, r, h2, h3, h4, h5⟩
    · exact .inl ⟨h2, by rw [h3]; simp, h4⟩
    · exact .inr (.inl ⟨act, h2, h3, by rw [h4]; simp, h5⟩)
    · exact .inr (.inr ⟨act, r, h2, h3, by rw [h4]; simp, h5⟩)

theorem came_hangUp {a : App U σ} {c : Conn U σ} {received reqs : List (Request U)} {answers : List (Except Crash Sent)}
    (h : Came a c received reqs answers) : Came a c.hangUp received reqs answers := by
  obtain ⟨rest, _, h2⟩ := h
  exact ⟨rest, nofun, h2⟩

/-- One turn: the request is put into the order, or not yet. -/
theorem came_turn {a : App U σ} (ha : ∀ req, Once (a.serve req)) {c : Conn U σ} {received reqs : List (Request U)}
    {answers : List (Except Crash Sent)} (h : Came a c received reqs answers) (w : σ) :
    let c' := (c.turn (fun req => shared 0 (a.serve req)) w).1
    let w' := (c.turn (fun req => shared 0 (a.serve req)) w).2.1
    (w' = w ∧ Came a c' received reqs answers) ∨
    ∃ req, w' = ((a.serve req).run w).world ∧ Came a c' received (reqs ++ [req]) (answers ++ [((a.serve req).run w).out]) := by
  intro c' w'
  cases hcl : c.closed with
  | true =>
    have : c.turn (fun req => shared 0 (a.serve req)) w = (c, w, []) := by simp [Conn.turn, hcl]
    simp only [c', w', this]
    exact .inl ⟨trivial, h⟩
  | false =>
    obtain ⟨waiting, current, sent, closed⟩ := c
    simp only at hcl
    subst hcl
    obtain ⟨rest, h1, h2⟩ := h
    have hr : rest = waiting := h1 rfl
    subst hr
    rcases h2 with ⟨h2, h3, h4⟩ | ⟨act, h2, h3, h4, out, h5, h6⟩ | ⟨act, r, h2, h3, h4, h5, h6⟩ <;> simp only at h2 <;> subst h2
    · cases rest with
      | nil => exact .inl ⟨rfl, ⟨[], fun _ => rfl, .inl ⟨rfl, h3, h4⟩⟩⟩
      | cons req rest =>
        rcases once_cases (ha req) with hst | hw
        · refine .inr ⟨req, (still_run hst w).symm, rest, fun _ => rfl, .inr (.inl ⟨a.serve req, rfl, hst, by rw [h3]; simp, ((a.serve req).run w).out, by rw [h4]; rfl, fun w' => still_out hst _ _⟩)⟩
        · exact .inl ⟨rfl, rest, fun _ => rfl, .inr (.inr ⟨a.serve req, req, rfl, hw, h3, h4, fun w => ⟨rfl, rfl⟩⟩)⟩
    · cases h3 with
      | @ret x =>
        refine .inl ⟨rfl, rest, fun _ => rfl, .inl ⟨rfl, h4, ?_⟩⟩
        have : out = .ok x := (h6 w).symm
        rw [h5, this]
        show _ = List.map Except.ok (sent ++ [x])
        simp
      | panic => exact .inl ⟨rfl, rest, nofun, .inr (.inl ⟨_, rfl, .panic, h4, out, h5, h6⟩)⟩
      | @print l k hk => exact .inl ⟨rfl, rest, fun _ => rfl, .inr (.inl ⟨k, rfl, hk, h4, out, h5, h6⟩)⟩
    · cases h3 with
      | @step f k hk =>
        refine .inr ⟨r, ?_, rest, fun _ => rfl, .inr (.inl ⟨k w, rfl, hk w, by rw [h4]; simp, ((a.serve r).run w).out, by rw [h5]; rfl, fun w' => ?_⟩)⟩
        · rw [← (h6 w).2]; exact (still_run (hk w) _).symm
        · rw [← (h6 w).1]; exact still_out (hk w) _ _
      | @print l k hk => exact .inl ⟨rfl, rest, fun _ => rfl, .inr (.inr ⟨k, r, rfl, hk, h4, h5, h6⟩)⟩

theorem connOrder_step {a : App U σ} (ha : ∀ req, Once (a.serve req)) {w0 : σ} {s : ConnServer U σ σ}
    {received : Nat → List (Request U)} {o : Order U} (ok : ConnOrder a w0 s received o) (e : ConnEvent U) :
    ∃ o', ConnOrder a w0 (s.step shared e) (fun i => received i ++ receivedOn i [e]) (o ++ o') := by
  cases e with
  | receive j req =>
    refine ⟨[], ?_⟩
    rw [List.append_nil]
    refine ⟨ok.app, ok.world, fun i => ?_⟩
    simp only [ConnServer.step, receivedOn]
    by_cases hi : i = j
    · subst hi; simp only [if_true]; exact came_receive (ok.conns i) req
    · simp only [hi, if_false, Ne.symm hi, List.append_nil]; exact ok.conns i
  | hangUp j =>
    refine ⟨[], ?_⟩
    rw [List.append_nil]
    refine ⟨ok.app, ok.world, fun i => ?_⟩
    simp only [ConnServer.step, receivedOn, List.append_nil]
    by_cases hi : i = j
    · subst hi; simp only [if_true]; exact came_hangUp (ok.conns i)
    · simp only [hi, if_false]; exact ok.conns i
  | turn j =>
    have h := came_turn ha (ok.conns j) s.world
    have hs : s.step shared (.turn j) = { s with
        conns := fun i => if i = j then ((s.conns j).turn (fun req => shared 0 (a.serve req)) s.world).1 else s.conns i,
        world := ((s.conns j).turn (fun req => shared 0 (a.serve req)) s.world).2.1,
        printed := s.printed ++ ((s.conns j).turn (fun req => shared 0 (a.serve req)) s.world).2.2 } := by
      simp only [ConnServer.step, ok.app, shared]
    rw [hs]
    simp only [receivedOn, List.append_nil]
    rcases h with ⟨h1, h2⟩ | ⟨req, h1, h2⟩
    · refine ⟨[], ?_⟩
      rw [List.append_nil]
      refine ⟨ok.app, h1.trans ok.world, fun i => ?_⟩
      by_cases hi : i = j
      · subst hi; simp only [if_true]; exact h2
      · simp only [hi, if_false]; exact ok.conns i
    · refine ⟨[(j, req)], ok.app, ?_, fun i => ?_⟩
      · rw [List.map_append, afterServing_append, ← ok.world]; exact h1
      · rw [on_append, answersOn_append, ← ok.world]
        by_cases hi : i = j
        · subst hi
          simp only [if_true, answersOn]
          rw [show Order.on [(i, req)] i = [req] by simp [Order.on]]
          exact h2
        · simp only [hi, if_false, answersOn, Ne.symm hi, List.append_nil]
          rw [show Order.on [(j, req)] i = [] by simp [Order.on, Ne.symm hi], List.append_nil]
          exact ok.conns i

theorem receivedOn_cons (i : Nat) (e : ConnEvent U) (es : List (ConnEvent U)) :
    receivedOn i (e :: es) = receivedOn i [e] ++ receivedOn i es := by
  cases e <;> simp only [receivedOn]
  · split <;> rfl
  · rfl
  · rfl

theorem connOrder_run {a : App U σ} (ha : ∀ req, Once (a.serve req)) {w0 : σ} (es : List (ConnEvent U)) {s : ConnServer U σ σ}
    {received : Nat → List (Request U)} {o : Order U} (ok : ConnOrder a w0 s received o) :
    ∃ o', ConnOrder a w0 (s.run shared es) (fun i => received i ++ receivedOn i es) (o ++ o') ∧
      ∀ es1 es2, es = es1 ++ es2 → ∃ o1 o2, o' = o1 ++ o2 ∧
        ConnOrder a w0 (s.run shared es1) (fun i => received i ++ receivedOn i es1) (o ++ o1) := by
  induction es generalizing s received o with
  | nil =>
    have ok' : ConnOrder a w0 (s.run shared []) (fun i => received i ++ receivedOn i []) (o ++ []) := by
      simpa [receivedOn, ConnServer.run] using ok
    refine ⟨[], ok', fun es1 es2 he => ⟨[], [], rfl, ?_⟩⟩
    rw [(List.append_eq_nil_iff.1 he.symm).1]
    exact ok'
  | cons e es ih =>
    obtain ⟨o1, ok1⟩ := connOrder_step ha ok e
    obtain ⟨o2, ok2, hs⟩ := ih ok1
    have eq : ∀ es' : List (ConnEvent U), (fun i => received i ++ receivedOn i [e] ++ receivedOn i es') =
        fun i => received i ++ receivedOn i (e :: es') := fun es' => funext fun i => by
      rw [receivedOn_cons i e es', List.append_assoc]
    refine ⟨o1 ++ o2, by rw [← List.append_assoc, ← eq]; exact ok2, fun es1 es2 he => ?_⟩
    cases es1 with
    | nil => exact ⟨[], o1 ++ o2, rfl, by simpa [receivedOn, ConnServer.run] using ok⟩
    | cons e' es1 =>
      injection he with h1 h2
      subst h1
      obtain ⟨o3, o4, h3, ok3⟩ := hs es1 es2 h2
      exact ⟨o1 ++ o3, o4, by rw [h3, List.append_assoc], by rw [← List.append_assoc, ← eq]; exact ok3⟩

theorem came_sent {a : App U σ} {c : Conn U σ} {received reqs : List (Request U)} {answers : List (Except Crash Sent)}
    (h : Came a c received reqs answers) : reqs <+: received ∧ c.sent.map .ok <+: answers ∧ answers.length ≤ c.sent.length + 1 := by
  obtain ⟨rest, _, h2⟩ := h
  rcases h2 with ⟨_, h3, h4⟩ | ⟨act, _, _, h4, out, h5, _⟩ | ⟨act, r, _, _, h4, h5, _⟩
  · exact ⟨h3 ▸ List.prefix_append _ _, h4 ▸ List.prefix_refl _, by rw [h4]; simp⟩
  · exact ⟨h4 ▸ List.prefix_append _ _, h5 ▸ List.prefix_append _ _, by rw [h5]; simp⟩
  · exact ⟨h4 ▸ List.prefix_append _ _, h5 ▸ List.prefix_refl _, by rw [h5]; simp⟩

theorem answersOn_length (a : App U σ) (i : Nat) (w : σ) (o : Order U) : (answersOn a i w o).length = (o.on i).length := by
  induction o generalizing w with
  | nil => rfl
  | cons e o ih =>
    obtain ⟨j, req⟩ := e
    rw [answersOn, show Order.on ((j, req) :: o) i = Order.on [(j, req)] i ++ Order.on o i from on_append [(j, req)] o i]
    by_cases hj : j = i
    · subst hj; simp only [if_true, List.length_cons, ih]; simp [Order.on]
    · simp only [hj, if_false, ih]; simp [Order.on, hj]

/-- **C103**, for connections: if serving a request touches the shared world at most once, then whatever happens on the
connections, and however they get their turns, panics and clients that hang up included: everything is as if requests
had been served one after the other, each from start to end.  The order has, of each connection, the first ones of the
requests that were received on it, in their order; the responses sent on a connection are the answers that its requests
get there, except perhaps the last answer, which is not sent yet; and the world is the one that this leaves.  The order
respects time: at any moment, what had been answered stands in it before everything that had not yet been received. -/
theorem C103_connections_partial {a : App U σ} (ha : ∀ req, Once (a.serve req)) (w0 : σ) (es : List (ConnEvent U)) :
    let s := (listening a w0).run shared es
    ∃ o : Order U, s.world = afterServing a w0 (o.map (·.2)) ∧
      (∀ i, o.on i <+: receivedOn i es ∧ (s.conns i).sent.map .ok <+: answersOn a i w0 o ∧
        (o.on i).length ≤ (s.conns i).sent.length + 1) ∧
      ∀ es1 es2, es = es1 ++ es2 → ∃ o1 o2, o = o1 ++ o2 ∧
        ∀ i, (((listening a w0).run shared es1).conns i).sent.length ≤ (Order.on o1 i).length ∧
          (Order.on o1 i).length ≤ (receivedOn i es1).length := by
  intro s
  obtain ⟨o, ok, hs⟩ := connOrder_run ha es (s := listening a w0) (received := fun _ => []) (o := []) (w0 := w0)
    ⟨rfl, rfl, fun i => ⟨[], fun _ => rfl, .inl ⟨rfl, rfl, rfl⟩⟩⟩
  rw [List.nil_append] at ok
  refine ⟨o, ok.world, fun i => ?_, fun es1 es2 he => ?_⟩
  · obtain ⟨h1, h2, h3⟩ := came_sent (ok.conns i)
    rw [answersOn_length] at h3
    rw [List.nil_append] at h1
    exact ⟨h1, h2, h3⟩
  · obtain ⟨o1, o2, h, ok1⟩ := hs es1 es2 he
    rw [List.nil_append] at ok1
    refine ⟨o1, o2, h, fun i => ?_⟩
    obtain ⟨h1, h2, _⟩ := came_sent (ok1.conns i)
    rw [List.nil_append] at h1
    have := h2.length_le
    rw [List.length_map, answersOn_length] at this
    exact ⟨this, h1.length_le⟩

/-! ### Examples -/

/-- Two clients of the ticket application: the numbers they get, in an interleaving. -/
example : let es : List (ConnEvent demoU) := [.receive 0 (demoReq .get "/hit"), .receive 0 (demoReq .get "/hit"), .turn 0, .turn 0,
      .receive 1 (demoReq .get "/hit")] ++ List.replicate 6 (.turn 1) ++ List.replicate 20 (.turn 0)
    let s := (listening ticketApp 7).run shared es
    s.world = 10 ∧ ((s.conns 0).sent.map (·.body.bytes)) = [[56], [57]] ∧ ((s.conns 1).sent.map (·.body.bytes)) = [[55]] := by
  decide +kernel

/-- The order in which they were served. -/
example : let o : Order demoU := [(1, demoReq .get "/hit"), (0, demoReq .get "/hit"), (0, demoReq .get "/hit")]
    afterServing ticketApp 7 (o.map (·.2)) = 10 ∧
    ((answersOn ticketApp 0 7 o).map fun x => match x with | .ok x => x.body.bytes | .error _ => []) = [[56], [57]] := by
  decide +kernel

/-- Whatever two or more clients do, the counter is the number of requests that were counted. -/
example (es : List (ConnEvent demoU)) : ∃ o : Order demoU,
    ((listening ticketApp 7).run shared es).world = afterServing ticketApp 7 (o.map (·.2)) := by
  obtain ⟨o, h, _⟩ := C103_connections_partial (once_serve (a := ticketApp) rfl ticket_handlers ticket_middlewares) 7 es
  exact ⟨o, h⟩

end Obsidian.Props
