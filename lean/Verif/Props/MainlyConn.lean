import Verif.Props.Mainly
import Verif.Props.OneByOneConn

/-
C103 for connections, for requests with one step that matters.
-/
namespace Obsidian.Props
open Obsidian Spec
variable {U : Univ} {σ : Type} {S : (σ → σ) → Prop}

/-- How far the connection has come, if `reqs` are its requests in the order and `answers` how they end; `past` is what the
request has changed whose main step is to come, `fut` what remains to be changed after it. -/
def CameMain (S : (σ → σ) → Prop) (a : App U σ) (c : Conn U σ) (past fut : σ → σ) (received reqs : List (Request U))
    (answers : List (Except Crash Sent)) : Prop :=
  ∃ rest, (c.closed = false → rest = c.waiting) ∧
    ((c.current = none ∧ received = reqs ++ rest ∧ answers = c.sent.map .ok ∧ past = id ∧ fut = id) ∨
     (∃ act, c.current = some act ∧ Blindly S act ∧ received = reqs ++ rest ∧ past = id ∧ (fut = fun w => (act.run w).world) ∧
        ∃ out, answers = c.sent.map .ok ++ [out] ∧ ∀ w, (act.run w).out = out) ∨
     (∃ act req, c.current = some act ∧ Awaits S act ∧ received = reqs ++ req :: rest ∧ answers = c.sent.map .ok ∧ fut = id ∧
        ∀ w, (act.run (past w)).out = ((a.serve req).run w).out ∧ (act.run (past w)).world = ((a.serve req).run w).world))

theorem cameMain_receive {a : App U σ} {c : Conn U σ} {past fut : σ → σ} {received reqs : List (Request U)} {answers : List (Except Crash Sent)}
    (h : CameMain S a c past fut received reqs answers) (req : Request U) : CameMain S a (c.receive req) past fut (received ++ [req]) reqs answers := by
  obtain ⟨rest, h1, h2⟩ := h
  refine ⟨rest ++ [req], ?_, ?_⟩
  · intro hc
    cases hcl : c.closed with
    | true => simp [Conn.receive, hcl] at hc
    | false => simp [Conn.receive, hcl, h1 hcl]
  · have e1 : (c.receive req).current = c.current := by rw [Conn.receive]; split <;> rfl
    have e2 : (c.receive req).sent = c.sent := by rw [Conn.receive]; split <;> rfl
    rw [e1, e2]
    rcases h2 with ⟨h2, h3, h4⟩ | ⟨act, h2, h3, h4, h5⟩ | ⟨act, r, h2, h3, h4, h5⟩
    · exact .inl ⟨h2, by rw [h3]; simp, h4⟩
    · exact .inr (.inl ⟨act, h2, h3, by rw [h4]; simp, h5⟩)
    · exact .inr (.inr ⟨act, r, h2, h3, by rw [h4]; simp, h5⟩)

theorem cameMain_hangUp {a : App U σ} {c : Conn U σ} {past fut : σ → σ} {received reqs : List (Request U)} {answers : List (Except Crash Sent)}
    (h : CameMain S a c past fut received reqs answers) : CameMain S a c.hangUp past fut received reqs answers := by
  obtain ⟨rest, _, h2⟩ := h
  exact ⟨rest, nofun, h2⟩

/-- One turn: a change before or after the main step, or the main step (or the beginning of a request without one). -/
theorem cameMain_turn {a : App U σ} (ha : ∀ req, Mainly S (a.serve req)) {c : Conn U σ} {past fut : σ → σ} {received reqs : List (Request U)}
    {answers : List (Except Crash Sent)} (h : CameMain S a c past fut received reqs answers) (w : σ) :
    let c' := (c.turn (fun req => shared 0 (a.serve req)) w).1
    let w' := (c.turn (fun req => shared 0 (a.serve req)) w).2.1
    (∃ g fut', Changes S g ∧ Changes S fut' ∧ w' = g w ∧ (∀ v, fut' (g v) = fut v) ∧ CameMain S a c' past fut' received reqs answers) ∨
    (∃ g, Changes S g ∧ w' = g w ∧ CameMain S a c' (g ∘ past) fut received reqs answers) ∨
    ∃ req, ∃ f : σ → σ, ∃ k : σ → Act σ Sent, w' = f w ∧ (∀ g, S g → ∀ w, f (g w) = g (f w) ∧ k (g w) = k w) ∧ (∀ w, Blindly S (k w)) ∧ fut = id ∧
      (∀ v, ((a.serve req).run v).out = ((k (past v)).run (f (past v))).out ∧ ((a.serve req).run v).world = ((k (past v)).run (f (past v))).world) ∧
      CameMain S a c' id (fun v => ((k w).run v).world) received (reqs ++ [req]) (answers ++ [((k w).run w).out]) := by
  intro c' w'
  have same : ∀ {c1 : Conn U σ}, Changes S fut → c' = c1 → w' = w → CameMain S a c1 past fut received reqs answers →
      ∃ g fut', Changes S g ∧ Changes S fut' ∧ w' = g w ∧ (∀ v, fut' (g v) = fut v) ∧ CameMain S a c' past fut' received reqs answers :=
    fun hf hc hw h => ⟨id, fut, .none, hf, hw, fun _ => rfl, hc ▸ h⟩
  have hfut : Changes S fut := by
    obtain ⟨_, _, h2⟩ := h
    rcases h2 with ⟨_, _, _, _, h⟩ | ⟨act, _, hb, _, _, h, _⟩ | ⟨_, _, _, _, _, _, h, _⟩
    · rw [h]; exact .none
    · rw [h]; exact changes_run hb
    · rw [h]; exact .none
  cases hcl : c.closed with
  | true =>
    have : c.turn (fun req => shared 0 (a.serve req)) w = (c, w, []) := by simp [Conn.turn, hcl]
    exact .inl (same hfut (congrArg (·.1) this) (congrArg (·.2.1) this) h)
  | false =>
    obtain ⟨waiting, current, sent, closed⟩ := c
    simp only at hcl
    subst hcl
    obtain ⟨rest, h1, h2⟩ := h
    have hr : rest = waiting := h1 rfl
    subst hr
    rcases h2 with ⟨h2, h3, h4, h5, h6⟩ | ⟨act, h2, h3, h4, h5, h6, out, h7, h8⟩ | ⟨act, r, h2, h3, h4, h5, h6, h7⟩ <;> simp only at h2 <;> subst h2
    · cases rest with
      | nil => exact .inl (same hfut rfl rfl ⟨[], fun _ => rfl, .inl ⟨rfl, h3, h4, h5, h6⟩⟩)
      | cons req rest =>
        subst h5; subst h6
        rcases mainly_cases (ha req) with hb | hw
        · refine .inr (.inr ⟨req, id, fun _ => a.serve req, rfl, fun _ _ _ => ⟨rfl, rfl⟩, fun _ => hb, rfl, fun _ => ⟨rfl, rfl⟩, rest, fun _ => rfl,
            .inr (.inl ⟨a.serve req, rfl, hb, by rw [h3]; simp, rfl, rfl, ((a.serve req).run w).out, by rw [h4]; rfl, fun w' => blindly_out hb _ _⟩)⟩)
        · exact .inl (same .none rfl rfl ⟨rest, fun _ => rfl, .inr (.inr ⟨a.serve req, req, rfl, hw, h3, h4, rfl, fun w => ⟨rfl, rfl⟩⟩)⟩)
    · subst h5; subst h6
      cases h3 with
      | @ret x =>
        refine .inl ⟨id, id, .none, .none, rfl, fun _ => rfl, rest, fun _ => rfl, .inl ⟨rfl, h4, ?_, rfl, rfl⟩⟩
        have : out = .ok x := (h8 w).symm
        rw [h7, this]
        show _ = List.map Except.ok (sent ++ [x])
        simp
      | panic => exact .inl ⟨id, id, .none, .none, rfl, fun _ => rfl, rest, nofun, .inr (.inl ⟨_, rfl, .panic, h4, rfl, rfl, out, h7, h8⟩)⟩
      | @print l k hk =>
        exact .inl ⟨id, fun w => (k.run w).world, .none, changes_run hk, rfl, fun _ => rfl, rest, fun _ => rfl, .inr (.inl ⟨k, rfl, hk, h4, rfl, rfl, out, h7, h8⟩)⟩
      | @step f k hf hk =>
        exact .inl ⟨f, fun w => (k.run w).world, .one hf, changes_run hk, rfl, fun _ => rfl, rest, fun _ => rfl,
          .inr (.inl ⟨k, rfl, hk, h4, rfl, rfl, out, h7, fun w' => (blindly_out hk w' (f w)).trans (h8 w)⟩)⟩
    · subst h6
      cases h3 with
      | @main f k hm hk =>
        exact .inr (.inr ⟨r, f, k, rfl, hm, hk, rfl, fun v => ⟨(h7 v).1.symm, (h7 v).2.symm⟩, rest, fun _ => rfl,
          .inr (.inl ⟨k w, rfl, hk w, by rw [h4]; simp, rfl, rfl, ((k w).run w).out, by rw [h5]; rfl, fun w' => blindly_out (hk w) _ _⟩)⟩)
      | @step f k hf hk => exact .inr (.inl ⟨f, .one hf, rfl, rest, fun _ => rfl, .inr (.inr ⟨k, r, rfl, hk, h4, h5, rfl, h7⟩)⟩)
      | @print l k hk => exact .inr (.inl ⟨id, .none, rfl, rest, fun _ => rfl, .inr (.inr ⟨k, r, rfl, hk, h4, h5, rfl, h7⟩)⟩)

/-- The connection on which something happens. -/
def connNo : ConnEvent U → Nat
  | .receive i _ => i
  | .turn i => i
  | .hangUp i => i

theorem connNo_bound (es : List (ConnEvent U)) : ∃ n, ∀ e ∈ es, connNo e < n := by
  induction es with
  | nil => exact ⟨0, nofun⟩
  | cons e es ih =>
    obtain ⟨n, h⟩ := ih
    refine ⟨n + connNo e + 1, fun e' he => ?_⟩
    rcases List.mem_cons.1 he with rfl | he
    · omega
    · have := h e' he; omega

/-- The invariant, for connections below `n`. -/
structure ConnMain (S : (σ → σ) → Prop) (n : Nat) (a : App U σ) (w0 : σ) (s : ConnServer U σ σ) (received : Nat → List (Request U)) (o : Order U)
    (past fut : Nat → σ → σ) : Prop where
  app : s.app = a
  pastC : ∀ i, Changes S (past i)
  futC : ∀ i, Changes S (fut i)
  world : allOf fut n s.world = allOf past n (afterServing a w0 (o.map (·.2)))
  conns : ∀ i, CameMain S a (s.conns i) (past i) (fut i) (received i) (o.on i) (answersOn a i w0 o)

theorem connMain_step (hS : Commuting S) {n : Nat} {a : App U σ} (ha : ∀ req, Mainly S (a.serve req)) {w0 : σ} {s : ConnServer U σ σ}
    {received : Nat → List (Request U)} {o : Order U} {past fut : Nat → σ → σ} (ok : ConnMain S n a w0 s received o past fut) (e : ConnEvent U)
    (he : connNo e < n) :
    ∃ o' past' fut', ConnMain S n a w0 (s.step shared e) (fun i => received i ++ receivedOn i [e]) (o ++ o') past' fut' := by
  cases e with
  | receive j req =>
    refine ⟨[], past, fut, ?_⟩
    rw [List.append_nil]
    refine ⟨ok.app, ok.pastC, ok.futC, ok.world, fun i => ?_⟩
    simp only [ConnServer.step, receivedOn]
    by_cases hi : i = j
    · subst hi; simp only [if_true]; exact cameMain_receive (ok.conns i) req
    · simp only [hi, if_false, Ne.symm hi, List.append_nil]; exact ok.conns i
  | hangUp j =>
    refine ⟨[], past, fut, ?_⟩
    rw [List.append_nil]
    refine ⟨ok.app, ok.pastC, ok.futC, ok.world, fun i => ?_⟩
    simp only [ConnServer.step, receivedOn, List.append_nil]
    by_cases hi : i = j
    · subst hi; simp only [if_true]; exact cameMain_hangUp (ok.conns i)
    · simp only [hi, if_false]; exact ok.conns i
  | turn j =>
    have hlt : j < n := he
    have h := cameMain_turn ha (ok.conns j) s.world
    have hs : s.step shared (.turn j) = { s with
        conns := fun i => if i = j then ((s.conns j).turn (fun req => shared 0 (a.serve req)) s.world).1 else s.conns i,
        world := ((s.conns j).turn (fun req => shared 0 (a.serve req)) s.world).2.1,
        printed := s.printed ++ ((s.conns j).turn (fun req => shared 0 (a.serve req)) s.world).2.2 } := by
      simp only [ConnServer.step, ok.app, shared]
    rw [hs]
    simp only [receivedOn, List.append_nil]
    generalize hV : afterServing a w0 (o.map (·.2)) = V
    have hworld := ok.world
    rw [hV] at hworld
    have hpast := allOf_upd hS ok.pastC (ok.pastC j) hlt V
    rw [upd_self] at hpast
    have hfut := allOf_upd hS ok.futC (ok.futC j) hlt s.world
    rw [upd_self] at hfut
    have pastI := allOf_changes (upd_changes ok.pastC .none j) n
    have futI := allOf_changes (upd_changes ok.futC .none j) n
    rcases h with ⟨g, fut', hg, hf', h1, h2, h3⟩ | ⟨g, hg, h1, h2⟩ | ⟨req, f, k, h1, hm, hk, hfid, h2, h3⟩
    · refine ⟨[], past, upd fut j fut', ?_⟩
      rw [List.append_nil]
      refine ⟨ok.app, ok.pastC, fun i => upd_changes ok.futC hf' j i, ?_, fun i => ?_⟩
      · dsimp only
        rw [h1, allOf_upd hS ok.futC hf' hlt, ← changes_commute hS hg futI, h2, ← hfut, hworld, hV]
      · by_cases hi : i = j
        · subst hi; simp only [if_true, upd_same]; exact h3
        · simp only [hi, if_false, upd_other hi]; exact ok.conns i
    · have hgp : Changes S (g ∘ past j) := .two hg (ok.pastC j)
      refine ⟨[], upd past j (g ∘ past j), fut, ?_⟩
      rw [List.append_nil]
      refine ⟨ok.app, fun i => upd_changes ok.pastC hgp j i, ok.futC, ?_, fun i => ?_⟩
      · dsimp only
        rw [h1, hV, allOf_upd hS ok.pastC hgp hlt, ← changes_commute hS hg (allOf_changes ok.futC n), hworld, hpast]; rfl
      · by_cases hi : i = j
        · subst hi; simp only [if_true, upd_same]; exact h2
        · simp only [hi, if_false, upd_other hi]; exact ok.conns i
    · have hf : ∀ {g : σ → σ}, Changes S g → ∀ w, f (g w) = g (f w) := fun hg w => changes_past (fun g h w => (hm g h w).1) hg w
      have hks : ∀ {g : σ → σ}, Changes S g → ∀ w, k (g w) = k w := fun hg w => changes_unseen (fun g h w => (hm g h w).2) hg w
      have hseen : k s.world = k (past j V) := by
        rw [← hks (allOf_changes ok.futC n) s.world, hworld, hpast, hks (ok.pastC j), hks pastI, hks (ok.pastC j)]
      have hrun := changes_run (hk s.world)
      refine ⟨[(j, req)], upd past j id, upd fut j fun v => ((k s.world).run v).world, ok.app,
        fun i => upd_changes ok.pastC .none j i, fun i => upd_changes ok.futC hrun j i, ?_, fun i => ?_⟩
      · dsimp only
        rw [h1, allOf_upd hS ok.futC hrun hlt]
        have : upd fut j id = fut := by rw [← hfid, upd_self]
        rw [this, ← hf (allOf_changes ok.futC n), hworld, hpast, List.map_append, afterServing_append, hV]
        show _ = allOf (upd past j id) _ ((a.serve req).run V).world
        rw [(h2 V).2, ← hseen, ← changes_commute hS pastI (ok.pastC j), hf pastI]
        exact changes_commute hS hrun pastI _
      · rw [on_append, answersOn_append, hV]
        by_cases hi : i = j
        · subst hi
          simp only [if_true, answersOn, upd_same]
          rw [show Order.on [(i, req)] i = [req] by simp [Order.on], (h2 V).1, ← hseen, blindly_out (hk s.world) _ s.world]
          exact h3
        · simp only [hi, if_false, answersOn, Ne.symm hi, List.append_nil, upd_other hi]
          rw [show Order.on [(j, req)] i = [] by simp [Order.on, Ne.symm hi], List.append_nil]
          exact ok.conns i

theorem connMain_run (hS : Commuting S) {n : Nat} {a : App U σ} (ha : ∀ req, Mainly S (a.serve req)) {w0 : σ} (es : List (ConnEvent U))
    (hn : ∀ e ∈ es, connNo e < n) {s : ConnServer U σ σ} {received : Nat → List (Request U)} {o : Order U} {past fut : Nat → σ → σ}
    (ok : ConnMain S n a w0 s received o past fut) :
    ∃ o', (∃ past' fut', ConnMain S n a w0 (s.run shared es) (fun i => received i ++ receivedOn i es) (o ++ o') past' fut') ∧
      ∀ es1 es2, es = es1 ++ es2 → ∃ o1 o2, o' = o1 ++ o2 ∧
        ∃ past' fut', ConnMain S n a w0 (s.run shared es1) (fun i => received i ++ receivedOn i es1) (o ++ o1) past' fut' := by
  induction es generalizing s received o past fut with
  | nil =>
    have ok' : ConnMain S n a w0 (s.run shared []) (fun i => received i ++ receivedOn i []) (o ++ []) past fut := by
      simpa [receivedOn, ConnServer.run] using ok
    refine ⟨[], ⟨past, fut, ok'⟩, fun es1 es2 he => ⟨[], [], rfl, past, fut, ?_⟩⟩
    rw [(List.append_eq_nil_iff.1 he.symm).1]
    exact ok'
  | cons e es ih =>
    obtain ⟨o1, p1, f1, ok1⟩ := connMain_step hS ha ok e (hn e (List.mem_cons_self ..))
    obtain ⟨o2, ⟨p2, f2, ok2⟩, hs⟩ := ih (fun e he => hn e (List.mem_cons_of_mem _ he)) ok1
    have eq : ∀ es' : List (ConnEvent U), (fun i => received i ++ receivedOn i [e] ++ receivedOn i es') =
        fun i => received i ++ receivedOn i (e :: es') := fun es' => funext fun i => by
      rw [receivedOn_cons i e es', List.append_assoc]
    refine ⟨o1 ++ o2, ⟨p2, f2, by rw [← List.append_assoc, ← eq]; exact ok2⟩, fun es1 es2 he => ?_⟩
    cases es1 with
    | nil => exact ⟨[], o1 ++ o2, rfl, past, fut, by simpa [receivedOn, ConnServer.run] using ok⟩
    | cons e' es1 =>
      injection he with h1 h2
      subst h1
      obtain ⟨o3, o4, h3, p3, f3, ok3⟩ := hs es1 es2 h2
      exact ⟨o1 ++ o3, o4, by rw [h3, List.append_assoc], p3, f3, by rw [← List.append_assoc, ← eq]; exact ok3⟩

theorem cameMain_sent {a : App U σ} {c : Conn U σ} {past fut : σ → σ} {received reqs : List (Request U)} {answers : List (Except Crash Sent)}
    (h : CameMain S a c past fut received reqs answers) : reqs <+: received ∧ c.sent.map .ok <+: answers ∧ answers.length ≤ c.sent.length + 1 := by
  obtain ⟨rest, _, h2⟩ := h
  rcases h2 with ⟨_, h3, h4, _⟩ | ⟨act, _, _, h4, _, _, out, h5, _⟩ | ⟨act, r, _, _, h4, h5, _⟩
  · exact ⟨h3 ▸ List.prefix_append _ _, h4 ▸ List.prefix_refl _, by rw [h4]; simp⟩
  · exact ⟨h4 ▸ List.prefix_append _ _, h5 ▸ List.prefix_append _ _, by rw [h5]; simp⟩
  · exact ⟨h4 ▸ List.prefix_append _ _, h5 ▸ List.prefix_refl _, by rw [h5]; simp⟩

/-- **C103**, for connections, for requests with any number of steps of which one matters (`Mainly`): whatever happens on the
connections, and however they get their turns, panics and clients that hang up included: there is an order that has, of each
connection, the first ones of the requests that were received on it, in their order; the responses sent on a connection are
the answers that its requests get when the requests are served one after the other in this order, each from start to end,
except perhaps the last answer, which is not sent yet; and if no request is under way (each that was begun has been answered or
has panicked), the world is the one that this leaves.  The order respects time: at any moment, what had been answered stands in
it before everything that had not yet been received.

(If a client hangs up while its request is under way, the world keeps the changes that this request has made before; then
the theorem says nothing about the world.) -/
theorem C103_main_step_connections_partial (hS : Commuting S) {a : App U σ} (ha : ∀ req, Mainly S (a.serve req)) (w0 : σ)
    (es : List (ConnEvent U)) :
    let s := (listening a w0).run shared es
    ∃ o : Order U, ((∀ i act, (s.conns i).current = some act → ∃ k, act = .panic k) → s.world = afterServing a w0 (o.map (·.2))) ∧
      (∀ i, o.on i <+: receivedOn i es ∧ (s.conns i).sent.map .ok <+: answersOn a i w0 o ∧
        (o.on i).length ≤ (s.conns i).sent.length + 1) ∧
      ∀ es1 es2, es = es1 ++ es2 → ∃ o1 o2, o = o1 ++ o2 ∧
        ∀ i, (((listening a w0).run shared es1).conns i).sent.length ≤ (Order.on o1 i).length ∧
          (Order.on o1 i).length ≤ (receivedOn i es1).length := by
  intro s
  obtain ⟨n, hn⟩ := connNo_bound es
  obtain ⟨o, ⟨past, fut, ok⟩, hs⟩ := connMain_run hS ha es hn (s := listening a w0) (received := fun _ => []) (o := []) (w0 := w0)
    (past := fun _ => id) (fut := fun _ => id)
    ⟨rfl, fun _ => .none, fun _ => .none, rfl, fun i => ⟨[], fun _ => rfl, .inl ⟨rfl, rfl, rfl, rfl, rfl⟩⟩⟩
  rw [List.nil_append] at ok
  refine ⟨o, fun hq => ?_, fun i => ?_, fun es1 es2 he => ?_⟩
  · have none : ∀ i, (∀ w, fut i w = w) ∧ ∀ w, past i w = w := by
      intro i
      obtain ⟨_, _, h2⟩ := ok.conns i
      rcases h2 with ⟨_, _, _, h5, h6⟩ | ⟨act, h2, _, _, h5, h6, _⟩ | ⟨act, _, h2, h3, _⟩
      · rw [h5, h6]; exact ⟨fun _ => rfl, fun _ => rfl⟩
      · obtain ⟨k, rfl⟩ := hq i act h2
        rw [h5, h6]; exact ⟨fun _ => rfl, fun _ => rfl⟩
      · obtain ⟨k, rfl⟩ := hq i act h2
        cases h3
    have := ok.world
    rwa [allOf_none fun i _ => (none i).1, allOf_none fun i _ => (none i).2] at this
  · obtain ⟨h1, h2, h3⟩ := cameMain_sent (ok.conns i)
    rw [answersOn_length] at h3
    rw [List.nil_append] at h1
    exact ⟨h1, h2, h3⟩
  · obtain ⟨o1, o2, h, p1, f1, ok1⟩ := hs es1 es2 he
    rw [List.nil_append] at ok1
    refine ⟨o1, o2, h, fun i => ?_⟩
    obtain ⟨h1, h2, _⟩ := cameMain_sent (ok1.conns i)
    rw [List.nil_append] at h1
    have := h2.length_le
    rw [List.length_map, answersOn_length] at this
    exact ⟨this, h1.length_le⟩

/-! ### Examples -/

/-- Two clients of the ticket desk behind the counting middleware, in an interleaving (`deskApp_mainly` is the hypothesis). -/
example : let es : List (ConnEvent demoU) := [.receive 0 (demoReq .get "/ticket"), .receive 0 (demoReq .get "/ticket"), .turn 0, .turn 0, .turn 0,
      .turn 0, .receive 1 (demoReq .get "/ticket")] ++ List.replicate 9 (.turn 1) ++ List.replicate 20 (.turn 0)
    let s := (listening deskApp (0, 7)).run shared es
    s.world = (33, 10) ∧ ((s.conns 0).sent.map (·.body.bytes)) = [utf8 "8".toList, utf8 "9".toList] ∧
    ((s.conns 1).sent.map (·.body.bytes)) = [utf8 "7".toList] := by
  decide +kernel

/-- Whatever the clients do, each response of the desk is the answer to the request in some order. -/
example (es : List (ConnEvent demoU)) : ∃ o : Order demoU, ∀ i,
    (((listening deskApp (0, 7)).run shared es).conns i).sent.map .ok <+: answersOn deskApp i (0, 7) o := by
  obtain ⟨o, _, h, _⟩ := C103_main_step_connections_partial counting_commutes deskApp_mainly (0, 7) es
  exact ⟨o, fun i => (h i).2.1⟩

end Obsidian.Props
