import Verif.Props.Together
import Verif.Spec.Conn

/-
C91: connections with several requests.
-/
namespace Obsidian.Props
open Obsidian Spec
variable {U : Univ} {σ τ : Type}

/-! ### One connection, in a world of its own -/

/-- A connection in one part of the world. -/
def connOn (i : Nat) (c : Conn U τ) : Conn U (Nat → τ) := ⟨c.waiting, c.current.map (onPart i), c.sent, c.closed⟩

/-- What an event does to a connection that it is about. -/
def soloStep (a : App U τ) (s : Conn U τ × τ) : ConnEvent U → Conn U τ × τ
  | .receive _ req => (s.1.receive req, s.2)
  | .hangUp _ => (s.1.hangUp, s.2)
  | .turn _ => ((s.1.turn a.serve s.2).1, (s.1.turn a.serve s.2).2.1)

theorem part_same (i : Nat) (w : Nat → τ) : (fun j => if j = i then w i else w j) = w := by
  funext j; split
  · next h => rw [h]
  · rfl

theorem turn_on (i : Nat) (serve : Request U → Act τ Sent) (c : Conn U τ) (w : Nat → τ) :
    (connOn i c).turn (fun req => onPart i (serve req)) w =
      (connOn i (c.turn serve (w i)).1, (fun j => if j = i then (c.turn serve (w i)).2.1 else w j), (c.turn serve (w i)).2.2) := by
  obtain ⟨waiting, current, sent, closed⟩ := c
  cases closed with
  | true => simp [Conn.turn, connOn, part_same]
  | false =>
    cases current with
    | none => cases waiting <;> simp [Conn.turn, connOn, part_same]
    | some act => cases act <;> simp [Conn.turn, connOn, onPart, part_same]

/-- What an event does to any connection and its part of the world. -/
def soloAt (a : App U τ) (i : Nat) (s : Conn U τ × τ) (e : ConnEvent U) : Conn U τ × τ :=
  if ConnEvent.about e = i then soloStep a s e else s

theorem soloAt_self {a : App U τ} {i : Nat} {e : ConnEvent U} (h : ConnEvent.about e = i) (s : Conn U τ × τ) :
    soloAt a i s e = soloStep a s e := if_pos h

theorem soloAt_other {a : App U τ} {i : Nat} {e : ConnEvent U} (h : ConnEvent.about e ≠ i) (s : Conn U τ × τ) :
    soloAt a i s e = s := if_neg h

theorem step_solo {a : App U τ} {s : ConnServer U (Nat → τ) τ} {cs : Nat → Conn U τ × τ} (ha : s.app = a)
    (hcs : ∀ j, s.conns j = connOn j (cs j).1 ∧ s.world j = (cs j).2) (e : ConnEvent U) :
    (s.step (fun i => onPart i) e).app = a ∧ ∀ j, (s.step (fun i => onPart i) e).conns j = connOn j (soloAt a j (cs j) e).1 ∧
      (s.step (fun i => onPart i) e).world j = (soloAt a j (cs j) e).2 := by
  have recv : ∀ req j (c : Conn U τ), (connOn j c).receive req = connOn j (c.receive req) := by
    intro req j c; obtain ⟨w, cu, se, cl⟩ := c; cases cl <;> rfl
  cases e with
  | receive i req =>
    refine ⟨ha, fun j => ?_⟩
    by_cases h : i = j
    · subst h
      rw [soloAt_self (i := i) (e := .receive i req) rfl]
      simp only [ConnServer.step, if_true, soloStep, (hcs i).1, (hcs i).2, recv, and_self]
    · rw [soloAt_other (e := .receive i req) h]
      have h' : j ≠ i := fun e => h e.symm
      simp only [ConnServer.step, h', if_false]; exact hcs j
  | hangUp i =>
    refine ⟨ha, fun j => ?_⟩
    by_cases h : i = j
    · subst h
      rw [soloAt_self (i := i) (e := .hangUp i) rfl]
      simp only [ConnServer.step, if_true, soloStep, (hcs i).1, (hcs i).2, and_true]; rfl
    · rw [soloAt_other (e := .hangUp i) h]
      have h' : j ≠ i := fun e => h e.symm
      simp only [ConnServer.step, h', if_false]; exact hcs j
  | turn i =>
    refine ⟨ha, fun j => ?_⟩
    have ht := turn_on i a.serve (cs i).1 s.world
    by_cases h : i = j
    · subst h
      rw [soloAt_self (i := i) (e := .turn i) rfl]
      simp only [ConnServer.step, if_true, soloStep, ha, (hcs i).1, ht, (hcs i).2, and_self]
    · rw [soloAt_other (e := .turn i) h]
      have h' : j ≠ i := fun e => h e.symm
      simp only [ConnServer.step, ha, (hcs i).1, ht, h', if_false]; exact hcs j

theorem run_solo {a : App U τ} (es : List (ConnEvent U)) {s : ConnServer U (Nat → τ) τ} {cs : Nat → Conn U τ × τ} (ha : s.app = a)
    (hcs : ∀ j, s.conns j = connOn j (cs j).1 ∧ s.world j = (cs j).2) :
    (s.run (fun i => onPart i) es).app = a ∧
      ∀ j, (s.run (fun i => onPart i) es).conns j = connOn j (es.foldl (soloAt a j) (cs j)).1 ∧
        (s.run (fun i => onPart i) es).world j = (es.foldl (soloAt a j) (cs j)).2 := by
  induction es generalizing s cs with
  | nil => exact ⟨ha, hcs⟩
  | cons e es ih =>
    obtain ⟨h1, h2⟩ := step_solo ha hcs e
    exact ih h1 h2

/-- One connection after the events. -/
def soloRun (a : App U τ) (i : Nat) (w : τ) (es : List (ConnEvent U)) : Conn U τ × τ := es.foldl (soloAt a i) (Conn.new, w)

theorem listening_solo (a : App U τ) (w0 : Nat → τ) (es : List (ConnEvent U)) (i : Nat) :
    ((listening a w0).run (fun i => onPart i) es).conns i = connOn i (soloRun a i (w0 i) es).1 ∧
    ((listening a w0).run (fun i => onPart i) es).world i = (soloRun a i (w0 i) es).2 :=
  (run_solo es (s := listening a w0) (cs := fun j => (Conn.new, w0 j)) rfl fun _ => ⟨rfl, rfl⟩).2 i

theorem soloRun_filter (a : App U τ) (i : Nat) (s : Conn U τ × τ) (es : List (ConnEvent U)) :
    es.foldl (soloAt a i) s = (eventsOf i es).foldl (soloStep a) s := by
  induction es generalizing s with
  | nil => rfl
  | cons e es ih =>
    rw [List.foldl_cons, ih]
    by_cases h : ConnEvent.about e = i
    · rw [soloAt_self h, eventsOf, eventsOf, List.filter_cons_of_pos (by simpa using h), List.foldl_cons]
    · rw [soloAt_other h, eventsOf, eventsOf, List.filter_cons_of_neg (by simpa using h)]

theorem received_append (i : Nat) (es es' : List (ConnEvent U)) :
    receivedOn i (es ++ es') = receivedOn i es ++ receivedOn i es' := by
  induction es with
  | nil => rfl
  | cons e es ih =>
    cases e with
    | receive j req => simp only [List.cons_append, receivedOn, ih]; split <;> rfl
    | turn j => exact ih
    | hangUp j => exact ih

/-! ### The responses -/

/-- The responses that are still to come. -/
def toCome (a : App U τ) (closed : Bool) (current : Option (Act τ Sent)) (waiting : List (Request U)) (w : τ) : List Sent :=
  if closed then []
  else
    match current with
    | none => oneByOne a waiting w
    | some act =>
      match (act.run w).out with
      | .ok sent => sent :: oneByOne a waiting (act.run w).world
      | .error _ => []

theorem turn_sent (a : App U τ) (c : Conn U τ) (w : τ) (extra : List (Request U)) :
    let r := c.turn a.serve w
    r.1.sent ++ toCome a r.1.closed r.1.current (r.1.waiting ++ extra) r.2.1 =
      c.sent ++ toCome a c.closed c.current (c.waiting ++ extra) w := by
  obtain ⟨waiting, current, sent, closed⟩ := c
  cases closed with
  | true => rfl
  | false =>
    cases current with
    | none =>
      cases waiting with
      | nil => rfl
      | cons req reqs => simp [Conn.turn, toCome, oneByOne]; rfl
    | some act =>
      cases act with
      | ret x => simp [Conn.turn, toCome, Act.run]
      | panic x => simp [Conn.turn, toCome, Act.run]
      | step f k => simp [Conn.turn, toCome, Act.run]
      | print l k => simp [Conn.turn, toCome, Act.run]

theorem oneByOne_prefix (a : App U τ) (reqs more : List (Request U)) (w : τ) :
    oneByOne a reqs w <+: oneByOne a (reqs ++ more) w := by
  induction reqs generalizing w with
  | nil => exact List.nil_prefix
  | cons req reqs ih =>
    simp only [List.cons_append, oneByOne]
    split
    · exact (List.prefix_cons_inj _).2 (ih _)
    · exact List.prefix_refl _

/-- What has been sent and what is to come, for the requests received so far and any others. -/
def OnTrack (a : App U τ) (w0 : τ) (s : Conn U τ × τ) (received : List (Request U)) : Prop :=
  ∀ extra, oneByOne a (received ++ extra) w0 = s.1.sent ++ toCome a s.1.closed s.1.current (s.1.waiting ++ extra) s.2

theorem onTrack_step {a : App U τ} {w0 : τ} {i : Nat} {s : Conn U τ × τ} {received : List (Request U)} (h : OnTrack a w0 s received)
    (e : ConnEvent U) (he : e ≠ .hangUp i) : OnTrack a w0 (soloAt a i s e) (received ++ receivedOn i [e]) := by
  by_cases hi : ConnEvent.about e = i
  · rw [soloAt_self hi]
    subst hi
    cases e with
    | receive i req =>
      intro extra
      rw [show receivedOn (ConnEvent.about (.receive i req)) [.receive i req] = [req] from if_pos rfl, List.append_assoc, h]
      obtain ⟨⟨waiting, current, sent, closed⟩, w⟩ := s
      cases closed with
      | true => rfl
      | false => simp [soloStep, Conn.receive]
    | turn i =>
      intro extra
      rw [show receivedOn (ConnEvent.about (.turn i)) [(.turn i : ConnEvent U)] = [] from rfl, List.append_nil, h]
      exact (turn_sent a s.1 s.2 extra).symm
    | hangUp i => exact absurd rfl he
  · rw [soloAt_other hi]
    rw [show receivedOn i [e] = [] by cases e <;> first | rfl | exact if_neg hi, List.append_nil]
    exact h

theorem solo_closed {a : App U τ} {i : Nat} {s : Conn U τ × τ} (h : s.1.closed = true) (e : ConnEvent U) :
    soloAt a i s e = s := by
  by_cases hi : ConnEvent.about e = i
  · rw [soloAt_self hi]
    obtain ⟨⟨waiting, current, sent, closed⟩, w⟩ := s
    simp only at h
    subst h
    cases e <;> rfl
  · exact soloAt_other hi s

/-- The responses sent so far are the first ones, in any case. -/
theorem solo_prefix {a : App U τ} {w0 : τ} {i : Nat} {s : Conn U τ × τ} {received : List (Request U)}
    (h : OnTrack a w0 s received ∨ (s.1.closed = true ∧ s.1.sent <+: oneByOne a received w0)) (e : ConnEvent U) :
    OnTrack a w0 (soloAt a i s e) (received ++ receivedOn i [e]) ∨
      ((soloAt a i s e).1.closed = true ∧ (soloAt a i s e).1.sent <+: oneByOne a (received ++ receivedOn i [e]) w0) := by
  rcases h with h | ⟨h1, h2⟩
  · by_cases he : e = .hangUp i
    · subst he
      refine .inr ?_
      rw [soloAt_self (i := i) (e := .hangUp i) rfl]
      refine ⟨rfl, ?_⟩
      have := h []
      simp only [List.append_nil] at this
      rw [show receivedOn i [(.hangUp i : ConnEvent U)] = [] from rfl, List.append_nil, this]
      exact List.prefix_append _ _
    · exact .inl (onTrack_step h e he)
  · rw [solo_closed h1]
    exact .inr ⟨h1, h2.trans (oneByOne_prefix ..)⟩

theorem solo_foldl {a : App U τ} {w0 : τ} {i : Nat} (es : List (ConnEvent U)) {s : Conn U τ × τ} {received : List (Request U)}
    (h : OnTrack a w0 s received ∨ (s.1.closed = true ∧ s.1.sent <+: oneByOne a received w0)) :
    OnTrack a w0 (es.foldl (soloAt a i) s) (received ++ receivedOn i es) ∨
      ((es.foldl (soloAt a i) s).1.closed = true ∧
        (es.foldl (soloAt a i) s).1.sent <+: oneByOne a (received ++ receivedOn i es) w0) := by
  induction es generalizing s received with
  | nil => simpa [receivedOn] using h
  | cons e es ih =>
    have := ih (solo_prefix (i := i) h e)
    rw [List.append_assoc, ← received_append] at this
    exact this

theorem onTrack_new (a : App U τ) (w0 : τ) : OnTrack a w0 (Conn.new, w0) [] := fun _ => rfl

theorem onTrack_foldl {a : App U τ} {w0 : τ} {i : Nat} (es : List (ConnEvent U)) {s : Conn U τ × τ} {received : List (Request U)}
    (h : OnTrack a w0 s received) (he : .hangUp i ∉ es) :
    OnTrack a w0 (es.foldl (soloAt a i) s) (received ++ receivedOn i es) := by
  induction es generalizing s received with
  | nil => simpa [receivedOn] using h
  | cons e es ih =>
    have := ih (onTrack_step (i := i) h e fun h => he (by simp [h])) (fun h => he (by simp [h]))
    rw [List.append_assoc, ← received_append] at this
    exact this

/-- **C91**, connections on their own: if requests of different connections work on different parts of the world,
then whatever happens on the connections, in any interleaving: the responses sent on a connection are the first ones
of those to its requests, served one after the other, in the order in which they were received. -/
theorem C91_in_order (a : App U τ) (w0 : Nat → τ) (es : List (ConnEvent U)) (i : Nat) :
    (((listening a w0).run (fun i => onPart i) es).conns i).sent <+: oneByOne a (receivedOn i es) (w0 i) := by
  rw [(listening_solo a w0 es i).1]
  show (soloRun a i (w0 i) es).1.sent <+: _
  rcases solo_foldl (i := i) es (.inl (onTrack_new a (w0 i))) with h | ⟨_, h⟩
  · have := h []
    simp only [List.append_nil, List.nil_append] at this
    rw [this]
    exact List.prefix_append _ _
  · simpa [soloRun] using h

/-- **C91**, connections do not disturb each other: what has happened on a connection, and to its part of the world,
depends only on the events of this connection.  A panic, or a client that hangs up, ends only its own connection. -/
theorem C91_undisturbed (a : App U τ) (w0 w0' : Nat → τ) (es es' : List (ConnEvent U)) (i : Nat) (hw : w0 i = w0' i)
    (h : eventsOf i es = eventsOf i es') :
    let s := (listening a w0).run (fun i => onPart i) es
    let s' := (listening a w0').run (fun i => onPart i) es'
    s.conns i = s'.conns i ∧ s.world i = s'.world i := by
  intro s s'
  obtain ⟨h1, h2⟩ := listening_solo a w0 es i
  obtain ⟨h3, h4⟩ := listening_solo a w0' es' i
  have : soloRun a i (w0 i) es = soloRun a i (w0' i) es' := by
    rw [soloRun, soloRun, soloRun_filter, soloRun_filter, h, hw]
  exact ⟨by rw [h1, h3, this], by rw [h2, h4, this]⟩

/-! ### Every request is answered -/

theorem solo_succ (a : App U τ) (i : Nat) (w : τ) (es : Nat → ConnEvent U) (n : Nat) :
    soloRun a i w (firstOf es (n + 1)) = soloAt a i (soloRun a i w (firstOf es n)) (es n) := by
  simp [soloRun, firstOf, List.range_succ]

/-- Until the next turn of the connection, at most more requests are received. -/
theorem solo_until {a : App U τ} {i : Nat} {w0 : τ} {es : Nat → ConnEvent U} (hh : ∀ n, es n ≠ .hangUp i) {k m : Nat}
    (hkm : k ≤ m) (hm : es m = .turn i) : ∃ n more, k ≤ n ∧ es n = .turn i ∧
      soloRun a i w0 (firstOf es n) = ({ (soloRun a i w0 (firstOf es k)).1 with waiting := (soloRun a i w0 (firstOf es k)).1.waiting ++ more }, (soloRun a i w0 (firstOf es k)).2) := by
  obtain ⟨d, rfl⟩ := Nat.exists_eq_add_of_le hkm
  induction d generalizing k with
  | zero => exact ⟨k, [], Nat.le_refl k, hm, by simp⟩
  | succ d ih =>
    by_cases he : es k = .turn i
    · exact ⟨k, [], Nat.le_refl k, he, by simp⟩
    · obtain ⟨n, more, h1, h2, h3⟩ := ih (k := k + 1) (by omega) (by rw [← hm]; congr 1; omega)
      rw [solo_succ] at h3
      by_cases hi : ConnEvent.about (es k) = i
      · rw [soloAt_self hi] at h3
        subst hi
        cases hk : es k with
        | turn j => rw [hk] at he; exact absurd rfl he
        | hangUp j => exact absurd hk (by have := hh k; rw [hk] at this; exact absurd rfl this)
        | receive j req =>
          rw [hk] at h3
          simp only [soloStep, Conn.receive] at h3
          split at h3
          · exact ⟨n, more, by omega, by rw [h2, hk], by simpa using h3⟩
          · exact ⟨n, req :: more, by omega, by rw [h2, hk], by simpa using h3⟩
      · rw [soloAt_other hi] at h3
        exact ⟨n, more, by omega, h2, h3⟩

theorem solo_next {a : App U τ} {i : Nat} {w0 : τ} {es : Nat → ConnEvent U} (hh : ∀ n, es n ≠ .hangUp i)
    (hf : ∀ n, ∃ m, n ≤ m ∧ es m = .turn i) {k : Nat} {c : Conn U τ} {w : τ} (hk : soloRun a i w0 (firstOf es k) = (c, w)) :
    ∃ n more, k ≤ n ∧ soloRun a i w0 (firstOf es n) =
      (({ c with waiting := c.waiting ++ more }.turn a.serve w).1, ({ c with waiting := c.waiting ++ more }.turn a.serve w).2.1) := by
  obtain ⟨m, hm1, hm2⟩ := hf k
  obtain ⟨n, more, h1, h2, h3⟩ := solo_until (a := a) (w0 := w0) hh hm1 hm2
  refine ⟨n + 1, more, by omega, ?_⟩
  rw [solo_succ, h2, soloAt_self (i := i) (e := .turn i) rfl, h3, hk]
  rfl

theorem toCome_closed (a : App U τ) (current : Option (Act τ Sent)) (waiting : List (Request U)) (w : τ) :
    toCome a true current waiting w = [] := rfl

/-- What is to come for the first of the waiting requests comes. -/
theorem delivers {a : App U τ} {i : Nat} {w0 : τ} {es : Nat → ConnEvent U} (hh : ∀ n, es n ≠ .hangUp i)
    (hf : ∀ n, ∃ m, n ≤ m ∧ es m = .turn i) (ws : List (Request U)) :
    (∀ k more sent w, soloRun a i w0 (firstOf es k) = (⟨ws ++ more, none, sent, false⟩, w) →
      ∃ n, k ≤ n ∧ sent ++ toCome a false none ws w <+: (soloRun a i w0 (firstOf es n)).1.sent) ∧
    ∀ act k more sent w, soloRun a i w0 (firstOf es k) = (⟨ws ++ more, some act, sent, false⟩, w) →
      ∃ n, k ≤ n ∧ sent ++ toCome a false (some act) ws w <+: (soloRun a i w0 (firstOf es n)).1.sent := by
  have acts : ∀ ws, (∀ k more sent w, soloRun a i w0 (firstOf es k) = (⟨ws ++ more, none, sent, false⟩, w) →
      ∃ n, k ≤ n ∧ sent ++ toCome a false none ws w <+: (soloRun a i w0 (firstOf es n)).1.sent) →
    ∀ act k more sent w, soloRun a i w0 (firstOf es k) = (⟨ws ++ more, some act, sent, false⟩, w) →
      ∃ n, k ≤ n ∧ sent ++ toCome a false (some act) ws w <+: (soloRun a i w0 (firstOf es n)).1.sent := by
    intro ws none act
    induction act with
    | ret x =>
      intro k more sent w hk
      obtain ⟨n, more', h1, h2⟩ := solo_next hh hf hk
      simp only [Conn.turn, Bool.false_eq_true, if_false, List.append_assoc] at h2
      obtain ⟨n', h3, h4⟩ := none n _ _ _ h2
      refine ⟨n', by omega, ?_⟩
      simpa [toCome, Act.run] using h4
    | panic x =>
      intro k more sent w hk
      refine ⟨k, Nat.le_refl k, ?_⟩
      rw [hk]
      simp [toCome, Act.run]
    | step f g ih =>
      intro k more sent w hk
      obtain ⟨n, more', h1, h2⟩ := solo_next hh hf hk
      simp only [Conn.turn, Bool.false_eq_true, if_false, List.append_assoc] at h2
      obtain ⟨n', h3, h4⟩ := ih w n _ _ _ h2
      refine ⟨n', by omega, ?_⟩
      simpa [toCome, Act.run] using h4
    | print l g ih =>
      intro k more sent w hk
      obtain ⟨n, more', h1, h2⟩ := solo_next hh hf hk
      simp only [Conn.turn, Bool.false_eq_true, if_false, List.append_assoc] at h2
      obtain ⟨n', h3, h4⟩ := ih n _ _ _ h2
      refine ⟨n', by omega, ?_⟩
      simpa [toCome, Act.run] using h4
  induction ws with
  | nil =>
    have none : ∀ k more sent w, soloRun a i w0 (firstOf es k) = (⟨[] ++ more, none, sent, false⟩, w) →
      ∃ n, k ≤ n ∧ sent ++ toCome a false none [] w <+: (soloRun a i w0 (firstOf es n)).1.sent := by
      intro k more sent w hk
      refine ⟨k, Nat.le_refl k, ?_⟩
      rw [hk]
      simp [toCome, oneByOne]
    exact ⟨none, acts [] none⟩
  | cons req ws ih =>
    have none : ∀ k more sent w, soloRun a i w0 (firstOf es k) = (⟨(req :: ws) ++ more, none, sent, false⟩, w) →
      ∃ n, k ≤ n ∧ sent ++ toCome a false none (req :: ws) w <+: (soloRun a i w0 (firstOf es n)).1.sent := by
      intro k more sent w hk
      obtain ⟨n, more', h1, h2⟩ := solo_next hh hf hk
      simp only [Conn.turn, Bool.false_eq_true, if_false, List.append_assoc, List.cons_append] at h2
      obtain ⟨n', h3, h4⟩ := ih.2 _ n _ _ _ h2
      exact ⟨n', by omega, h4⟩
    exact ⟨none, acts _ none⟩

theorem solo_sent_mono (a : App U τ) (i : Nat) (s : Conn U τ × τ) (e : ConnEvent U) : s.1.sent <+: (soloAt a i s e).1.sent := by
  by_cases hi : ConnEvent.about e = i
  · rw [soloAt_self hi]
    obtain ⟨⟨waiting, current, sent, closed⟩, w⟩ := s
    cases e with
    | receive j req => cases closed <;> exact List.prefix_refl _
    | hangUp j => exact List.prefix_refl _
    | turn j =>
      cases closed with
      | true => exact List.prefix_refl _
      | false =>
        cases current with
        | none => cases waiting <;> exact List.prefix_refl _
        | some act =>
          cases act with
          | ret x => exact List.prefix_append _ _
          | panic x => exact List.prefix_refl _
          | step f k => exact List.prefix_refl _
          | print l k => exact List.prefix_refl _
  · rw [soloAt_other hi]; exact List.prefix_refl _

/-- **C91**, every request is answered: if a connection gets its turn again and again, and its client does not hang
up, then, whatever happens on the other connections, every request that it receives is answered some time, in
order, up to the first one that panics. -/
theorem C91_answered (a : App U τ) (w0 : Nat → τ) {es : Nat → ConnEvent U} {i : Nat}
    (hf : ∀ n, ∃ m, n ≤ m ∧ es m = .turn i) (hh : ∀ n, es n ≠ .hangUp i) (k : Nat) :
    ∃ n, ∀ n', n ≤ n' → oneByOne a (receivedOn i (firstOf es k)) (w0 i) <+:
      (((listening a w0).run (fun i => onPart i) (firstOf es n')).conns i).sent := by
  have track := onTrack_foldl (i := i) (firstOf es k) (onTrack_new a (w0 i)) (fun hm => by
    obtain ⟨n, _, hn⟩ := List.mem_map.1 hm; exact hh n hn) []
  rw [List.append_nil, List.nil_append] at track
  obtain ⟨n, h1, h2⟩ : ∃ n, k ≤ n ∧
      oneByOne a (receivedOn i (firstOf es k)) (w0 i) <+: (soloRun a i (w0 i) (firstOf es n)).1.sent := by
    rw [track]
    change ∃ n, k ≤ n ∧ (soloRun a i (w0 i) (firstOf es k)).1.sent ++ toCome a (soloRun a i (w0 i) (firstOf es k)).1.closed (soloRun a i (w0 i) (firstOf es k)).1.current ((soloRun a i (w0 i) (firstOf es k)).1.waiting ++ []) (soloRun a i (w0 i) (firstOf es k)).2 <+: _
    rcases hs : soloRun a i (w0 i) (firstOf es k) with ⟨⟨waiting, current, sent, closed⟩, w⟩
    cases closed with
    | true => exact ⟨k, Nat.le_refl k, by rw [hs]; simp [toCome]⟩
    | false =>
      obtain ⟨h1, h2⟩ := delivers (a := a) (w0 := w0 i) hh hf waiting
      cases current with
      | none => simpa using h1 k [] sent w (by simpa using hs)
      | some act => simpa using h2 act k [] sent w (by simpa using hs)
  refine ⟨n, fun n' hn => ?_⟩
  rw [(listening_solo a w0 _ i).1]
  show _ <+: (soloRun a i (w0 i) (firstOf es n')).1.sent
  obtain ⟨d, rfl⟩ := Nat.exists_eq_add_of_le hn
  clear hn
  induction d with
  | zero => exact h2
  | succ d ih =>
    rw [← Nat.add_assoc, solo_succ]
    exact ih.trans (solo_sent_mono ..)

/-! ### Connections that share the world -/

/-- The invariant: the steps and lines so far, each with its connection. -/
structure ConnsOK (a : App U σ) (w0 : σ) (s : ConnServer U σ σ) (received : Nat → List (Request U)) (hung : Nat → Prop)
    (h : Steps σ) (ls : List (Nat × Line)) : Prop where
  app : s.app = a
  world : s.world = worldAfter w0 h
  printed : s.printed = ls.map (·.2)
  conns : ∀ i, Progress a (s.conns i) (received i) (stepsOf i w0 h) (printedBy i ls)
  closed : ∀ i, (s.conns i).closed = true → hung i ∨ ∃ k, (s.conns i).current = some (.panic k)

theorem progress_receive {a : App U σ} {c : Conn U σ} {received : List (Request U)} {ps : List (σ × (σ → σ))} {ls : List Line}
    (h : Progress a c received ps ls) (req : Request U) : Progress a (c.receive req) (received ++ [req]) ps ls := by
  obtain ⟨done, rest, ps1, ls1, ps2, ls2, h1, h2, h3, h4, h5⟩ := h
  obtain ⟨waiting, current, sent, closed⟩ := c
  refine ⟨done, rest ++ [req], ps1, ls1, ps2, ls2, by rw [h1, List.append_assoc], h2, h3, ?_, ?_⟩
  · cases closed <;> exact h4
  · cases current with
    | none =>
      obtain ⟨h6, h7, h8⟩ := h5
      cases closed with
      | true => exact ⟨h6, h7, nofun⟩
      | false => exact ⟨h6, h7, fun _ => by rw [h8 rfl]; rfl⟩
    | some act =>
      obtain ⟨req', more, h6, h7, h8⟩ := h5
      cases closed with
      | true => exact ⟨req', more ++ [req], by rw [h6]; rfl, nofun, h8⟩
      | false => exact ⟨req', more ++ [req], by rw [h6]; rfl, fun _ => by rw [h7 rfl]; rfl, h8⟩

theorem progress_hangUp {a : App U σ} {c : Conn U σ} {received : List (Request U)} {ps : List (σ × (σ → σ))} {ls : List Line}
    (h : Progress a c received ps ls) : Progress a c.hangUp received ps ls := by
  obtain ⟨done, rest, ps1, ls1, ps2, ls2, h1, h2, h3, h4, h5⟩ := h
  obtain ⟨waiting, current, sent, closed⟩ := c
  refine ⟨done, rest, ps1, ls1, ps2, ls2, h1, h2, h3, h4, ?_⟩
  cases current with
  | none => exact ⟨h5.1, h5.2.1, nofun⟩
  | some act =>
    obtain ⟨req', more, h6, _, h8⟩ := h5
    exact ⟨req', more, h6, nofun, h8⟩

/-- The steps that a turn adds. -/
def turnSteps (c : Conn U σ) : List (σ → σ) :=
  if c.closed then [] else match c.current with | some (.step f _) => [f] | _ => []

theorem progress_turn {a : App U σ} {c : Conn U σ} {received : List (Request U)} {ps : List (σ × (σ → σ))} {ls : List Line}
    (h : Progress a c received ps ls) (w : σ) :
    Progress a (c.turn a.serve w).1 received (ps ++ (turnSteps c).map (w, ·)) (ls ++ (c.turn a.serve w).2.2) ∧
    (c.turn a.serve w).2.1 = (turnSteps c).foldl (fun w f => f w) w ∧
    ((c.turn a.serve w).1.closed = true → c.closed = true ∧ (c.turn a.serve w).1 = c ∨ ∃ k, (c.turn a.serve w).1.current = some (.panic k)) := by
  obtain ⟨done, rest, ps1, ls1, ps2, ls2, h1, h2, h3, h4, h5⟩ := h
  obtain ⟨waiting, current, sent, closed⟩ := c
  cases closed with
  | true =>
    simp only [Conn.turn, turnSteps, if_true, List.map_nil, List.append_nil]
    exact ⟨⟨done, rest, ps1, ls1, ps2, ls2, h1, h2, h3, h4, h5⟩, rfl, fun _ => .inl ⟨trivial, trivial⟩⟩
  | false =>
    cases current with
    | none =>
      obtain ⟨h6, h7, h8⟩ := h5
      cases waiting with
      | nil =>
        simp only [Conn.turn, turnSteps, Bool.false_eq_true, if_false, List.map_nil, List.append_nil]
        exact ⟨⟨done, rest, ps1, ls1, ps2, ls2, h1, h2, h3, h4, h6, h7, h8⟩, rfl, nofun⟩
      | cons req reqs =>
        simp only [Conn.turn, turnSteps, Bool.false_eq_true, if_false, List.map_nil, List.append_nil]
        refine ⟨⟨done, rest, ps1, ls1, ps2, ls2, h1, h2, h3, h4, req, reqs, h8 rfl, fun _ => rfl, ?_⟩, rfl, nofun⟩
        intro ps3 out ls3 hg
        rw [h6, h7]; exact hg
    | some act =>
      obtain ⟨req, more, h6, h7, h8⟩ := h5
      cases act with
      | ret x =>
        simp only [Conn.turn, turnSteps, Bool.false_eq_true, if_false, List.map_nil, List.append_nil]
        refine ⟨⟨done ++ [req], more, ps1 ++ ps2, ls1 ++ ls2, [], [], by rw [h1, h6]; simp, by rw [h2]; simp, by rw [h3]; simp,
          .more h4 ?_, rfl, rfl, h7⟩, rfl, nofun⟩
        have := h8 [] (.ok x) [] .ret
        rwa [List.append_nil, List.append_nil] at this
      | panic x =>
        simp only [Conn.turn, turnSteps, Bool.false_eq_true, if_false, List.map_nil, List.append_nil]
        exact ⟨⟨done, rest, ps1, ls1, ps2, ls2, h1, h2, h3, h4, req, more, h6, nofun, h8⟩, rfl, fun _ => .inr ⟨x, rfl⟩⟩
      | step f k =>
        simp only [Conn.turn, turnSteps, Bool.false_eq_true, if_false, List.map_cons, List.map_nil, List.append_nil]
        refine ⟨⟨done, rest, ps1, ls1, ps2 ++ [(w, f)], ls2, h1, by rw [h2, List.append_assoc], h3, h4, req, more, h6, h7, ?_⟩, rfl, nofun⟩
        intro ps3 out ls3 hg
        have := h8 _ out ls3 (.step (f := f) hg)
        simpa using this
      | print l k =>
        simp only [Conn.turn, turnSteps, Bool.false_eq_true, if_false, List.map_nil, List.append_nil]
        refine ⟨⟨done, rest, ps1, ls1, ps2, ls2 ++ [l], h1, h2, by rw [h3, List.append_assoc], h4, req, more, h6, h7, ?_⟩, rfl, nofun⟩
        intro ps3 out ls3 hg
        have := h8 _ out _ (.print (l := l) hg)
        simpa using this

theorem stepsOf_mine (i : Nat) (w : σ) (fs : List (σ → σ)) (h : fs.length ≤ 1) :
    stepsOf i w (fs.map (i, ·)) = fs.map (w, ·) := by
  match fs, h with
  | [], _ => rfl
  | [f], _ => simp [stepsOf]

theorem stepsOf_others {i j : Nat} (hij : i ≠ j) (w : σ) (fs : List (σ → σ)) : stepsOf j w (fs.map (i, ·)) = [] := by
  induction fs generalizing w with
  | nil => rfl
  | cons f fs ih => simp only [List.map_cons, stepsOf, hij, if_false, ih]

theorem turnSteps_length (c : Conn U σ) : (turnSteps c).length ≤ 1 := by
  rw [turnSteps]; split
  · exact Nat.zero_le _
  · split <;> simp

theorem worldAfter_mine (i : Nat) (w : σ) (fs : List (σ → σ)) : worldAfter w (fs.map (i, ·)) = fs.foldl (fun w f => f w) w := by
  induction fs generalizing w with
  | nil => rfl
  | cons f fs ih => exact ih (f w)

theorem conns_step {a : App U σ} {w0 : σ} {s : ConnServer U σ σ} {received : Nat → List (Request U)} {hung : Nat → Prop}
    {h : Steps σ} {ls : List (Nat × Line)} (ok : ConnsOK a w0 s received hung h ls) (e : ConnEvent U) :
    ∃ h' ls', ConnsOK a w0 (s.step shared e) (fun i => received i ++ receivedOn i [e]) (fun i => hung i ∨ e = .hangUp i) h' ls' := by
  cases e with
  | receive i req =>
    refine ⟨h, ls, ok.app, ok.world, ok.printed, fun j => ?_, fun j hj => ?_⟩
    · by_cases hij : j = i
      · subst hij
        simp only [ConnServer.step, if_true, receivedOn]
        exact progress_receive (ok.conns j) req
      · have hij' : i ≠ j := fun e => hij e.symm
        simp only [ConnServer.step, hij, if_false, receivedOn, hij', List.append_nil]
        exact ok.conns j
    · by_cases hij : j = i
      · subst hij
        simp only [ConnServer.step, if_true] at hj ⊢
        have hc : (s.conns j).closed = true ∧ (s.conns j).receive req = s.conns j := by
          by_cases hc : (s.conns j).closed = true
          · exact ⟨hc, if_pos hc⟩
          · rw [Conn.receive, if_neg hc] at hj; exact absurd hj hc
        rw [hc.2]
        exact (ok.closed j hc.1).imp .inl id
      · simp only [ConnServer.step, hij, if_false] at hj ⊢
        exact (ok.closed j hj).imp .inl id
  | hangUp i =>
    refine ⟨h, ls, ok.app, ok.world, ok.printed, fun j => ?_, fun j hj => ?_⟩
    · simp only [receivedOn, List.append_nil]
      by_cases hij : j = i
      · subst hij
        simp only [ConnServer.step, if_true]
        exact progress_hangUp (ok.conns j)
      · simp only [ConnServer.step, hij, if_false]
        exact ok.conns j
    · by_cases hij : j = i
      · subst hij; exact .inl (.inr rfl)
      · simp only [ConnServer.step, hij, if_false] at hj ⊢
        exact (ok.closed j hj).imp .inl id
  | turn i =>
    obtain ⟨h1, h2, h3⟩ := progress_turn (ok.conns i) s.world
    have hs : s.step shared (.turn i) = { s with
        conns := fun j => if j = i then ((s.conns i).turn a.serve s.world).1 else s.conns j
        world := ((s.conns i).turn a.serve s.world).2.1
        printed := s.printed ++ ((s.conns i).turn a.serve s.world).2.2 } := by
      simp only [ConnServer.step, shared, ok.app]
    rw [hs]
    refine ⟨h ++ (turnSteps (s.conns i)).map (i, ·), ls ++ ((s.conns i).turn a.serve s.world).2.2.map (i, ·), ok.app, ?_, ?_, fun j => ?_, fun j hj => ?_⟩
    · rw [worldAfter_append, worldAfter_mine, ← ok.world, ← h2]
    · simp [ok.printed, Function.comp_def]
    · simp only [receivedOn, List.append_nil]
      rw [stepsOf_append, printedBy_append, ← ok.world]
      by_cases hij : j = i
      · subst hij
        simp only [if_true]
        rw [stepsOf_mine _ _ _ (turnSteps_length _)]
        rw [show printedBy j (((s.conns j).turn a.serve s.world).2.2.map (j, ·)) = ((s.conns j).turn a.serve s.world).2.2 by
          simp [printedBy, List.filter_map, Function.comp_def]]
        exact h1
      · have hij' : i ≠ j := fun e => hij e.symm
        simp only [hij, if_false]
        rw [stepsOf_others hij', show printedBy j (((s.conns i).turn a.serve s.world).2.2.map (i, ·)) = [] by
          simp [printedBy, List.filter_map, Function.comp_def, hij'], List.append_nil, List.append_nil]
        exact ok.conns j
    · by_cases hij : j = i
      · subst hij
        simp only [if_true] at hj ⊢
        rcases h3 hj with ⟨hc, he⟩ | hp
        · rw [he]; exact (ok.closed j hc).imp .inl id
        · exact .inr hp
      · simp only [hij, if_false] at hj ⊢
        exact (ok.closed j hj).imp .inl id

theorem conns_run {a : App U σ} {w0 : σ} (es : List (ConnEvent U)) {s : ConnServer U σ σ} {received : Nat → List (Request U)}
    {hung : Nat → Prop} {h : Steps σ} {ls : List (Nat × Line)} (ok : ConnsOK a w0 s received hung h ls) :
    ∃ h' ls', ConnsOK a w0 (s.run shared es) (fun i => received i ++ receivedOn i es) (fun i => hung i ∨ .hangUp i ∈ es) h' ls' := by
  induction es generalizing s received hung h ls with
  | nil => exact ⟨h, ls, ok.app, ok.world, ok.printed, by simpa [receivedOn, ConnServer.run] using ok.conns, by simpa [ConnServer.run] using ok.closed⟩
  | cons e es ih =>
    obtain ⟨h1, ls1, ok1⟩ := conns_step ok e
    obtain ⟨h2, ls2, ok2⟩ := ih ok1
    refine ⟨h2, ls2, ok2.app, ok2.world, ok2.printed, fun i => ?_, fun i hi => ?_⟩
    · have := ok2.conns i
      rw [List.append_assoc, ← received_append] at this
      exact this
    · refine (ok2.closed i hi).imp (fun h => ?_) id
      rcases h with (h | h) | h
      · exact .inl h
      · exact .inr (by rw [h]; exact List.mem_cons_self)
      · exact .inr (List.mem_cons_of_mem _ h)

/-- **C91**, connections that share the world: whatever happens on the connections, in any interleaving, all on the
same world: the world is the result of single steps of requests, one after the other, and every printed line was
printed by one of them; on each connection the requests are served strictly one after the other, in the order in
which they were received, each as if it were alone but for the worlds that its steps found, and the responses are
sent in this order; and a connection is closed only by its client or by a panic of its own request. -/
theorem C91_shared (a : App U σ) (w0 : σ) (es : List (ConnEvent U)) :
    let s := (listening a w0).run shared es
    ∃ (steps : Steps σ) (lines : List (Nat × Line)), s.world = worldAfter w0 steps ∧ s.printed = lines.map (·.2) ∧
      ∀ i, Progress a (s.conns i) (receivedOn i es) (stepsOf i w0 steps) (printedBy i lines) ∧
        ((s.conns i).closed = true → .hangUp i ∈ es ∨ ∃ k, (s.conns i).current = some (.panic k)) := by
  intro s
  obtain ⟨steps, lines, ok⟩ := conns_run es (s := listening a w0) (a := a) (w0 := w0) (received := fun _ => [])
    (hung := fun _ => False) (h := []) (ls := [])
    ⟨rfl, rfl, rfl, fun i => ⟨[], [], [], [], [], [], rfl, rfl, rfl, .nil, rfl, rfl, fun _ => rfl⟩, fun i hi => by cases hi⟩
  exact ⟨steps, lines, ok.world, ok.printed, fun i => ⟨ok.conns i, fun hc => by simpa using ok.closed i hc⟩⟩

/-! ### Closed connections -/

theorem closed_step (embed : Nat → Act τ Sent → Act σ Sent) {s : ConnServer U σ τ} {i : Nat} (hc : (s.conns i).closed = true)
    (e : ConnEvent U) : (s.step embed e).conns i = s.conns i ∧ (ConnEvent.about e = i → s.step embed e = s) := by
  have same : ∀ c j, c = s.conns j → (fun k => if k = j then c else s.conns k) = s.conns := by
    intro c j h; funext k; split
    · next hk => rw [hk, h]
    · rfl
  have same' : ∀ c j, (j = i → c = s.conns j) → (if i = j then c else s.conns i) = s.conns i := by
    intro c j h; split
    · next hk => rw [h hk.symm, hk]
    · rfl
  cases e with
  | receive j req =>
    have key : j = i → (s.conns j).receive req = s.conns j := fun h => by rw [h, Conn.receive, if_pos hc]
    refine ⟨same' _ j key, fun h => ?_⟩
    simp only [ConnServer.step, same _ j (key h)]
  | hangUp j =>
    have key : j = i → (s.conns j).hangUp = s.conns j := fun h => by
      rw [h, Conn.hangUp, ← hc]
    refine ⟨same' _ j key, fun h => ?_⟩
    simp only [ConnServer.step, same _ j (key h)]
  | turn j =>
    have key : j = i → (s.conns j).turn (fun req => embed j (s.app.serve req)) s.world = (s.conns j, s.world, []) := fun h => by
      rw [h, Conn.turn, if_pos hc]
    refine ⟨same' ((s.conns j).turn (fun req => embed j (s.app.serve req)) s.world).1 j (fun h => by rw [key h]), fun h => ?_⟩
    simp only [ConnServer.step, key h, same _ j rfl, List.append_nil]

theorem closed_run (embed : Nat → Act τ Sent → Act σ Sent) (es : List (ConnEvent U)) {s : ConnServer U σ τ} {i : Nat}
    (hc : (s.conns i).closed = true) : (s.run embed es).conns i = s.conns i ∧
      s.run embed es = s.run embed (es.filter fun e => ConnEvent.about e ≠ i) := by
  induction es generalizing s with
  | nil => exact ⟨rfl, rfl⟩
  | cons e es ih =>
    obtain ⟨h1, h2⟩ := closed_step embed hc e
    obtain ⟨h3, h4⟩ := ih (s := s.step embed e) (by rw [h1]; exact hc)
    refine ⟨h3.trans h1, h4.trans ?_⟩
    by_cases hi : ConnEvent.about e = i
    · rw [h2 hi, List.filter_cons_of_neg (by simpa using hi)]
    · rw [List.filter_cons_of_pos (by simpa using hi)]; rfl

theorem hangUp_closes (embed : Nat → Act τ Sent → Act σ Sent) (es : List (ConnEvent U)) (s : ConnServer U σ τ) {i : Nat}
    (h : .hangUp i ∈ es) : ((s.run embed es).conns i).closed = true := by
  induction es generalizing s with
  | nil => cases h
  | cons e es ih =>
    rcases List.mem_cons.1 h with rfl | h
    · have hc : ((s.step embed (.hangUp i)).conns i).closed = true := by simp [ConnServer.step, Conn.hangUp]
      have := (closed_run embed es hc).1
      rw [← this] at hc
      exact hc
    · exact ih (s.step embed e) h

/-- **C91**, closed connections: when the client has hung up, or a request has panicked, nothing is sent any more on
this connection, and what happens to it has no effect on anything else (`embed` is arbitrary: also in a shared world). -/
theorem C91_closed (embed : Nat → Act τ Sent → Act σ Sent) (s : ConnServer U σ τ) (es es' : List (ConnEvent U)) (i : Nat)
    (h : .hangUp i ∈ es ∨ ((s.run embed es).conns i).closed = true) :
    (s.run embed (es ++ es')).conns i = (s.run embed es).conns i ∧
    s.run embed (es ++ es') = s.run embed (es ++ es'.filter fun e => ConnEvent.about e ≠ i) := by
  have hc : ((s.run embed es).conns i).closed = true := h.elim (hangUp_closes embed es s) id
  simp only [ConnServer.run, List.foldl_append]
  exact closed_run embed es' hc

/-- **C91**, what has been sent stays sent. -/
theorem C91_kept (embed : Nat → Act τ Sent → Act σ Sent) (s : ConnServer U σ τ) (es : List (ConnEvent U)) (i : Nat) :
    (s.conns i).sent <+: ((s.run embed es).conns i).sent := by
  induction es generalizing s with
  | nil => exact List.prefix_refl _
  | cons e es ih =>
    refine List.IsPrefix.trans ?_ (ih (s.step embed e))
    cases e with
    | receive j req =>
      simp only [ConnServer.step]
      split
      · next h => subst h; rw [Conn.receive]; split <;> exact List.prefix_refl _
      · exact List.prefix_refl _
    | hangUp j =>
      simp only [ConnServer.step]
      split
      · next h => subst h; exact List.prefix_refl _
      · exact List.prefix_refl _
    | turn j =>
      simp only [ConnServer.step]
      split
      · next h =>
        subst h
        obtain ⟨waiting, current, sent, closed⟩ := s.conns i
        cases closed with
        | true => exact List.prefix_refl _
        | false =>
          cases current with
          | none => cases waiting <;> exact List.prefix_refl _
          | some act =>
            cases act with
            | ret => exact List.prefix_append _ _
            | panic => exact List.prefix_refl _
            | step => exact List.prefix_refl _
            | print => exact List.prefix_refl _
      · exact List.prefix_refl _

/-- **C91**, when nothing is left to be done on a connection, and its client has not hung up, then the responses
that were sent on it are exactly those to its requests, up to the first one that panics. -/
theorem C91_idle (a : App U τ) (w0 : Nat → τ) (es : List (ConnEvent U)) (i : Nat) (hh : .hangUp i ∉ es)
    (hi : Idle (((listening a w0).run (fun i => onPart i) es).conns i)) :
    (((listening a w0).run (fun i => onPart i) es).conns i).sent = oneByOne a (receivedOn i es) (w0 i) := by
  rw [(listening_solo a w0 es i).1] at hi ⊢
  have h := onTrack_foldl (i := i) es (onTrack_new a (w0 i)) hh []
  show (soloRun a i (w0 i) es).1.sent = _
  change Idle (connOn i (soloRun a i (w0 i) es).1) at hi
  rw [show es.foldl (soloAt a i) (Conn.new, w0 i) = soloRun a i (w0 i) es from rfl] at h
  generalize soloRun a i (w0 i) es = p at h hi ⊢
  obtain ⟨⟨waiting, current, sent, closed⟩, w⟩ := p
  simp only [List.append_nil, List.nil_append] at h
  rw [h]
  rcases hi with hi | ⟨hi, hw⟩
  · simp only [connOn] at hi; subst hi; simp [toCome]
  · simp only [connOn] at hi hw
    cases current with
    | some => cases hi
    | none =>
      cases waiting with
      | cons => cases hw
      | nil => cases closed <;> simp [toCome, oneByOne]

/-! ### A server with one client -/

/-- What comes of the rest. -/
def remains (a : App U σ) (c : Conn U σ) (extra : List (Request U)) (w : σ) : List Sent × σ × List Line :=
  if c.closed then ([], w, [])
  else
    match c.current with
    | none => oneAfterAnother a (c.waiting ++ extra) w
    | some act =>
      match (act.run w).out with
      | .ok sent =>
        let (sents, w', lines) := oneAfterAnother a (c.waiting ++ extra) (act.run w).world
        (sent :: sents, w', (act.run w).printed ++ lines)
      | .error _ => ([], (act.run w).world, (act.run w).printed)

theorem turn_remains (a : App U σ) (c : Conn U σ) (w : σ) (extra : List (Request U)) :
    let r := c.turn a.serve w
    let m := remains a r.1 extra r.2.1
    let m0 := remains a c extra w
    r.1.sent ++ m.1 = c.sent ++ m0.1 ∧ m.2.1 = m0.2.1 ∧ r.2.2 ++ m.2.2 = m0.2.2 := by
  obtain ⟨waiting, current, sent, closed⟩ := c
  cases closed with
  | true => exact ⟨rfl, rfl, rfl⟩
  | false =>
    cases current with
    | none =>
      cases waiting with
      | nil => exact ⟨rfl, rfl, rfl⟩
      | cons req reqs => exact ⟨rfl, rfl, rfl⟩
    | some act =>
      cases act with
      | ret x => simp [Conn.turn, remains, Act.run]
      | panic x => simp [Conn.turn, remains, Act.run]
      | step f k => simp [Conn.turn, remains, Act.run]
      | print l k =>
        simp only [Conn.turn, remains, Act.run, Bool.false_eq_true, if_false]
        cases (k.run w).out <;> simp

/-- **C91**, a server with one client: when everything is done, the responses, the world and the printed lines are
exactly those of its requests, one after the other, up to the first one that panics. -/
theorem C91_one_client (a : App U σ) (w0 : σ) (es : List (ConnEvent U)) (i : Nat) (ha : ∀ e ∈ es, ConnEvent.about e = i)
    (hh : .hangUp i ∉ es) (hi : Idle (((listening a w0).run shared es).conns i)) :
    ((((listening a w0).run shared es).conns i).sent, ((listening a w0).run shared es).world,
      ((listening a w0).run shared es).printed) = oneAfterAnother a (receivedOn i es) w0 := by
  have key : ∀ (es : List (ConnEvent U)) (s : ConnServer U σ σ) (received : List (Request U)), s.app = a →
      (∀ e ∈ es, ConnEvent.about e = i) → .hangUp i ∉ es →
      (∀ extra, oneAfterAnother a (received ++ extra) w0 = ((s.conns i).sent ++ (remains a (s.conns i) extra s.world).1,
        (remains a (s.conns i) extra s.world).2.1, s.printed ++ (remains a (s.conns i) extra s.world).2.2)) →
      let t := s.run shared es
      ∀ extra, oneAfterAnother a (received ++ receivedOn i es ++ extra) w0 =
        ((t.conns i).sent ++ (remains a (t.conns i) extra t.world).1,
        (remains a (t.conns i) extra t.world).2.1, t.printed ++ (remains a (t.conns i) extra t.world).2.2) := by
    intro es
    induction es with
    | nil => intro s received _ _ _ h; simpa [receivedOn, ConnServer.run] using h
    | cons e es ih =>
      intro s received hs ha hh h
      have he := ha e (by simp)
      have := ih (s.step shared e) (received ++ receivedOn i [e]) (by cases e <;> exact hs) (fun e' h' => ha e' (by simp [h']))
        (fun h' => hh (by simp [h']))
      rw [List.append_assoc received, ← received_append] at this
      refine this fun extra => ?_
      cases e with
      | receive j req =>
        obtain rfl : j = i := he
        rw [show receivedOn j [.receive j req] = [req] from if_pos rfl, List.append_assoc, h]
        simp only [ConnServer.step, if_true, Conn.receive]
        cases hc : (s.conns j).closed with
        | true => simp [remains, hc]
        | false => simp [remains, hc]
      | hangUp j =>
        obtain rfl : j = i := he
        exact absurd (List.mem_cons_self) hh
      | turn j =>
        obtain rfl : j = i := he
        obtain ⟨h1, h2, h3⟩ := turn_remains a (s.conns j) s.world extra
        rw [show receivedOn j [(.turn j : ConnEvent U)] = [] from rfl, List.append_nil, h, ← h1, ← h2, ← h3, ← List.append_assoc]
        simp only [ConnServer.step, if_true, hs]
        rfl
  have h := key es (listening a w0) [] rfl ha hh (fun _ => by simp [listening, remains, Conn.new]) []
  simp only [List.append_nil, List.nil_append] at h
  rw [h]
  generalize (listening a w0).run shared es = t at hi ⊢
  have hr : remains a (t.conns i) [] t.world = ([], t.world, []) := by
    rcases hi with hi | ⟨hi, hw⟩
    · simp [remains, hi]
    · rw [Option.isNone_iff_eq_none] at hi
      rw [List.isEmpty_iff] at hw
      simp [remains, hi, hw, oneAfterAnother]
  rw [hr]; simp

/-! ### Examples -/

/-- An application that counts, and one of whose handlers panics. -/
def connApp : App demoU W := ⟨(build [.get (s "/hit") hitHandler, .get (s "/boom") fun _ => .panic (.user [])]).1, none⟩

/-- Three requests on connection 0, all of them before the first is answered, and meanwhile a panic on connection 1
and a client that hangs up on connection 2. -/
def connEvents : List (ConnEvent demoU) :=
  [.receive 0 (demoReq .get "/hit"), .receive 1 (demoReq .get "/boom"), .receive 1 (demoReq .get "/hit"), .turn 1,
   .receive 0 (demoReq .get "/no"), .receive 0 (demoReq .get "/hit"), .turn 0, .receive 2 (demoReq .get "/hit"), .turn 2,
   .turn 1, .turn 0, .turn 1, .hangUp 2, .turn 2, .turn 2, .turn 0, .turn 0, .turn 0, .turn 0, .turn 0, .turn 0, .turn 1]

/-- What was sent on a connection, whether it is closed, and how many requests are left. -/
def connView (s : ConnServer demoU σ W) (i : Nat) : List (Nat × List UInt8) × Bool × Nat :=
  ((s.conns i).sent.map fun x => (x.status, x.body.bytes), (s.conns i).closed, (s.conns i).waiting.length)

example : let s := (listening connApp fun i => 5 * i).run (fun i => onPart i) connEvents
    connView s 0 = ([(200, utf8 "0".toList), (404, utf8 "404 Not Found".toList), (200, utf8 "1".toList)], false, 0) ∧
    connView s 1 = ([], true, 1) ∧ connView s 2 = ([], true, 0) ∧ s.world 0 = 2 ∧ s.world 1 = 5 ∧ s.world 2 = 10 := by
  decide +kernel

/-- The responses to the three requests, one after the other. -/
example : (oneByOne connApp (receivedOn 0 connEvents) 0).map (fun x => (x.status, x.body.bytes)) =
      [(200, utf8 "0".toList), (404, utf8 "404 Not Found".toList), (200, utf8 "1".toList)] ∧
    (oneByOne connApp (receivedOn 1 connEvents) 5).length = 0 := by
  decide +kernel

/-- With a shared world: connection 2 counts in between. -/
example : let s := (listening connApp (3 : W)).run shared [.receive 0 (demoReq .get "/hit"), .receive 0 (demoReq .get "/hit"), .receive 2 (demoReq .get "/hit"), .turn 0, .turn 0, .turn 2,
       .turn 2, .turn 2, .turn 0, .turn 0, .turn 0, .turn 0]
    connView s 0 = ([(200, utf8 "3".toList), (200, utf8 "5".toList)], false, 0) ∧
    connView s 2 = ([(200, utf8 "4".toList)], false, 0) ∧ s.world = 6 := by
  decide +kernel

/-- One client, three requests, the second of which panics. -/
example : let es : List (ConnEvent demoU) := [.receive 0 (demoReq .get "/hit"), .turn 0, .turn 0, .receive 0 (demoReq .get "/boom"),
      .receive 0 (demoReq .get "/hit"), .turn 0, .turn 0, .turn 0, .turn 0, .turn 0]
    let s := (listening connApp (3 : W)).run shared es
    (∀ e ∈ es, ConnEvent.about e = 0) ∧ (s.conns 0).closed = true ∧
    connView s 0 = ([(200, utf8 "3".toList)], true, 1) ∧ s.world = 4 := by
  decide +kernel

/-- The first three requests arrive, and then all connections take their turns. -/
def connTurns : Nat → ConnEvent demoU
  | 0 => .receive 0 (demoReq .get "/hit")
  | 1 => .receive 0 (demoReq .get "/no")
  | 2 => .receive 1 (demoReq .get "/boom")
  | n + 3 => .turn (halvings n (n + 1))

/-- Both requests on connection 0 are answered some time. -/
example : ∃ n, ∀ n', n ≤ n' → oneByOne connApp [demoReq .get "/hit", demoReq .get "/no"] 0 <+:
    (((listening connApp fun i => 5 * i).run (fun i => onPart i) (firstOf connTurns n')).conns 0).sent := by
  refine C91_answered connApp (fun i => 5 * i) (es := connTurns) (i := 0) (fun n => ⟨2 * n + 3, by omega, ?_⟩) (fun n => ?_) 3
  · show ConnEvent.turn (halvings (2 * n) (2 * n + 1)) = .turn 0
    have := halvings_odd 0 n (2 * n) (Nat.zero_le _)
    rw [Nat.pow_zero, Nat.one_mul] at this
    rw [this]
  · match n with
    | 0 => exact nofun
    | 1 => exact nofun
    | 2 => exact nofun
    | n + 3 => exact nofun

end Obsidian.Props
