import Verif.Spec.Runs
import Verif.Props.State
import Verif.Spec.Isolation

/-
C48: requests that are served concurrently.
-/
namespace Obsidian.Props
open Obsidian Spec
variable {U : Univ} {τ : Type}

/-- What is left of a task agrees with serving the request alone, from the state in which its part of
the world was in the beginning. -/
def TaskOK (a : App U τ) (w0 w : Nat → τ) (i : Nat) (t : Task U (Nat → τ)) : Prop :=
  ∃ act : Act τ Sent, t.todo = onPart i act ∧
    (act.run (w i)).out = ((a.serve t.req).run (w0 i)).out ∧
    (act.run (w i)).world = ((a.serve t.req).run (w0 i)).world

/-- The invariant of the server. -/
structure ServerOK (a : App U τ) (w0 : Nat → τ) (s : Server U (Nat → τ) τ) : Prop where
  app : s.app = a
  tasks : ∀ i t, s.tasks[i]? = some t → TaskOK a w0 s.world i t
  fresh : ∀ i, s.tasks.length ≤ i → s.world i = w0 i

theorem stepOnce_part (act : Act τ Sent) (i : Nat) (w : Nat → τ) :
    ∃ act' : Act τ Sent, ((onPart i act).stepOnce w).1 = onPart i act' ∧
      (act'.run (((onPart i act).stepOnce w).2.1 i)).out = (act.run (w i)).out ∧
      (act'.run (((onPart i act).stepOnce w).2.1 i)).world = (act.run (w i)).world ∧
      ∀ j, j ≠ i → ((onPart i act).stepOnce w).2.1 j = w j := by
  cases act with
  | ret a => exact ⟨.ret a, rfl, rfl, rfl, fun _ _ => rfl⟩
  | panic c => exact ⟨.panic c, rfl, rfl, rfl, fun _ _ => rfl⟩
  | step f k =>
    refine ⟨k (w i), rfl, ?_, ?_, fun j hj => ?_⟩
    · simp [onPart, Act.stepOnce]
    · simp [onPart, Act.stepOnce]
    · simp [onPart, Act.stepOnce, hj]
  | print l k => exact ⟨k, rfl, rfl, rfl, fun _ _ => rfl⟩

theorem server_step {a : App U τ} {w0 : Nat → τ} {s : Server U (Nat → τ) τ} (h : ServerOK a w0 s)
    (e : Event U) : ServerOK a w0 (s.step (fun i => onPart i) e) := by
  cases e with
  | arrive req =>
    refine ⟨h.app, fun i t ht => ?_, fun i hi => ?_⟩
    · simp only [Server.step] at ht ⊢
      rw [List.getElem?_append] at ht
      split at ht
      · exact h.tasks i t ht
      · next hlt =>
        have hi : i = s.tasks.length := by
          by_cases h0 : i - s.tasks.length = 0
          · omega
          · rw [List.getElem?_cons] at ht
            rw [if_neg h0] at ht; simp at ht
        subst hi
        simp at ht
        subst ht
        refine ⟨a.serve req, by rw [h.app], ?_, ?_⟩ <;> rw [h.fresh _ (Nat.le_refl _)]
    · simp only [Server.step, List.length_append, List.length_singleton] at hi ⊢
      exact h.fresh i (by omega)
  | step i =>
    simp only [Server.step]
    cases ht : s.tasks[i]? with
    | none => exact h
    | some t =>
      simp only
      obtain ⟨act, h1, h2, h3⟩ := h.tasks i t ht
      obtain ⟨act', k1, k2, k3, k4⟩ := stepOnce_part act i s.world
      have hlt : i < s.tasks.length := by
        rw [List.getElem?_eq_some_iff] at ht; exact ht.1
      rw [h1]
      refine ⟨h.app, fun j t' ht' => ?_, fun j hj => ?_⟩
      · simp only at ht' ⊢
        rw [List.getElem?_set] at ht'
        split at ht'
        · next hij =>
          subst hij
          injection ht' with ht'
          subst ht'
          exact ⟨act', k1, by rw [k2, h2], by rw [k3, h3]⟩
        · next hij =>
          obtain ⟨act2, m1, m2, m3⟩ := h.tasks j t' ht'
          exact ⟨act2, m1, by rw [k4 j (fun h => hij h.symm)]; exact m2,
            by rw [k4 j (fun h => hij h.symm)]; exact m3⟩
      · simp only [List.length_set] at hj ⊢
        rw [k4 j (by omega)]
        exact h.fresh j hj

theorem server_run {a : App U τ} {w0 : Nat → τ} (es : List (Event U)) {s : Server U (Nat → τ) τ}
    (h : ServerOK a w0 s) : ServerOK a w0 (s.run (fun i => onPart i) es) := by
  induction es generalizing s with
  | nil => exact h
  | cons e es ih => exact ih (server_step h e)

theorem run_requests (es : List (Event U)) (s : Server U (Nat → τ) τ) :
    (s.run (fun i => onPart i) es).tasks.map (·.req) = s.tasks.map (·.req) ++ arrived es := by
  induction es generalizing s with
  | nil => simp [Server.run, arrived]
  | cons e es ih =>
    have := ih (s.step (fun i => onPart i) e)
    simp only [Server.run, List.foldl_cons] at this ⊢
    rw [this]
    cases e with
    | arrive req => simp [Server.step, arrived]
    | step i =>
      simp only [arrived]
      congr 1
      simp only [Server.step]
      cases ht : s.tasks[i]? with
      | none => rfl
      | some t =>
        apply List.ext_getElem?
        intro j
        simp only [List.getElem?_map, List.getElem?_set]
        by_cases hij : i = j
        · subst hij
          have hlt : i < s.tasks.length := by
            rw [List.getElem?_eq_some_iff] at ht; exact ht.1
          rw [if_pos rfl, if_pos hlt, ht]; rfl
        · simp [hij]

/-- **C48**: whatever requests arrive and however their steps are interleaved, the application (its
routes and its state) stays the same; the `i`-th task serves the `i`-th request; and if it is finished,
its answer (or panic) and its effect are the ones of serving that request alone, as long as the handlers
of different requests work on different parts of the world. -/
theorem C48_isolation (a : App U τ) (w0 : Nat → τ) (es : List (Event U)) :
    let s := (idle a w0).run (fun i => onPart i) es
    s.app = a ∧ s.tasks.map (·.req) = arrived es ∧
    (∀ i t sent, s.tasks[i]? = some t → t.todo = .ret sent →
      ((a.serve t.req).run (w0 i)).out = .ok sent ∧ s.world i = ((a.serve t.req).run (w0 i)).world) ∧
    (∀ i t c, s.tasks[i]? = some t → t.todo = .panic c →
      ((a.serve t.req).run (w0 i)).out = .error c ∧ s.world i = ((a.serve t.req).run (w0 i)).world) := by
  have h := server_run es (s := idle a w0) (a := a) (w0 := w0)
    ⟨rfl, fun i t ht => by simp [idle] at ht, fun _ _ => rfl⟩
  refine ⟨h.app, by rw [run_requests]; rfl, ?_, ?_⟩
  · intro i t sent ht hd
    obtain ⟨act, h1, h2, h3⟩ := h.tasks i t ht
    rw [hd] at h1
    cases act with
    | ret x =>
      simp only [onPart, Act.ret.injEq] at h1
      subst h1
      exact ⟨h2.symm, h3⟩
    | _ => simp [onPart] at h1
  · intro i t c ht hd
    obtain ⟨act, h1, h2, h3⟩ := h.tasks i t ht
    rw [hd] at h1
    cases act with
    | panic x =>
      simp only [onPart, Act.panic.injEq] at h1
      subst h1
      exact ⟨h2.symm, h3⟩
    | _ => simp [onPart] at h1

/-- **C48**, progress: no task can block another one: from any state of the server, the `i`-th task is
finished after some number of its own steps. -/
theorem C48_no_blocking (s : Server U (Nat → τ) τ) (i : Nat) (t : Task U (Nat → τ))
    (ht : s.tasks[i]? = some t) : ∃ n t', (s.run (fun i => onPart i) (List.replicate n (.step i))).tasks[i]? = some t' ∧
      ((∃ sent, t'.todo = .ret sent) ∨ ∃ c, t'.todo = .panic c) := by
  obtain ⟨req, todo⟩ := t
  induction todo generalizing s with
  | ret a => exact ⟨0, _, ht, Or.inl ⟨a, rfl⟩⟩
  | panic c => exact ⟨0, _, ht, Or.inr ⟨c, rfl⟩⟩
  | step f k ih =>
    have hlt : i < s.tasks.length := by
      rw [List.getElem?_eq_some_iff] at ht; exact ht.1
    obtain ⟨n, t', h1, h2⟩ := ih s.world (s.step (fun i => onPart i) (.step i)) (by
      simp only [Server.step, ht, Act.stepOnce, List.getElem?_set]
      simp [hlt])
    exact ⟨n + 1, t', by rw [List.replicate_succ]; exact h1, h2⟩
  | print l k ih =>
    have hlt : i < s.tasks.length := by
      rw [List.getElem?_eq_some_iff] at ht; exact ht.1
    obtain ⟨n, t', h1, h2⟩ := ih (s.step (fun i => onPart i) (.step i)) (by
      simp only [Server.step, ht, Act.stepOnce, List.getElem?_set]
      simp [hlt])
    exact ⟨n + 1, t', by rw [List.replicate_succ]; exact h1, h2⟩

/-- Two requests, interleaved: both have the effect they have alone. -/
example : let es : List (Event demoU) := [.arrive (demoReq .get "/hello"), .step 0,
        .arrive (demoReq .get "/fail"), .step 1, .step 1, .step 0, .step 1, .step 0]
    let s := (idle demoApp (fun i => 10 * i)).run (fun i => onPart i) es
    s.world 0 = 12 ∧ s.world 1 = 32 := by
  decide +kernel

end Obsidian.Props
