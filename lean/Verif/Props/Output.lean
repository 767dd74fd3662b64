import Verif.Spec.Runs
import Verif.Props.Fair
import Verif.Props.LoggerOut

/- C66: the output of requests that are served concurrently. -/
namespace Obsidian.Props
open Obsidian Spec
variable {U : Univ} {τ : Type}

theorem linesOf_append (i : Nat) (xs ys : List (Nat × Line)) :
    linesOf i (xs ++ ys) = linesOf i xs ++ linesOf i ys := by simp [linesOf]

theorem linesOf_own (i : Nat) (out : List Line) : linesOf i (out.map (fun l => (i, l))) = out := by
  induction out with
  | nil => rfl
  | cons l r ih => simp [linesOf] at ih ⊢; exact ih

theorem linesOf_other {i j : Nat} (h : j ≠ i) (out : List Line) : linesOf i (out.map (fun l => (j, l))) = [] := by
  induction out with
  | nil => rfl
  | cons l r ih => simp [linesOf, h]

/-- What is printed in one step of a task, and what remains to be printed. -/
theorem stepOnce_prints (act : Act τ Sent) (i : Nat) (w : Nat → τ) :
    ∃ act' : Act τ Sent, ((onPart i act).stepOnce w).1 = onPart i act' ∧
      (act.run (w i)).printed = ((onPart i act).stepOnce w).2.2 ++ (act'.run (((onPart i act).stepOnce w).2.1 i)).printed ∧
      ∀ j, j ≠ i → ((onPart i act).stepOnce w).2.1 j = w j := by
  cases act with
  | ret a => exact ⟨.ret a, rfl, rfl, fun _ _ => rfl⟩
  | panic c => exact ⟨.panic c, rfl, rfl, fun _ _ => rfl⟩
  | step f k =>
    refine ⟨k (w i), rfl, ?_, fun j hj => ?_⟩
    · simp [onPart, Act.stepOnce, Act.run]
    · simp [onPart, Act.stepOnce, hj]
  | print l k => exact ⟨k, rfl, rfl, fun _ _ => rfl⟩

/-- The invariant: `ls` is the output of the server, every line with the number of the request it
belongs to. -/
structure OutputOK (a : App U τ) (w0 : Nat → τ) (s : Server U (Nat → τ) τ) (ls : List (Nat × Line)) : Prop where
  app : s.app = a
  printed : s.printed = ls.map (·.2)
  known : ∀ e ∈ ls, e.1 < s.tasks.length
  tasks : ∀ i t, s.tasks[i]? = some t → ∃ act : Act τ Sent, t.todo = onPart i act ∧
    ((a.serve t.req).run (w0 i)).printed = linesOf i ls ++ (act.run (s.world i)).printed
  fresh : ∀ i, s.tasks.length ≤ i → s.world i = w0 i

theorem linesOf_unknown {ls : List (Nat × Line)} {n : Nat} (h : ∀ e ∈ ls, e.1 < n) : linesOf n ls = [] := by
  rw [linesOf, List.map_eq_nil_iff, List.filter_eq_nil_iff]
  intro e he
  have := h e he
  simp; omega

theorem output_step {a : App U τ} {w0 : Nat → τ} {s : Server U (Nat → τ) τ} {ls : List (Nat × Line)}
    (h : OutputOK a w0 s ls) (e : Event U) : ∃ ls', OutputOK a w0 (s.step (fun i => onPart i) e) ls' := by
  cases e with
  | arrive req =>
    refine ⟨ls, h.app, h.printed, fun e he => ?_, fun i t ht => ?_, fun i hi => ?_⟩
    · simp only [Server.step, List.length_append, List.length_singleton]
      exact Nat.lt_succ_of_lt (h.known e he)
    · simp only [Server.step] at ht ⊢
      rw [List.getElem?_append] at ht
      split at ht
      · exact h.tasks i t ht
      · next hlt =>
        have hi : i = s.tasks.length := by
          by_cases h0 : i - s.tasks.length = 0
          · omega
          · rw [List.getElem?_cons] at ht
            rw [if_neg h0] at ht; simp at ht
        subst hi
        simp at ht
        subst ht
        refine ⟨a.serve req, by rw [h.app], ?_⟩
        rw [h.fresh _ (Nat.le_refl _), linesOf_unknown h.known]; rfl
    · simp only [Server.step, List.length_append, List.length_singleton] at hi ⊢
      exact h.fresh i (by omega)
  | step i =>
    simp only [Server.step]
    cases ht : s.tasks[i]? with
    | none => exact ⟨ls, h⟩
    | some t =>
      simp only
      obtain ⟨act, h1, h2⟩ := h.tasks i t ht
      obtain ⟨act', k1, k2, k3⟩ := stepOnce_prints act i s.world
      have hlt : i < s.tasks.length := by
        rw [List.getElem?_eq_some_iff] at ht; exact ht.1
      rw [h1]
      refine ⟨ls ++ ((onPart i act).stepOnce s.world).2.2.map (fun l => (i, l)), h.app, ?_, fun e he => ?_,
        fun j t' ht' => ?_, fun j hj => ?_⟩
      · simp [h.printed, Function.comp_def]
      · simp only [List.length_set]
        rw [List.mem_append] at he
        rcases he with he | he
        · exact h.known e he
        · obtain ⟨l, _, rfl⟩ := List.mem_map.mp he; exact hlt
      · simp only at ht' ⊢
        rw [List.getElem?_set] at ht'
        split at ht'
        · next hij =>
          subst hij
          injection ht' with ht'
          subst ht'
          refine ⟨act', k1, ?_⟩
          rw [linesOf_append, linesOf_own, List.append_assoc, ← k2, h2]
        · next hij =>
          obtain ⟨act2, m1, m2⟩ := h.tasks j t' ht'
          refine ⟨act2, m1, ?_⟩
          rw [linesOf_append, linesOf_other hij, List.append_nil, k3 j (fun h => hij h.symm)]
          exact m2
      · simp only [List.length_set] at hj ⊢
        rw [k3 j (by omega)]
        exact h.fresh j hj

theorem output_run {a : App U τ} {w0 : Nat → τ} (es : List (Event U)) {s : Server U (Nat → τ) τ}
    {ls : List (Nat × Line)} (h : OutputOK a w0 s ls) : ∃ ls', OutputOK a w0 (s.run (fun i => onPart i) es) ls' := by
  induction es generalizing s ls with
  | nil => exact ⟨ls, h⟩
  | cons e es ih =>
    obtain ⟨ls', h'⟩ := output_step h e
    exact ih h'

/-- **C66**: whatever requests arrive and however their steps are interleaved, the output of the server
consists of the lines of the requests that have arrived: the lines of each request are in order the first
lines that serving it alone prints, and all of them if it is finished.  No line is lost, repeated or
changed, but lines of different requests may be mixed. -/
theorem C66_output (a : App U τ) (w0 : Nat → τ) (es : List (Event U)) :
    let s := (idle a w0).run (fun i => onPart i) es
    ∃ ls : List (Nat × Line), s.printed = ls.map (·.2) ∧ (∀ e ∈ ls, e.1 < s.tasks.length) ∧
      ∀ i t, s.tasks[i]? = some t → ∃ rest,
        ((a.serve t.req).run (w0 i)).printed = linesOf i ls ++ rest ∧ (Finished t.todo → rest = []) := by
  obtain ⟨ls, h⟩ := output_run es (s := idle a w0) (a := a) (w0 := w0) (ls := [])
    ⟨rfl, rfl, nofun, fun i t ht => by simp [idle] at ht, fun _ _ => rfl⟩
  refine ⟨ls, h.printed, h.known, fun i t ht => ?_⟩
  obtain ⟨act, h1, h2⟩ := h.tasks i t ht
  refine ⟨_, h2, fun hf => ?_⟩
  rcases hf with ⟨x, hx⟩ | ⟨x, hx⟩ <;> rw [hx] at h1 <;> cases act <;> simp [onPart] at h1 <;> rfl

/-- **C66** for the logger: in an application started with `App::default()`, under any interleaving, the
lines of every finished request for which there is a handler and that was answered begin with its method
and target and end with the status or error that the client got. -/
theorem C66_logged {prog : List (Reg (Middleware U τ) (Handler U τ))}
    (hn : NoRootMount prog) {a a' : App U τ} (hb : runRegs prog (App.new : App U τ).router = (a.router, none))
    (hb' : runRegs prog (App.default : App U τ).router = (a'.router, none))
    (hs : a'.appState = a.appState) (w0 : Nat → τ) (es : List (Event U)) :
    let s := (idle a' w0).run (fun i => onPart i) es
    ∃ ls : List (Nat × Line), s.printed = ls.map (·.2) ∧
      ∀ i t sent, s.tasks[i]? = some t → t.todo = .ret sent →
        handlerFor a'.router t.req.method t.req.path ≠ none →
        ∃ inner, Reported t.req sent inner (linesOf i ls) := by
  obtain ⟨ls, h1, _, h2⟩ := C66_output a' w0 es
  refine ⟨ls, h1, fun i t sent ht hd hh => ?_⟩
  obtain ⟨rest, h3, h4⟩ := h2 i t ht
  have ho := ((C48_isolation a' w0 es).2.2.1 i t sent ht hd).1
  have := C59_logged_partial hn hb hb' hs hh ho
  rw [h3, h4 (.inl ⟨sent, hd⟩), List.append_nil] at this
  exact ⟨_, this⟩

/-- Two requests at the same time, and what is printed. -/
example : let es : List (Event demoU) := [.arrive (demoReq .get "/hello"), .step 0,
        .arrive (demoReq .get "/fail")] ++ (List.replicate 9 (.step 1)) ++ (List.replicate 9 (.step 0))
    ((idle demoLogApp (fun i => 10 * i)).run (fun i => onPart i) es).printed =
      [.request (s "GET") (s "/hello"), .request (s "GET") (s "/fail"), .debug, .error (s "oops"), .debug,
       .sent 200] := by
  decide +kernel

end Obsidian.Props
