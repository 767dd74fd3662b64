import Verif.Spec.Runs
import Verif.Props.Isolation

/- C61: every request is answered in the end. -/
namespace Obsidian.Props
open Obsidian Spec
variable {U : Univ} {σ τ : Type}

theorem run_succ (embed : Nat → Act τ Sent → Act σ Sent) (s : Server U σ τ) (es : Nat → Event U) (n : Nat) :
    s.run embed (firstEvents es (n + 1)) = (s.run embed (firstEvents es n)).step embed (es n) := by
  simp [firstEvents, List.range_succ, Server.run]

theorem step_other {embed : Nat → Act τ Sent → Act σ Sent} {s : Server U σ τ} {e : Event U} {i : Nat} {t : Task U σ}
    (h : s.tasks[i]? = some t) (he : e ≠ .step i) : (s.step embed e).tasks[i]? = some t := by
  have hlt : i < s.tasks.length := by rw [List.getElem?_eq_some_iff] at h; exact h.1
  cases e with
  | arrive req => simp only [Server.step]; rw [List.getElem?_append_left hlt]; exact h
  | step j =>
    have hj : j ≠ i := fun hj => he (by rw [hj])
    simp only [Server.step]
    cases s.tasks[j]? with
    | none => exact h
    | some t' => simp only [List.getElem?_set]; rw [if_neg hj]; exact h

theorem step_self {embed : Nat → Act τ Sent → Act σ Sent} {s : Server U σ τ} {i : Nat} {t : Task U σ}
    (h : s.tasks[i]? = some t) :
    (s.step embed (.step i)).tasks[i]? = some { t with todo := (t.todo.stepOnce s.world).1 } := by
  have hlt : i < s.tasks.length := by rw [List.getElem?_eq_some_iff] at h; exact h.1
  simp only [Server.step, h, List.getElem?_set]
  simp only [if_true]
  rw [if_pos hlt]

/-- A finished task stays as it is. -/
theorem finished_stays {embed : Nat → Act τ Sent → Act σ Sent} {s : Server U σ τ} {i : Nat} {t : Task U σ}
    (h : s.tasks[i]? = some t) (hf : Finished t.todo) (e : Event U) : (s.step embed e).tasks[i]? = some t := by
  by_cases he : e = .step i
  · subst he
    rw [step_self h]
    obtain ⟨req, todo⟩ := t
    rcases hf with ⟨x, hx⟩ | ⟨x, hx⟩ <;> simp only at hx <;> subst hx <;> rfl
  · exact step_other h he

/-- The next turn of a task. -/
theorem next_turn {embed : Nat → Act τ Sent → Act σ Sent} {s : Server U σ τ} {es : Nat → Event U} {i k m : Nat} {t : Task U σ}
    (hkm : k ≤ m) (hm : es m = .step i) (h : (s.run embed (firstEvents es k)).tasks[i]? = some t) :
    ∃ n w, k < n ∧ (s.run embed (firstEvents es n)).tasks[i]? = some { t with todo := (t.todo.stepOnce w).1 } := by
  obtain ⟨d, rfl⟩ := Nat.exists_eq_add_of_le hkm
  induction d generalizing k with
  | zero =>
    refine ⟨k + 1, (s.run embed (firstEvents es k)).world, Nat.lt_succ_self k, ?_⟩
    rw [run_succ, show es k = .step i from hm, step_self h]
  | succ d ih =>
    by_cases he : es k = .step i
    · refine ⟨k + 1, (s.run embed (firstEvents es k)).world, Nat.lt_succ_self k, ?_⟩
      rw [run_succ, he, step_self h]
    · obtain ⟨n, w, h1, h2⟩ := ih (k := k + 1) (by rw [run_succ]; exact step_other h he) (by omega)
        (by rw [← hm]; congr 1; omega)
      exact ⟨n, w, by omega, h2⟩

theorem finishes {embed : Nat → Act τ Sent → Act σ Sent} {s : Server U σ τ} {es : Nat → Event U} (i : Nat) (hf : FairTo i es)
    (req : Request U) (todo : Act σ Sent) (k : Nat)
    (h : (s.run embed (firstEvents es k)).tasks[i]? = some ⟨req, todo⟩) :
    ∃ n x, k ≤ n ∧ Finished x ∧ (s.run embed (firstEvents es n)).tasks[i]? = some ⟨req, x⟩ := by
  induction todo generalizing k with
  | ret a => exact ⟨k, _, Nat.le_refl k, .inl ⟨a, rfl⟩, h⟩
  | panic c => exact ⟨k, _, Nat.le_refl k, .inr ⟨c, rfl⟩, h⟩
  | step f g ih =>
    obtain ⟨m, h1, h2⟩ := hf k
    obtain ⟨n, w, h3, h4⟩ := next_turn h1 h2 h
    obtain ⟨n', x, h5, h6, h7⟩ := ih w n h4
    exact ⟨n', x, by omega, h6, h7⟩
  | print l g ih =>
    obtain ⟨m, h1, h2⟩ := hf k
    obtain ⟨n, w, h3, h4⟩ := next_turn h1 h2 h
    obtain ⟨n', x, h5, h6, h7⟩ := ih n h4
    exact ⟨n', x, by omega, h6, h7⟩

/-- **C61**: if the task of a request that has arrived gets its turn again and again, then the request is
finished at some point and stays so: whatever other requests arrive, whether their tasks panic or wait
forever, and even if all tasks work on the same shared state (`embed` is arbitrary). -/
theorem C61_every_request_finishes (embed : Nat → Act τ Sent → Act σ Sent) (s : Server U σ τ) {es : Nat → Event U}
    {i k : Nat} (hf : FairTo i es) {t : Task U σ} (h : (s.run embed (firstEvents es k)).tasks[i]? = some t) :
    ∃ n x, Finished x ∧ ∀ n', n ≤ n' → (s.run embed (firstEvents es n')).tasks[i]? = some ⟨t.req, x⟩ := by
  obtain ⟨n, x, _, h2, h3⟩ := finishes i hf t.req t.todo k h
  refine ⟨n, x, h2, fun n' hn => ?_⟩
  obtain ⟨d, rfl⟩ := Nat.exists_eq_add_of_le hn
  induction d with
  | zero => exact h3
  | succ d ih =>
    rw [show n + (d + 1) = (n + d) + 1 from rfl, run_succ]
    exact finished_stays (ih (by omega)) h2 _

/-- **C61** with C48: if the handlers of different requests work on different parts of the world, a
request whose task gets its turn again and again finally gets the answer that it gets alone (or its task
panics as it does alone), and its part of the world is as it would be after serving it alone — whatever
the other tasks do, also if one of them never gets any further. -/
theorem C61_every_request_is_answered (a : App U τ) (w0 : Nat → τ) {es : Nat → Event U} {i k : Nat} (hf : FairTo i es)
    {req : Request U} (h : (arrived (firstEvents es k))[i]? = some req) :
    ∃ n, ∀ n', n ≤ n' →
      let s := (idle a w0).run (fun i => onPart i) (firstEvents es n')
      s.tasks[i]? = some ⟨req, match ((a.serve req).run (w0 i)).out with | .ok sent => .ret sent | .error c => .panic c⟩ ∧
      s.world i = ((a.serve req).run (w0 i)).world := by
  have hk := (C48_isolation a w0 (firstEvents es k)).2.1
  rw [← hk, List.getElem?_map, Option.map_eq_some_iff] at h
  obtain ⟨t, h1, rfl⟩ := h
  obtain ⟨n, x, h2, h3⟩ := C61_every_request_finishes (fun i => onPart i) (idle a w0) hf h1
  refine ⟨n, fun n' hn => ?_⟩
  have h4 := h3 n' hn
  obtain ⟨_, _, h5, h6⟩ := C48_isolation a w0 (firstEvents es n')
  rcases h2 with ⟨sent, rfl⟩ | ⟨c, rfl⟩
  · obtain ⟨h7, h8⟩ := h5 i _ sent h4 rfl
    simp only at h7 h8
    rw [h7]
    exact ⟨h4, h8⟩
  · obtain ⟨h7, h8⟩ := h6 i _ c h4 rfl
    simp only at h7 h8
    rw [h7]
    exact ⟨h4, h8⟩

/-- How often a number can be halved (at most `fuel` times). -/
def halvings : (fuel n : Nat) → Nat
  | 0, _ => 0
  | fuel + 1, n => if n % 2 = 0 then halvings fuel (n / 2) + 1 else 0

/-- Two requests arrive, and then all tasks take their turns: 0, 1, 0, 2, 0, 1, 0, 3, 0, 1, 0, 2, ... -/
def turns : Nat → Event demoU
  | 0 => .arrive (demoReq .get "/hello")
  | 1 => .arrive (demoReq .get "/fail")
  | n + 2 => .step (halvings n (n + 1))

theorem halvings_odd (i k fuel : Nat) (hf : i ≤ fuel) : halvings fuel (2 ^ i * (2 * k + 1)) = i := by
  induction i generalizing fuel with
  | zero =>
    cases fuel with
    | zero => rfl
    | succ fuel => rw [halvings, if_neg (by omega)]
  | succ i ih =>
    cases fuel with
    | zero => omega
    | succ fuel =>
      have e : 2 ^ (i + 1) * (2 * k + 1) = 2 * (2 ^ i * (2 * k + 1)) := by
        rw [Nat.pow_succ, Nat.mul_comm (2 ^ i) 2, Nat.mul_assoc]
      rw [halvings, e, if_pos (by omega), Nat.mul_div_cancel_left _ (by decide), ih fuel (by omega)]

theorem turns_fair : Fair turns := by
  intro i n
  have h1 : 1 ≤ 2 ^ i := Nat.one_le_two_pow
  have h2 : i < 2 ^ i := Nat.lt_two_pow_self
  have h3 : 2 ^ i ≤ 2 ^ i * (2 * n + 1) := Nat.le_mul_of_pos_right _ (by omega)
  have h4 : 2 * n + 1 ≤ 2 ^ i * (2 * n + 1) := Nat.le_mul_of_pos_left _ (by omega)
  obtain ⟨m, hm⟩ : ∃ m, 2 ^ i * (2 * n + 1) = m + 1 := ⟨2 ^ i * (2 * n + 1) - 1, by omega⟩
  refine ⟨m + 2, by omega, ?_⟩
  rw [turns, ← hm, halvings_odd i n m (by omega)]

example : ∃ n, ∀ n', n ≤ n' →
    ((idle demoApp (fun i => 10 * i)).run (fun i => onPart i) (firstEvents turns n')).world 0 = 12 ∧
    ((idle demoApp (fun i => 10 * i)).run (fun i => onPart i) (firstEvents turns n')).world 1 = 32 := by
  obtain ⟨n, h⟩ := C61_every_request_is_answered demoApp (fun i => 10 * i) (i := 0) (turns_fair 0) (k := 2)
    (req := demoReq .get "/hello") rfl
  obtain ⟨m, h'⟩ := C61_every_request_is_answered demoApp (fun i => 10 * i) (i := 1) (turns_fair 1) (k := 2)
    (req := demoReq .get "/fail") rfl
  refine ⟨max n m, fun n' hn => ⟨(h n' (by omega)).2.trans ?_, (h' n' (by omega)).2.trans ?_⟩⟩
  · decide +kernel
  · decide +kernel

/-- Two requests arrive; the first one gets one turn and then hangs, and all later turns go to the second. -/
def stuck : Nat → Event demoU
  | 0 => .arrive (demoReq .get "/hello")
  | 1 => .arrive (demoReq .get "/hello")
  | 2 => .step 0
  | _ + 3 => .step 1

theorem stuck_fair : FairTo 1 stuck := fun n => ⟨n + 3, by omega, rfl⟩

example : ¬ Fair stuck := fun h => by
  obtain ⟨m, h1, h2⟩ := h 0 3
  obtain ⟨k, rfl⟩ := Nat.exists_eq_add_of_le' h1
  simp [stuck] at h2

example : ∃ n, ∀ n', n ≤ n' →
    ((idle demoApp (fun i => 10 * i)).run (fun i => onPart i) (firstEvents stuck n')).world 1 = 32 := by
  obtain ⟨n, h⟩ := C61_every_request_is_answered demoApp (fun i => 10 * i) (i := 1) stuck_fair (k := 2)
    (req := demoReq .get "/hello") rfl
  exact ⟨n, fun n' hn => (h n' hn).2.trans (by decide +kernel)⟩

end Obsidian.Props
