import Verif.Proofs.Source
import Verif.Spec.Observe
import Verif.Props.Common

/-
C101: what a rejected registration asked for. C24 for paths of any form.
-/
namespace Obsidian.Props
open Obsidian Spec Proofs
variable {M H : Type}

theorem handler_sourced {r : Router M H} {L : Log M H} (h : Sourced r L) {m : Method} {path : Str} {k : H}
    (hh : handlerFor r m path = some k) : ∃ ss, ⟨ss, .route m k⟩ ∈ L := by
  unfold handlerFor at hh
  split at hh
  · next v hs =>
    cases hr : v.getRoute m with
    | none => rw [hr] at hh; cases hh
    | some rt => rw [hr] at hh; injection hh with hh; subst hh; exact (search_from h hs).2 m rt hr
  · cases hh

theorem chain_sourced {r : Router M H} {L : Log M H} (h : Sourced r L) {path : Str} {c : List M}
    (hh : chainFor r path = some c) : ∀ mw ∈ c, ∃ ss, ⟨ss, .middleware mw⟩ ∈ L := by
  unfold chainFor at hh
  split at hh
  · next v hs => injection hh with hh; subst hh; exact (search_from h hs).1
  · cases hh

theorem new_sourced : Sourced (Router.new : Router M H) [] := allVals_new _

/-- **C24**, for paths of any form: who serves a request was registered for its method, and the middlewares of its
chain were added, by calls of the program (other than ones thrown away by a mount at the root). -/
theorem C24_any_path {prog : List (Reg M H)} {r : Router M H} (hb : build prog = (r, none)) (path : Str) :
    (∀ m h, handlerFor r m path = some h → ∃ ss, ⟨ss, .route m h⟩ ∈ logOf prog) ∧
    ∀ c, chainFor r path = some c → ∀ mw ∈ c, ∃ ss, ⟨ss, .middleware mw⟩ ∈ logOf prog := by
  have hs := runRegs_sourced prog new_sourced (by rw [show runRegs prog Router.new = (r, none) from hb])
  rw [show runRegs prog Router.new = (r, none) from hb] at hs
  exact ⟨fun m h hh => handler_sourced hs hh, fun c hc => chain_sourced hs hc⟩

/-- A path that is not in the documented syntax. -/
example : ∃ r, build ([.get (s "/a:b") 1] : Prog) = (r, none) ∧ handlerFor r .get (s "/a:b") = some 1 :=
  ⟨_, build_eq (by decide +kernel), by decide +kernel⟩

/-! ### C101 -/

/-- A call, whatever comes of it: what it may leave, and what it leaves if it is rejected. -/
theorem call_sourced (c : Reg M H) {r : Router M H} {L : Log M H} (h : Sourced r L) :
    Sourced (c.run r).1 (L ++ callLog c) ∧
    ∀ p, (c.run r).2 = some p → (NotMount c → ∀ m q, p ≠ .duplicated m q) → Sourced (c.run r).1 L := by
  have route : ∀ (m : Method) (p : Str) (k : H), NotMount c → c.run r = r.insertRoute m p k →
      callLog c = [⟨segments p, .route m k⟩] → Sourced (c.run r).1 (L ++ callLog c) ∧
      ∀ p, (c.run r).2 = some p → (NotMount c → ∀ m q, p ≠ .duplicated m q) → Sourced (c.run r).1 L := by
    intro m p k hnm hr hl
    obtain ⟨h1, h2⟩ := insertRoute_sourced h m p k
    rw [hr, hl]
    exact ⟨h1, fun p' hp' hno => h2 ⟨p', hp', hno hnm⟩⟩
  have mount : ∀ (p : Str) (sub : List (Reg M H)), (c.run r = match runRegs sub Router.new with
        | (t, none) => r.useRouter p t
        | (_, some e) => (r, some e)) → callLog c = mountLog (segments p) [] (logRegs sub []) →
      Sourced (c.run r).1 (L ++ callLog c) ∧
      ∀ p, (c.run r).2 = some p → (NotMount c → ∀ m q, p ≠ .duplicated m q) → Sourced (c.run r).1 L := by
    intro p sub hr hl
    cases hb : runRegs sub Router.new with
    | mk t e =>
      rw [hb] at hr
      cases e with
      | none =>
        dsimp only at hr
        have hs := runRegs_sourced sub new_sourced (by rw [hb])
        rw [hb] at hs
        obtain ⟨h1, h2⟩ := useRouter_sourced h hs p
        rw [hr]
        refine ⟨?_, fun p' hp' _ => h2 ⟨p', hp'⟩⟩
        cases he : (r.useRouter p t).2 with
        | none =>
          refine sourced_mono (fun e he => ?_) (h1 he)
          rw [hl]
          by_cases h0 : segments p = []
          · rw [mountLog, if_pos h0] at he ⊢; exact List.mem_append_right _ he
          · rw [mountLog, if_neg h0] at he ⊢; simpa using he
        | some e => exact sourced_mono (fun _ h => List.mem_append_left _ h) (h2 ⟨e, he⟩)
      | some e =>
        dsimp only at hr
        rw [hr]
        exact ⟨sourced_mono (fun _ h => List.mem_append_left _ h) h, fun _ _ _ => h⟩
  cases c with
  | get p k => exact route .get p k trivial rfl (by simp [callLog, logReg])
  | post p k => exact route .post p k trivial rfl (by simp [callLog, logReg])
  | put p k => exact route .put p k trivial rfl (by simp [callLog, logReg])
  | patch p k => exact route .patch p k trivial rfl (by simp [callLog, logReg])
  | delete p k => exact route .delete p k trivial rfl (by simp [callLog, logReg])
  | useService m =>
    refine ⟨?_, fun p hp => by simp [Reg.run] at hp⟩
    have := useService_sourced h m
    simpa [Reg.run, callLog, logReg] using this
  | useServiceTo p m =>
    obtain ⟨h1, h2⟩ := useServiceTo_sourced h p m
    refine ⟨?_, fun p' hp' _ => h2 ⟨p', hp'⟩⟩
    refine sourced_mono (fun e he => ?_) h1
    rw [callLog, logReg]
    split at he
    · exact List.mem_append_left _ he
    · next h0 => rw [if_neg h0]; simpa using he
  | useRouter p sub => exact mount p sub (by rw [Reg.run]; rfl) (by simp [callLog, logReg])
  | scope p sub => exact mount ('/' :: p) sub (by rw [Reg.run]; rfl) (by rw [segments_slash]; simp [callLog, logReg])

theorem caught_sourced {cs : List (Reg M H)} {L : Log M H} (hL : ∀ x ∈ cs, ∀ e ∈ callLog x, e ∈ L) {r : Router M H}
    (h : Sourced r L) : Sourced (runCaught cs r) L := by
  induction cs generalizing r with
  | nil => exact h
  | cons c cs ih =>
    refine ih (fun x hx => hL x (by simp [hx])) (sourced_mono (fun e he => ?_) (call_sourced c h).1)
    rcases List.mem_append.1 he with he | he
    · exact he
    · exact hL c (by simp) e he

theorem runCaught_append (a b : List (Reg M H)) (r : Router M H) : runCaught (a ++ b) r = runCaught b (runCaught a r) := by
  induction a generalizing r with
  | nil => rfl
  | cons c a ih => exact ih _

/-- **C101 is false**: the handler of a rejected duplicate serves the requests. -/
theorem C101_false : ∃ (pre : Prog) (c : Reg Nat Nat), pre = [.get (s "/a") 1] ∧ c = .get (s "/a") 2 ∧
    (c.run (runCaught pre Router.new)).2 = some (.duplicated .get (s "/a")) ∧
    handlerFor (runCaught (pre ++ [c]) Router.new) .get (s "/a") = some 2 :=
  ⟨_, _, rfl, rfl, by decide +kernel, by decide +kernel⟩

/-- **C101, what holds**: if a call panics, other than because the method already has a handler at the path, then
after any further calls (whether they panic or not) every handler that serves a request and every middleware
of its chain come from one of the other calls; this includes mounts, whatever the reason of the panic.
Paths may have any form.  Missing: routes rejected as duplicates, where the claim is false. -/
theorem C101_rejected_partial {pre post : List (Reg M H)} {c : Reg M H} {p : Panic}
    (hp : (c.run (runCaught pre Router.new)).2 = some p) (hd : NotMount c → ∀ m q, p ≠ .duplicated m q) (path : Str) :
    (∀ m h, handlerFor (runCaught (pre ++ c :: post) Router.new) m path = some h →
      ∃ x ∈ pre ++ post, ∃ ss, ⟨ss, .route m h⟩ ∈ callLog x) ∧
    ∀ ch, chainFor (runCaught (pre ++ c :: post) Router.new) path = some ch → ∀ mw ∈ ch,
      ∃ x ∈ pre ++ post, ∃ ss, ⟨ss, .middleware mw⟩ ∈ callLog x := by
  have hL : ∀ x ∈ pre ++ post, ∀ e ∈ callLog x, e ∈ (pre ++ post).flatMap callLog := fun x hx e he =>
    List.mem_flatMap.2 ⟨x, hx, he⟩
  have h1 := caught_sourced (cs := pre) (fun x hx => hL x (by simp [hx])) (sourced_mono (L' := (pre ++ post).flatMap callLog) (by simp) new_sourced)
  have h2 := (call_sourced c h1).2 p hp hd
  have h3 := caught_sourced (cs := post) (fun x hx => hL x (by simp [hx])) h2
  rw [runCaught_append, runCaught]
  refine ⟨fun m h hh => ?_, fun ch hc mw hm => ?_⟩
  · obtain ⟨ss, hs⟩ := handler_sourced h3 hh
    obtain ⟨x, hx, he⟩ := List.mem_flatMap.1 hs
    exact ⟨x, hx, ss, he⟩
  · obtain ⟨ss, hs⟩ := chain_sourced h3 hc mw hm
    obtain ⟨x, hx, he⟩ := List.mem_flatMap.1 hs
    exact ⟨x, hx, ss, he⟩

/-- A rejected mount between others: by the theorem, its handler 7 never serves a request. -/
example : let pre : Prog := [.get (s "/users/all") 1]
    let c : Reg Nat Nat := .scope (s "users") [.get (s "/me") 7]
    let post : Prog := [.get (s "/users/me") 2]
    (c.run (runCaught pre Router.new)).2 = some (.conflict (s "/users")) ∧
    handlerFor (runCaught (pre ++ c :: post) Router.new) .get (s "/users/me") = some 2 ∧
    ∀ m path, handlerFor (runCaught (pre ++ c :: post) Router.new) m path ≠ some 7 := by
  refine ⟨by decide +kernel, by decide +kernel, fun m path hh => ?_⟩
  obtain ⟨x, hx, ss, h⟩ := (C101_rejected_partial (pre := [.get (s "/users/all") 1]) (c := .scope (s "users") [.get (s "/me") 7])
    (post := [.get (s "/users/me") 2]) (p := .conflict (s "/users")) (by decide +kernel) (by simp) path).1 m 7 hh
  simp only [List.cons_append, List.nil_append, List.mem_cons, List.not_mem_nil, or_false] at hx
  rcases hx with rfl | rfl <;> simp [callLog, logReg] at h

end Obsidian.Props
