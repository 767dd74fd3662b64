import Verif.Spec.Answers
import Verif.Props.AppCommon
import Verif.Proofs.Static

/- Applications with a single route, for examples. -/
namespace Obsidian.Props
open Obsidian Spec
variable {U : Univ} {σ : Type}

/-- Every path without wildcard is accepted as the only route of an application. -/
theorem solo_build {path : Str} (hc : CleanPath path) (hs : ∀ x ∈ segments path, '*' ∉ x) (h : Handler U σ) :
    build [.get path h] = ((solo path h).router, none) := by
  have hcl : CleanRegs [(Reg.get path h : Reg (Middleware U σ) (Handler U σ))] := by
    simp only [CleanRegs, CleanReg, and_true]; exact hc
  have : (build [(Reg.get path h : Reg (Middleware U σ) (Handler U σ))]).2 = none := by
    rw [build_iff hcl]
    simp only [RegsOK, RegOK, and_true]
    refine ⟨fun pre x post e hx => absurd hx (hs x (by rw [e]; simp)), fun e he => (by cases he), rfl⟩
  exact build_eq this

theorem solo_served {path : Str} (hc : CleanPath path) (hp : Static (segments path))
    (hs : ∀ x ∈ segments path, '*' ∉ x) (h : Handler U σ) :
    handlerFor (solo path h).router .get path = some h ∧ chainFor (solo path h).router path = some [] := by
  have hcl : CleanRegs [(Reg.get path h : Reg (Middleware U σ) (Handler U σ))] := by
    simp only [CleanRegs, CleanReg, and_true]; exact hc
  have hlog : logOf [(Reg.get path h : Reg (Middleware U σ) (Handler U σ))] = [⟨segments path, .route .get h⟩] := by
    simp only [logOf, logRegs, logReg, List.nil_append]
  have hb := solo_build hc hs h
  have h1 := C01_static_routes_reachable hb (ss := segments path) (m := .get) (h := h) (by rw [hlog]; simp) hp rfl
  exact ⟨h1.2, chain_nil hcl hb (fun e he m => by rw [hlog] at he; simp at he; subst he; simp) h1.1⟩

end Obsidian.Props
