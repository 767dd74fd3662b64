import Verif.Spec.Routing
import Verif.Spec.Observe
import Verif.Spec.Static

/-!
Programs in which the parameters have other names.
-/

namespace Obsidian.Spec

open Obsidian

variable {M H : Type}

/-- Other names for parameters: different names for different parameters, and characters with a meaning in paths are not
made or lost. -/
structure Renaming (ρ : Str → Str) : Prop where
  inj : ∀ x y, ρ x = ρ y → x = y
  slash : ∀ x, '/' ∈ ρ x ↔ '/' ∈ x
  colon : ∀ x, ':' ∈ ρ x ↔ ':' ∈ x
  star : ∀ x, '*' ∈ ρ x ↔ '*' ∈ x

/-- A segment with the other name, if it is a parameter. -/
def renSeg (ρ : Str → Str) : Str → Str
  | ':' :: x => ':' :: ρ x
  | t => t

/-- A path with the other names. -/
def renPath (ρ : Str → Str) (p : Str) : Str := pathOf ((segments p).map (renSeg ρ))

mutual
/-- The same call, with the other names. -/
def renReg (ρ : Str → Str) : Reg M H → Reg M H
  | .get p h => .get (renPath ρ p) h
  | .post p h => .post (renPath ρ p) h
  | .put p h => .put (renPath ρ p) h
  | .patch p h => .patch (renPath ρ p) h
  | .delete p h => .delete (renPath ρ p) h
  | .useService m => .useService m
  | .useServiceTo p m => .useServiceTo (renPath ρ p) m
  | .useRouter p sub => .useRouter (renPath ρ p) (renRegs ρ sub)
  | .scope n sub => .scope (renPath ρ n) (renRegs ρ sub)
/-- The same program, with the other names. -/
def renRegs (ρ : Str → Str) : List (Reg M H) → List (Reg M H)
  | [] => []
  | c :: cs => renReg ρ c :: renRegs ρ cs
end

end Obsidian.Spec
