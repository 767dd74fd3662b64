import Verif.Spec.Pattern
import Verif.Model.Router

/-
The size of a registration program.
-/
namespace Obsidian.Spec
open Obsidian
variable {M H : Type}

/-- The characters of a path that are not slashes. -/
def letters (path : Str) : Nat := (path.filter (· ≠ '/')).length

/-- How many segments and characters are registered, and how long the longest path is. -/
structure Size where
  segments : Nat
  letters : Nat
  longest : Nat

/-- The size of one path, with what is mounted there. -/
def Size.under (path : Str) (s : Size) : Size :=
  ⟨(Spec.segments path).length + s.segments, Spec.letters path + s.letters, Spec.letters path + s.longest⟩

/-- Nothing. -/
def Size.zero : Size := ⟨0, 0, 0⟩

/-- Two things registered side by side. -/
def Size.and (s t : Size) : Size := ⟨s.segments + t.segments, s.letters + t.letters, max s.longest t.longest⟩

mutual
/-- The size of a registration call. -/
def sizeReg : Reg M H → Size
  | .get p _ | .post p _ | .put p _ | .patch p _ | .delete p _ | .useServiceTo p _ => .under p .zero
  | .useService _ => .zero
  | .useRouter p sub => .under p (sizeRegs sub)
  | .scope name sub => .under name (sizeRegs sub)
/-- The size of a registration program. -/
def sizeRegs : List (Reg M H) → Size
  | [] => .zero
  | c :: cs => .and (sizeReg c) (sizeRegs cs)
end

end Obsidian.Spec
