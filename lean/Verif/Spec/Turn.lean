import Verif.Spec.Pattern

/-!
Programs in which the methods are interchanged.
-/

namespace Obsidian.Spec

open Obsidian

variable {M H : Type}

/-- Other methods, different ones for different ones; those for which there are registration calls become such ones. -/
structure Turns (τ : Verb → Verb) (π : Method → Method) : Prop where
  inj : ∀ m m', π m = π m' → m = m'
  verb : ∀ v : Verb, π v.method = (τ v).method

mutual
/-- The same call, for the other method. -/
def turnReg (τ : Verb → Verb) : Reg M H → Reg M H
  | .get p h => (τ .get).reg p h
  | .post p h => (τ .post).reg p h
  | .put p h => (τ .put).reg p h
  | .patch p h => (τ .patch).reg p h
  | .delete p h => (τ .delete).reg p h
  | .useService m => .useService m
  | .useServiceTo p m => .useServiceTo p m
  | .useRouter p sub => .useRouter p (turnRegs τ sub)
  | .scope n sub => .scope n (turnRegs τ sub)
/-- The same program, for the other methods. -/
def turnRegs (τ : Verb → Verb) : List (Reg M H) → List (Reg M H)
  | [] => []
  | c :: cs => turnReg τ c :: turnRegs τ cs
end

/-- The same message, with the other method. -/
def turnPanic (π : Method → Method) : Panic → Panic
  | .duplicated m p => .duplicated (π m) p
  | p => p

end Obsidian.Spec
