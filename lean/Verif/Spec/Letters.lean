import Verif.Model.Router

/-!
Programs in which other characters are used.
-/

namespace Obsidian.Spec

open Obsidian

variable {M H : Type}

/-- Other characters, different ones for different ones; those with a meaning in paths stay. -/
structure Letters (σ : Char → Char) : Prop where
  inj : ∀ c d, σ c = σ d → c = d
  slash : σ '/' = '/'
  colon : σ ':' = ':'
  star : σ '*' = '*'

/-- A text with the other characters. -/
abbrev spell (σ : Char → Char) (s : Str) : Str := s.map σ

mutual
/-- The same call, with the other characters in the paths. -/
def spellReg (σ : Char → Char) : Reg M H → Reg M H
  | .get p h => .get (spell σ p) h
  | .post p h => .post (spell σ p) h
  | .put p h => .put (spell σ p) h
  | .patch p h => .patch (spell σ p) h
  | .delete p h => .delete (spell σ p) h
  | .useService m => .useService m
  | .useServiceTo p m => .useServiceTo (spell σ p) m
  | .useRouter p sub => .useRouter (spell σ p) (spellRegs σ sub)
  | .scope n sub => .scope (spell σ n) (spellRegs σ sub)
/-- The same program, with the other characters in the paths. -/
def spellRegs (σ : Char → Char) : List (Reg M H) → List (Reg M H)
  | [] => []
  | c :: cs => spellReg σ c :: spellRegs σ cs
end

/-- The same message, with the other characters in the paths that it names. -/
def spellPanic (σ : Char → Char) : Panic → Panic
  | .starInName p => .starInName (spell σ p)
  | .starNotLast p => .starNotLast (spell σ p)
  | .ambiguous k n p => .ambiguous (spell σ k) (spell σ n) (spell σ p)
  | .duplicated m p => .duplicated m (spell σ p)
  | .conflict p => .conflict (spell σ p)
  | .unreachable => .unreachable
  | .slice => .slice
  | .removeEmpty => .removeEmpty

end Obsidian.Spec
