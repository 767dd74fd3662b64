import Verif.Spec.Calls
import Verif.Spec.Chain

/-!
Which middlewares have been added by a sequence of calls.
-/

namespace Obsidian.Spec

open Obsidian

variable {M H : Type}

mutual
/-- The middlewares that a call adds, to the router or to a nested one. -/
def mwsOf : Reg M H → List M
  | .useService m => [m]
  | .useServiceTo _ m => [m]
  | .useRouter _ sub | .scope _ sub => mwsOfAll sub
  | _ => []
/-- The middlewares that the calls add. -/
def mwsOfAll : List (Reg M H) → List M
  | [] => []
  | c :: cs => mwsOf c ++ mwsOfAll cs
end

/-- The middlewares added by those of the calls that do not panic, when the calls are made one after the other
on the router and their panics are caught. -/
def addedMws : List (Reg M H) → Router M H → List M
  | [], _ => []
  | c :: cs, r => (if (c.run r).2 = none then mwsOf c else []) ++ addedMws cs (c.run r).1

/-- A middleware that counts how often it is started, and is otherwise as `l`. -/
def Link.ticking {U : Univ} {σ : Type} (l : Link U σ) : Link U (σ × Nat) :=
  ⟨fun c => .step (fun w => (w.1, w.2 + 1)) (fun _ => l.uncounted.decide c)⟩

end Obsidian.Spec
