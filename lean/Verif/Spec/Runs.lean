import Verif.Spec.Server
import Verif.Spec.Isolation

/-!
Words of the claims about a server that runs: what has arrived, whose turn it is, and what is printed.
-/

namespace Obsidian.Spec

open Obsidian

section

variable {U : Univ} {τ : Type}

/-- The requests that have arrived, in order. -/
def arrived : List (Event U) → List (Request U)
  | [] => []
  | .arrive req :: es => req :: arrived es
  | .step _ :: es => arrived es

end

section

variable {U : Univ} {σ τ : Type}

/-- The first `n` events of an infinite sequence. -/
def firstEvents (es : Nat → Event U) (n : Nat) : List (Event U) := (List.range n).map es

/-- One task gets its turn again and again. Nothing is said about the other tasks: one of them may wait
forever (it then gets no further turn) or take as many turns as it likes. -/
def FairTo (i : Nat) (es : Nat → Event U) : Prop := ∀ n, ∃ m, n ≤ m ∧ es m = .step i

/-- Every task gets its turn again and again. -/
def Fair (es : Nat → Event U) : Prop := ∀ i, FairTo i es

/-- A task is finished. -/
def Finished (x : Act σ Sent) : Prop := (∃ sent, x = .ret sent) ∨ ∃ c, x = .panic c

end

section

variable {U : Univ} {τ : Type}

/-- The lines that carry the number `i`, in order. -/
def linesOf (i : Nat) (ls : List (Nat × Line)) : List Line := (ls.filter (fun e => e.1 = i)).map (·.2)

end

end Obsidian.Spec
