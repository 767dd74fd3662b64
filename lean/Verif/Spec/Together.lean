import Verif.Spec.Whole
import Verif.Model.Server

/-
Requests that are served at the same time and share the world.
-/
namespace Obsidian.Spec
open Obsidian
variable {U : Univ} {σ τ α : Type}

/-- The computation ends with `out`, printing `ls`, if its steps find and change the world as in the list. -/
inductive Goes : Act σ α → List (σ × (σ → σ)) → Except Crash α → List Line → Prop
  | ret {a} : Goes (.ret a) [] (.ok a) []
  | panic {k} : Goes (.panic k) [] (.error k) []
  | step {f k w ps out ls} : Goes (k w) ps out ls → Goes (.step f k) ((w, f) :: ps) out ls
  | print {l k ps out ls} : Goes k ps out ls → Goes (.print l k) ps out (l :: ls)

/-- Steps of several tasks, one after the other: which task, and how it changes the world. -/
abbrev Steps (σ : Type) := List (Nat × (σ → σ))

/-- The world after the steps. -/
def worldAfter (w : σ) (h : Steps σ) : σ := h.foldl (fun w e => e.2 w) w

/-- The steps of one task, with the world that each of them finds. -/
def stepsOf (i : Nat) (w : σ) : Steps σ → List (σ × (σ → σ))
  | [] => []
  | (j, f) :: h => if j = i then (w, f) :: stepsOf i (f w) h else stepsOf i (f w) h

/-- The lines that the task printed. -/
def printedBy (i : Nat) (ls : List (Nat × Line)) : List Line := (ls.filter (fun e => e.1 = i)).map (·.2)

/-- How the request of a finished task ended. -/
def Outcome (todo : Act σ Sent) (out : Except Crash Sent) : Prop :=
  (∃ sent, todo = .ret sent ∧ out = .ok sent) ∨ ∃ k, todo = .panic k ∧ out = .error k

/-- All tasks work on the same world. -/
def shared : Nat → Act σ Sent → Act σ Sent := fun _ x => x

/-- The server before the first request. -/
def startUp (a : App U σ) (w : σ) : Server U σ σ := ⟨a, [], w, []⟩

/-- The requests that arrive, in order. -/
def arrivals : List (Event U) → List (Request U)
  | [] => []
  | .arrive req :: es => req :: arrivals es
  | .step _ :: es => arrivals es

/-- How serving ends, if the middlewares and the handler end with `out`. -/
def SentFor (out : Except Crash (ContextResult U)) (out' : Except Crash Sent) : Prop :=
  (∀ k, out = .error k → out' = .error k) ∧
  ∀ result, out = .ok result →
    (Unsendable result → ∃ v, ¬ Visible v ∧ out' = .error (.headerValue v)) ∧
    (¬ Unsendable result → ∃ sent, out' = .ok sent ∧ SendsFor result sent)

/-- Whatever the other tasks do meanwhile, the computation adds `n` to the counter that `count` reads. -/
inductive Adds (count : σ → Int) : Act σ α → Int → Prop
  | ret {a} : Adds count (.ret a) 0
  | panic {k} : Adds count (.panic k) 0
  | step {f k d n} : (∀ w, count (f w) = count w + d) → (∀ w, Adds count (k w) n) → Adds count (.step f k) (d + n)
  | print {l k n} : Adds count k n → Adds count (.print l k) n

end Obsidian.Spec
