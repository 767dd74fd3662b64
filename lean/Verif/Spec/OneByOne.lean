import Verif.Spec.Together

/-!
Serving requests one after the other, and computations that touch the shared world at most once.
-/

namespace Obsidian.Spec

open Obsidian

variable {U : Univ} {σ α : Type}

/-- The computation does not touch the world. -/
inductive Still : Act σ α → Prop
  | ret {a} : Still (.ret a)
  | panic {k} : Still (.panic k)
  | print {l k} : Still k → Still (.print l k)

/-- The computation touches the world at most once: before and after this step it may only print. -/
inductive Once : Act σ α → Prop
  | still {x} : Still x → Once x
  | step {f k} : (∀ w, Still (k w)) → Once (.step f k)
  | print {l k} : Once k → Once (.print l k)

/-- A middleware that does not touch the world itself and runs the rest of the chain at most once: around a handler
that touches the world at most once, this is still so. -/
def KeepsOnce (m : Middleware U σ) : Prop := ∀ next c, (∀ c, Once (next c)) → Once (m c next)

/-- The world after the requests have been served one after the other, each from start to end. -/
def afterServing (a : App U σ) (w : σ) : List (Request U) → σ
  | [] => w
  | req :: reqs => afterServing a ((a.serve req).run w).world reqs

/-- How the request ends that is served after the others, one after the other. -/
def answerAfter (a : App U σ) (w : σ) (before : List (Request U)) (req : Request U) : Except Crash Sent :=
  ((a.serve req).run (afterServing a w before)).out

/-- The requests that were received, some of them put into an order (each with its number among all). -/
abbrev Order (U : Univ) := List (Nat × Request U)

/-- In the order, `i` stands before `j`. -/
def Order.Before (o : Order U) (i j : Nat) : Prop := ∃ x y z r r', o = x ++ (i, r) :: y ++ (j, r') :: z

/-- The order has requests that were received, none of them twice. -/
def Order.Of (o : Order U) (reqs : List (Request U)) : Prop :=
  (o.map (·.1)).Nodup ∧ ∀ e ∈ o, reqs[e.1]? = some e.2

end Obsidian.Spec
