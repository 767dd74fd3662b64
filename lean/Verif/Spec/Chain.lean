import Verif.Model.App

/-
Middlewares that use the rest of the chain at most once, which is what `EndpointExecutor::next`
taking `self` by value is meant to enforce, and what running them one after the other should mean.
-/
namespace Obsidian.Spec
open Obsidian
variable {U : Univ} {σ : Type}

/-- A middleware that always forwards: what it does before (it may change the context) and after (it
may change the result). -/
structure Wrap (U : Univ) (σ : Type) where
  before : Context U → Act σ (Context U)
  after : ContextResult U → Act σ (ContextResult U)

/-- As a middleware. -/
def Wrap.mw (l : Wrap U σ) : Middleware U σ := fun c next => do
  let c ← l.before c
  let r ← next c
  l.after r

/-- What a middleware decides to do after its first part. -/
inductive Decision (U : Univ) (σ : Type) where
  /-- answer without running the rest of the chain -/
  | answer (r : ContextResult U)
  /-- run the rest of the chain on a context, and treat its result in some way -/
  | forward (c : Context U) (after : ContextResult U → Act σ (ContextResult U))

/-- A middleware that runs the rest of the chain at most once. -/
structure Link (U : Univ) (σ : Type) where
  decide : Context U → Act σ (Decision U σ)

/-- As a middleware. -/
def Link.mw (l : Link U σ) : Middleware U σ := fun c next => do
  match ← l.decide c with
  | .answer r => pure r
  | .forward c after => do
    let r ← next c
    after r

/-- Going down a chain: the context or answer in the end, and what remains to be done on the way back,
innermost first. -/
def descend : List (Link U σ) → Context U → List (ContextResult U → Act σ (ContextResult U)) →
    Act σ ((ContextResult U ⊕ Context U) × List (ContextResult U → Act σ (ContextResult U)))
  | [], c, todo => pure (.inr c, todo)
  | l :: ls, c, todo => do
    match ← l.decide c with
    | .answer r => pure (.inl r, todo)
    | .forward c after => descend ls c (after :: todo)

/-- A chain, run step by step: down, then the handler unless someone has answered, then back. -/
def runChain (h : Handler U σ) (ls : List (Link U σ)) (c : Context U) : Act σ (ContextResult U) := do
  let (x, todo) ← descend ls c []
  let r ← match x with
    | .inl r => pure r
    | .inr c => h c
  todo.foldlM (fun r after => after r) r

/-- A computation on a world to which a counter has been added. -/
def withCounter {α : Type} : Act σ α → Act (σ × Nat) α
  | .ret a => .ret a
  | .panic c => .panic c
  | .step f k => .step (fun w => (f w.1, w.2)) (fun w => withCounter (k w.1))
  | .print l k => .print l (withCounter k)

/-- A handler that also counts how often it is started. -/
def counted (h : Handler U σ) : Handler U (σ × Nat) := fun c =>
  .step (fun w => (w.1, w.2 + 1)) (fun _ => withCounter (h c))

/-- A middleware that does not touch the counter. -/
def Link.uncounted (l : Link U σ) : Link U (σ × Nat) := ⟨fun c => do
  match ← withCounter (l.decide c) with
  | .answer r => pure (.answer r)
  | .forward c after => pure (.forward c (fun r => withCounter (after r)))⟩

/-- The same outcome and the same effect on the world; what is printed may differ. -/
def SameEffect {α : Type} (x y : Act σ α) : Prop :=
  ∀ w, (x.run w).out = (y.run w).out ∧ (x.run w).world = (y.run w).world

end Obsidian.Spec
