import Verif.Spec.Guard

/-
Middlewares that see to it that what comes after them finds something in the context.
-/
namespace Obsidian.Spec
open Obsidian
variable {U : Univ} {σ : Type}

/-- Whatever context the middleware is given, it only asks what comes after it about contexts for which
the condition holds: it does not tell services apart that differ elsewhere. -/
def Provides (D : Context U → Prop) (g : Middleware U σ) : Prop :=
  ∀ c next next', (∀ c', D c' → next c' = next' c') → g c next = g c next'

/-- The two handlers do the same with contexts for which the condition holds. -/
def AgreeOn (D : Context U → Prop) (h h' : Handler U σ) : Prop := ∀ c, D c → h c = h' c

/-- The same registrations, except that handlers of routes at the path or below it may be replaced by
ones that agree with them where the condition holds. -/
def AgreeBelow (Q : List Str) (D : Context U → Prop) (L L' : Log (Middleware U σ) (Handler U σ)) : Prop :=
  Each (fun e e' => e = e' ∨
    (Q <+: e.segs ∧ ∃ m h h', e = ⟨e.segs, .route m h⟩ ∧ e' = ⟨e.segs, .route m h'⟩ ∧ AgreeOn D h h')) L L'

/-- A middleware for the path `P` can be called after one for the path `Q`: the global ones come first,
then the ones of longer paths before the ones of shorter paths (see C15). -/
def CanFollow (Q P : List Str) : Prop := flat Q = [] ∨ (flat P ≠ [] ∧ flat P <+: flat Q)

/-- The context has a value of the type. -/
def Has (t : U.Ty) (c : Context U) : Prop := ∃ v, c.get t = some v

/-- A middleware that adds a value to the context and passes it on, like
`context.add(value); ep_executor.next(context).await`. -/
def adding (t : U.Ty) (value : Context U → U.Val t) : Middleware U σ := fun c next => next (c.add t (value c))

/-- A handler that uses a value of the context, and does something else if it is not there, for example
panics (`context.get::<T>().unwrap()`). -/
def needing (t : U.Ty) (h : U.Val t → Handler U σ) (otherwise : Handler U σ) : Handler U σ := fun c =>
  match c.get t with
  | some v => h v c
  | none => otherwise c

end Obsidian.Spec
