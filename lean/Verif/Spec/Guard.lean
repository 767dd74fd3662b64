import Verif.Spec.Alike
import Verif.Spec.Server

/-
Middlewares that guard a path.
-/
namespace Obsidian.Spec
open Obsidian
variable {U : Univ} {σ : Type}

/-- The request is for the path or for something below it. -/
def Below (Q req : List Str) : Prop := ∃ first rest b, req = first ++ rest ∧ Matches Q first b

/-- Where the condition holds, the middleware answers without asking what comes after it. -/
def Bars (D : Context U → Prop) (g : Middleware U σ) : Prop :=
  ∀ c, D c → ∀ next next', g c next = g c next'

/-- The middleware does not undo the condition: where it holds, only such services can be told apart as
differ where it holds. -/
def Preserves (D : Context U → Prop) (m : Middleware U σ) : Prop :=
  ∀ c, D c → ∀ next next', (∀ c', D c' → next c' = next' c') → m c next = m c next'

/-- A middleware for the path `P` can be called before one for the path `Q`: it is a global one, or one
for a longer path, or for the same path (see C15). -/
def CanPrecede (Q P : List Str) : Prop := flat P = [] ∨ (flat Q ≠ [] ∧ flat Q <+: flat P)

/-- The same registrations, except for the handlers of routes at the path or below it. -/
def SameButBelow {M H : Type} (Q : List Str) (L L' : Log M H) : Prop :=
  Each (fun e e' => e = e' ∨ (Q <+: e.segs ∧ ∃ m h h', e = ⟨e.segs, .route m h⟩ ∧ e' = ⟨e.segs, .route m h'⟩)) L L'

end Obsidian.Spec
