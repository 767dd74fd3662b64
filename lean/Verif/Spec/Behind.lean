import Verif.Spec.Answers
import Verif.Spec.Chain

/-
Middlewares that only watch, one by one.
-/
namespace Obsidian.Spec
variable {U : Univ} {σ : Type}

/-- The middleware changes neither what comes after it nor the world, provided that what comes after it
builds a response or fails. (It may print.) -/
def OnlyWatches (m : Middleware U σ) : Prop := ∀ c next, Responds (next c) → SameEffect (m c next) (next c)

/-- The computation is one of which `P` holds, but for what is printed. -/
def ButForLog {α : Type} (P : Act σ α → Prop) (x : Act σ α) : Prop := ∃ quiet, P quiet ∧ SameEffect x quiet

end Obsidian.Spec
