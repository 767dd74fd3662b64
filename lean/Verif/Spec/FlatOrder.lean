import Verif.Spec.Flatten

/- Values of flattened parts, up to the order of the entries of maps. -/
namespace Obsidian.Spec
open Obsidian

/-- The same value: maps with the same values for the same keys are the same. -/
def SamePart : PartVal → PartVal → Prop
  | .map m, .map m' => ∀ k, m.get k = m'.get k
  | p, p' => p = p'

end Obsidian.Spec
