import Verif.Model.Str

namespace Obsidian.Spec
open Obsidian

/-- Texts in claims and examples. -/
abbrev s (x : String) : Str := x.toList

end Obsidian.Spec
