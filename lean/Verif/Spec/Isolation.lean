import Verif.Model.Server

/- Requests that do not share state. -/
namespace Obsidian.Spec
open Obsidian
variable {U : Univ} {τ : Type}

/-- A computation on one component of a world: "handlers do not share state" means that the `i`-th
request works on the `i`-th component. -/
def onPart {α : Type} (i : Nat) : Act τ α → Act (Nat → τ) α
  | .ret a => .ret a
  | .panic c => .panic c
  | .step f k => .step (fun w j => if j = i then f (w i) else w j) (fun w => onPart i (k (w i)))
  | .print l k => .print l (onPart i k)

/-- The server before the first request. -/
def idle (a : App U τ) (w : Nat → τ) : Server U (Nat → τ) τ := ⟨a, [], w, []⟩

end Obsidian.Spec
