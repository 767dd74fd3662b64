import Verif.Spec.Routing

/-
What it means for a request to match a registered path.
-/
namespace Obsidian.Spec
open Obsidian

/-- The request segments match the pattern segments one by one, and bind the parameters: a static
segment matches itself, `:x` matches one segment, a final `*` matches one or more segments. -/
inductive Matches : (pat req : List Str) → (params : List (Str × Str)) → Prop where
  | nil : Matches [] [] []
  | static {s : Str} {ps rs : List Str} {b : List (Str × Str)} :
      s.head? ≠ some ':' → s ≠ ['*'] → Matches ps rs b → Matches (s :: ps) (s :: rs) b
  | param {x v : Str} {ps rs : List Str} {b : List (Str × Str)} :
      Matches ps rs b → Matches ((':' :: x) :: ps) (v :: rs) ((x, v) :: b)
  | wild {rs : List Str} : rs ≠ [] → Matches [['*']] rs []

/-- The weaker relation that the code implements: within a stretch without parameters only the
characters count, not where the slashes are; `*` matches the rest, even if nothing is left. -/
inductive FlatMatch : (pat req : List Str) → (params : List (Str × Str)) → Prop where
  | nil : FlatMatch [] [] []
  | text {ps ps' rs rs' : List Str} {b : List (Str × Str)} :
      flat ps = flat rs → FlatMatch ps' rs' b → FlatMatch (ps ++ ps') (rs ++ rs') b
  | param {x v : Str} {ps rs : List Str} {b : List (Str × Str)} :
      FlatMatch ps rs b → FlatMatch ((':' :: x) :: ps) (v :: rs) ((x, v) :: b)
  | wild {rs : List Str} : FlatMatch [['*']] rs []

/-- The names of the parameters of a pattern. -/
def paramNames : List Str → List Str
  | [] => []
  | (':' :: x) :: ss => x :: paramNames ss
  | _ :: ss => paramNames ss

/-- A pattern without wildcard. -/
def NoStar (ss : List Str) : Prop := ['*'] ∉ ss

/-- A pattern without parameters and wildcard. -/
def Static (ss : List Str) : Prop := ∀ s ∈ ss, s.head? ≠ some ':' ∧ s ≠ ['*']

instance (ss : List Str) : Decidable (NoStar ss) := by unfold NoStar; infer_instance
instance (ss : List Str) : Decidable (Static ss) := by unfold Static; infer_instance

/-- The five registration verbs. -/
inductive Verb where
  | get | post | put | patch | delete
deriving DecidableEq, Repr

/-- The HTTP method of a verb. -/
def Verb.method : Verb → Method
  | .get => .get | .post => .post | .put => .put | .patch => .patch | .delete => .delete

/-- The registration call of a verb. -/
def Verb.reg {M H : Type} : Verb → Str → H → Reg M H
  | .get => .get | .post => .post | .put => .put | .patch => .patch | .delete => .delete

end Obsidian.Spec
