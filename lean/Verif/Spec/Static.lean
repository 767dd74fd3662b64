import Verif.Spec.Server
import Verif.Model.Static

/-
What is expected of serving files.
-/
namespace Obsidian.Spec
open Obsidian
variable {U : Univ} {σ : Type}

/-- A path made of names. -/
def pathOf (names : List Str) : Str := ['/'].intercalate names

/-- Going from a directory along one piece of a path. -/
def go (loc : List Str) (s : Str) : List Str :=
  if s = ".".toList then loc else if s = "..".toList then loc.dropLast else loc ++ [s]

/-- The place in the file system that a path names (without symbolic links) for a process whose
working directory is `cwd`, as the list of names from the root. -/
def locate (cwd : List Str) (path : Str) : List Str :=
  (segments path).foldl go (if path.head? = some '/' then [] else cwd)

/-- A path that starts at the root of the file system. -/
def Absolute (path : Str) : Prop := path.head? = some '/'

/-- No piece of the path goes up. -/
def NoDots (ss : List Str) : Prop := ∀ s ∈ ss, s ≠ "..".toList

/-- The answer to a request for a file: its content, or 404 with the text of the error. -/
def FileAnswer (file : Except Str Bytes) (sent : Sent) : Prop :=
  sent.body.fails = false ∧ (∀ k, sent.headers.get k = none) ∧
  match file with
  | .ok bytes => sent.status = 200 ∧ sent.body.bytes = bytes
  | .error e => sent.status = 404 ∧ sent.body.bytes = utf8 e

/-- A text file, or an error. -/
def IsText (file : Except Str Bytes) : Prop := ∀ b, file = .ok b → ∃ x, utf8 x = b

/-- The computation looks at no file but the one at `path`. -/
def LooksOnlyAt {α : Type} (act : ReadFile σ → Act σ α) (path : Str) : Prop :=
  ∀ fs fs' w, fs w path = fs' w path → (act fs).run w = (act fs').run w

end Obsidian.Spec
