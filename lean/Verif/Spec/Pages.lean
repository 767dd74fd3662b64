import Verif.Spec.Pattern

/-
Applications that consist of routes for fixed paths.
-/
namespace Obsidian.Spec

/-- One route: method, path and what is to be served. -/
structure Page (H : Type) where
  verb : Verb
  path : Str
  what : H

/-- The calls that register the pages, in order. -/
def Page.calls {M H : Type} (ps : List (Page H)) : List (Reg M H) := ps.map (fun p => p.verb.reg p.path p.what)

/-- A fixed path: no segment is a parameter, and `*` and `:` do not occur. -/
def Fixed (path : Str) : Prop := ∀ x ∈ segments path, '*' ∉ x ∧ ':' ∉ x

instance (path : Str) : Decidable (Fixed path) := by unfold Fixed; infer_instance

/-- Two pages that take each other's place: same method, and the same characters without slashes. -/
def Page.same {H : Type} (p q : Page H) : Prop :=
  p.verb = q.verb ∧ flat (segments p.path) = flat (segments q.path)

instance {H : Type} (p q : Page H) : Decidable (p.same q) := by unfold Page.same; infer_instance

/-- The characters `q` are those of the first segments of a page, or two pages agree in `q` and go on
with different characters. -/
def Stop {H : Type} (ps : List (Page H)) (q : Str) : Prop :=
  (∃ p ∈ ps, ∃ pre post, segments p.path = pre ++ post ∧ flat pre = q) ∨
  ∃ p ∈ ps, ∃ p' ∈ ps, ∃ a b u v, flat (segments p.path) = q ++ a :: u ∧
    flat (segments p'.path) = q ++ b :: v ∧ a ≠ b

/-- The page answers requests for the path: the characters agree up to slashes, and the slashes of the
request are all at stops. -/
def Page.Answers {H : Type} (ps : List (Page H)) (p : Page H) (path : Str) : Prop :=
  flat (segments p.path) = flat (segments path) ∧
  ∀ pre post, segments path = pre ++ post → pre ≠ [] → Stop ps (flat pre)

/-- The segments `req` are the segments `ss`, or become these when slashes are put into them: some (or none) of
the slashes of the path have been left out. -/
def Joined (ss req : List Str) : Prop := ∃ gs : List (List Str), (∀ g ∈ gs, g ≠ []) ∧ gs.flatten = ss ∧ req = gs.map flat

end Obsidian.Spec
