import Verif.Spec.Calls

/-
What is registered below a path, and requests that have nothing to do with it.
-/
namespace Obsidian.Spec
open Obsidian
variable {M H : Type}

/-- The same registrations except for those at the path or below it, of which there are some on both sides. -/
def SameElsewhere (P : List Str) (L L' : Log M H) : Prop :=
  L.filter (fun e => ! P.isPrefixOf e.segs) = L'.filter (fun e => ! P.isPrefixOf e.segs) ∧
  (∃ e ∈ L, P <+: e.segs) ∧ ∃ e ∈ L', P <+: e.segs

/-- The request matches no path that begins with `P`, not even if slashes are left out. -/
def Outside (P req : List Str) : Prop := ∀ more b, ¬ FlatMatch (P ++ more) req b

/-- The same programs except for the contents of one nested router, which is reached at the path. -/
inductive Swap : (P : List Str) → (prog prog' : List (Reg M H)) → Prop where
  | router {cs ds sub sub' : List (Reg M H)} {p : Str} : segments p ≠ [] → (∀ c ∈ ds, NotRootMount c) →
      Swap (segments p) (cs ++ .useRouter p sub :: ds) (cs ++ .useRouter p sub' :: ds)
  | scope {cs ds sub sub' : List (Reg M H)} {p : Str} : segments p ≠ [] → (∀ c ∈ ds, NotRootMount c) →
      Swap (segments p) (cs ++ .scope p sub :: ds) (cs ++ .scope p sub' :: ds)
  | inRouter {P : List Str} {cs ds sub sub' : List (Reg M H)} {p : Str} : Swap P sub sub' →
      (∀ c ∈ ds, NotRootMount c) →
      Swap (segments p ++ P) (cs ++ .useRouter p sub :: ds) (cs ++ .useRouter p sub' :: ds)
  | inScope {P : List Str} {cs ds sub sub' : List (Reg M H)} {p : Str} : Swap P sub sub' →
      (∀ c ∈ ds, NotRootMount c) →
      Swap (segments p ++ P) (cs ++ .scope p sub :: ds) (cs ++ .scope p sub' :: ds)

end Obsidian.Spec
