import Verif.Spec.Static

/-
Paths that stay in a directory.
-/
namespace Obsidian.Spec
open Obsidian

/-- Going along the pieces of a path, `n` directories below the one where it began, one never gets above
that. -/
def staysIn : Nat → List Str → Bool
  | _, [] => true
  | n, x :: xs =>
    if x = ".".toList then staysIn n xs
    else if x = "..".toList then n ≠ 0 && staysIn (n - 1) xs
    else staysIn (n + 1) xs

end Obsidian.Spec
