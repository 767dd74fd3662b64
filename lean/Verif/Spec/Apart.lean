import Verif.Spec.OneByOne

/-!
Computations on a world of many cells, each of which uses only some of them.
-/

namespace Obsidian.Spec

open Obsidian

variable {U : Univ} {α : Type} {κ : Type} {V : κ → Type}

/-- A world of cells. -/
abbrev Cells (V : κ → Type) : Type := (x : κ) → V x

/-- The worlds have the same in the cells of the set. -/
def SameIn (S : κ → Prop) (w w' : Cells V) : Prop := ∀ x, S x → w x = w' x

/-- The computation changes only cells in `writes`; what it puts there, and how it goes on, depends only on the cells
in `reads`. -/
inductive Uses (reads writes : κ → Prop) : Act (Cells V) α → Prop
  | ret {a} : Uses reads writes (.ret a)
  | panic {k} : Uses reads writes (.panic k)
  | step {f k} : (∀ w x, ¬ writes x → f w x = w x) →
      (∀ w w', SameIn reads w w' → SameIn writes (f w) (f w') ∧ k w = k w') → (∀ w, Uses reads writes (k w)) →
      Uses reads writes (.step f k)
  | print {l k} : Uses reads writes k → Uses reads writes (.print l k)

/-- No request changes a cell that another one reads or changes. -/
def Separate (reads writes : Nat → κ → Prop) : Prop :=
  ∀ i j, i ≠ j → ∀ x, writes i x → ¬ reads j x ∧ ¬ writes j x

/-- The order has all of the requests. -/
def Order.All (o : Order U) (reqs : List (Request U)) : Prop := o.Of reqs ∧ ∀ i, i < reqs.length → ∃ e ∈ o, e.1 = i

/-- A middleware that, for contexts of the kind `D`, uses no other cells than those, and hands on only such contexts. -/
def KeepsTo (reads writes : κ → Prop) (D : Context U → Prop) (m : Middleware U (Cells V)) : Prop :=
  ∀ next c, D c → (∀ c, D c → Uses reads writes (next c)) → Uses reads writes (m c next)

end Obsidian.Spec
