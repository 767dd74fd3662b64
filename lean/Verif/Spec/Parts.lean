import Verif.Spec.OneByOne

/-
Computations that work on different parts of the shared world.
-/
namespace Obsidian.Spec
open Obsidian
variable {U : Univ} {σ ρ K α : Type}

/-- A part of the world: what is seen of the world there, and the changes that are made there. -/
structure Part (σ ρ : Type) where
  look : σ → ρ
  changes : (σ → σ) → Prop

/-- The computation works on this part only: it makes only changes of the part, and how it goes on depends only on what it sees
there.  It may have any number of steps. -/
inductive Within (P : Part σ ρ) : Act σ α → Prop
  | ret {a} : Within P (.ret a)
  | panic {k} : Within P (.panic k)
  | step {f k} : P.changes f → (∀ w w', P.look w = P.look w' → k w = k w') → (∀ w, Within P (k w)) → Within P (.step f k)
  | print {l k} : Within P k → Within P (.print l k)

/-- Two parts have nothing to do with each other: changes of one are not seen in the other, and it does not matter which
of two changes comes first. -/
structure Part.Apart (P Q : Part σ ρ) : Prop where
  commute : ∀ f g, P.changes f → Q.changes g → ∀ w, f (g w) = g (f w)
  left : ∀ g, Q.changes g → ∀ w, P.look (g w) = P.look w
  right : ∀ f, P.changes f → ∀ w, Q.look (f w) = Q.look w

/-- A middleware around which this stays so: it works on no part of its own, or on the same one. -/
def KeepsWithin (P : Part σ ρ) (m : Middleware U σ) : Prop := ∀ next c, (∀ c, Within P (next c)) → Within P (m c next)

/-- Requests for the same part do not overlap: when one arrives, those before it for the same part are finished.  (Requests for
other parts may be under way.) -/
def TakingTurns (a : App U σ) (w0 : σ) (key : Request U → K) (es : List (Event U)) : Prop :=
  ∀ es1 req es2, es = es1 ++ .arrive req :: es2 → ∀ t ∈ ((startUp a w0).run shared es1).tasks, key t.req = key req →
    ∃ out, Outcome t.todo out

end Obsidian.Spec
