import Verif.Spec.OneByOne

/-
Computations that change the shared world without looking at it.
-/
namespace Obsidian.Spec
open Obsidian
variable {U : Univ} {σ α : Type}

/-- The computation changes the world only in ways of `S`, any number of times, and does not look at it. -/
inductive Blindly (S : (σ → σ) → Prop) : Act σ α → Prop
  | ret {a} : Blindly S (.ret a)
  | panic {k} : Blindly S (.panic k)
  | step {f k} : S f → Blindly S k → Blindly S (.step f fun _ => k)
  | print {l k} : Blindly S k → Blindly S (.print l k)

/-- It does not matter which of two changes comes first. -/
def Commuting (S : (σ → σ) → Prop) : Prop := ∀ f g, S f → S g → ∀ w, f (g w) = g (f w)

/-- A middleware that itself changes the world only in this way: around a rest of the chain that does so, this is still so.
(It may run the rest of the chain any number of times.) -/
def KeepsBlindly (S : (σ → σ) → Prop) (m : Middleware U σ) : Prop :=
  ∀ next c, (∀ c, Blindly S (next c)) → Blindly S (m c next)

end Obsidian.Spec
