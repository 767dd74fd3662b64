import Verif.Spec.Blindly

/-
Computations that, besides changes of the shared world that nobody looks at, look at it at most once.
-/
namespace Obsidian.Spec
open Obsidian
variable {U : Univ} {σ α : Type}

/-- The computation has at most one step of any kind (the main step); the steps before and after it change the world in ways
of `S` and do not look at it.  The main step does not see the changes of `S`, and neither does what it changes interfere with
them (for example, `S` changes counters of requests, and the main step is about something else). -/
inductive Mainly (S : (σ → σ) → Prop) : Act σ α → Prop
  | blindly {x} : Blindly S x → Mainly S x
  | main {f k} : (∀ g, S g → ∀ w, f (g w) = g (f w) ∧ k (g w) = k w) → (∀ w, Blindly S (k w)) → Mainly S (.step f k)
  | step {f k} : S f → Mainly S k → Mainly S (.step f fun _ => k)
  | print {l k} : Mainly S k → Mainly S (.print l k)

/-- A middleware around which this stays so. -/
def KeepsMainly (S : (σ → σ) → Prop) (m : Middleware U σ) : Prop :=
  ∀ next c, (∀ c, Mainly S (next c)) → Mainly S (m c next)

end Obsidian.Spec
