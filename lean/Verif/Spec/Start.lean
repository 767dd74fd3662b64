import Verif.Spec.Routing
import Verif.Spec.Pattern

/-
Which registration programs are accepted, and with what panic the others stop.
-/
namespace Obsidian.Spec
open Obsidian
variable {M H : Type}

/-- The first segment with a `*` is more than a `*`, or not the last one. -/
def StarFault (path : Str) (e : Panic) : Prop :=
  ∃ pre x post, segments path = pre ++ x :: post ∧ (∀ y ∈ pre, '*' ∉ y) ∧ '*' ∈ x ∧
    ((x ≠ ['*'] ∧ e = .starInName path) ∨ (x = ['*'] ∧ post ≠ [] ∧ e = .starNotLast path))

/-- The path itself is rejected: because of its `*`, or because it clashes with an earlier one. -/
def PathFault (L : Log M H) (path : Str) (e : Panic) : Prop :=
  StarFault path e ∨ (StarsOK (segments path) ∧ ¬ NoClash L (segments path) ∧ ∃ a b, e = .ambiguous a b path)

/-- A call that mounts a router; the path is the one in panics. -/
inductive Mounts : Reg M H → Str → List (Reg M H) → Prop
  | useRouter {p sub} : Mounts (.useRouter p sub) p sub
  | scope {name sub} : Mounts (.scope name sub) ('/' :: name) sub

/-- The program stops with the panic: the first call that is rejected is rejected because of it. -/
inductive Stops : List (Reg M H) → Log M H → Panic → Prop
  | later {c cs L e} : RegOK c L → Stops cs (logReg c L) e → Stops (c :: cs) L e
  /-- a route with a bad path -/
  | route {v : Verb} {p h cs L e} : PathFault L p e → Stops (v.reg p h :: cs) L e
  /-- a second route with the same method at the same place -/
  | twice {v : Verb} {p h cs L} : StarsOK (segments p) → NoClash L (segments p) →
      (∃ old ∈ L, flat old.segs = flat (segments p) ∧ ∃ h', old.what = .route v.method h') →
      Stops (v.reg p h :: cs) L (.duplicated v.method (if segments p = [] then ['/'] else p))
  /-- a middleware with a bad path -/
  | middleware {p m cs L e} : PathFault L p e → Stops (.useServiceTo p m :: cs) L e
  /-- a mounted router that is itself rejected -/
  | inner {c p sub cs L e} : Mounts c p sub → Stops sub [] e → Stops (c :: cs) L e
  /-- a mount with a bad path -/
  | mount {c p sub cs L e} : Mounts c p sub → RegsOK sub [] → PathFault L p e → Stops (c :: cs) L e
  /-- a mount where something is registered -/
  | taken {c p sub cs L} : Mounts c p sub → RegsOK sub [] → StarsOK (segments p) → segments p ≠ [] →
      NoClash L (segments p) → ¬ Free L (flat (segments p)) → Stops (c :: cs) L (.conflict p)

/-- Panics that differ at most in which keys of the table an ambiguity message names. -/
def AlikePanic (e e' : Panic) : Prop :=
  e = e' ∨ ∃ a b a' b' path, e = .ambiguous a b path ∧ e' = .ambiguous a' b' path

end Obsidian.Spec
