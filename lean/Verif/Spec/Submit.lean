import Verif.Spec.Form

/- How clients submit values: what they write into a form or query for a value of a type. -/
namespace Obsidian.Spec
open Obsidian

/-- All values of a key, in order. -/
def allValues (pairs : List (Str × Str)) (k : Str) : List Str := (pairs.filter (fun p => p.1 = k)).map (·.2)

mutual
/-- `Item t v xs`: the value `v` of type `t` is submitted as the texts `xs`: one non-empty text for a
scalar, the texts of the components for a tuple. -/
def Item : Ty → Val → List Str → Prop
  | .scalar k, v, xs => ∃ x, x ≠ [] ∧ xs = [x] ∧ Written k x v
  | .newtype t, v, xs => Item t v xs
  | .tuple _ ts, v, xs => ts ≠ [] ∧ ∃ vs, v = .list vs ∧ Items ts vs xs
  | .unit, _, _ | .option _, _, _ | .seq _, _, _ | .fails _, _, _ => False
/-- The components of a tuple. -/
def Items : List Ty → List Val → List Str → Prop
  | [], vs, xs => vs = [] ∧ xs = []
  | t :: ts, vs, xs => ∃ v vs' ys zs, vs = v :: vs' ∧ xs = ys ++ zs ∧ Item t v ys ∧ Items ts vs' zs
end

/-- The elements of a sequence, one after the other. -/
inductive Rows (R : Val → List Str → Prop) : List Val → List Str → Prop
  | nil : Rows R [] []
  | cons {v : Val} {vs : List Val} {ys zs : List Str} : R v ys → Rows R vs zs → Rows R (v :: vs) (ys ++ zs)

/-- `SentAs t v xs`: the field of type `t` with the value `v` is submitted as the texts `xs`. `None` is not
submitted at all; sequences have at least one element. -/
def SentAs : Ty → Val → List Str → Prop
  | .option t, v, xs => (v = .none ∧ xs = []) ∨ ∃ v', v = .some v' ∧ xs ≠ [] ∧ SentAs t v' xs
  | .newtype t, v, xs => xs ≠ [] ∧ SentAs t v xs
  | .seq t, v, xs => ∃ vs, v = .list vs ∧ vs ≠ [] ∧ Rows (Item t) vs xs
  | .scalar k, v, xs => Item (.scalar k) v xs
  | .tuple e ts, v, xs => Item (.tuple e ts) v xs
  | .unit, _, _ | .fails _, _, _ => False

/-- The struct with these fields and values is submitted as the pairs: each field under its name.  A field
that is not submitted must not have another default. -/
def Submits (fields : List Field) (vs : List Val) (pairs : List (Str × Str)) : Prop :=
  Each (fun f v => SentAs f.ty v (allValues pairs f.name) ∧
    (∀ a ∈ f.aliases, a ≠ f.name → allValues pairs a = []) ∧
    (allValues pairs f.name = [] → f.default = none ∨ f.default = some v)) fields vs

end Obsidian.Spec
