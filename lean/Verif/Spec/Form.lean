import Verif.Model.Form

/- What is expected of decoding forms and queries. -/
namespace Obsidian.Spec
open Obsidian

/-- The non-empty values of a key, in order. -/
def valuesOf (pairs : List (Str × Str)) (k : Str) : List Str :=
  pairs.filterMap (fun p => if p.1 = k ∧ p.2 ≠ [] then some p.2 else none)

/-- An iteration over a map visits every entry once. -/
def Visits (i : Iter) : Prop := ∀ m, (i m).Perm m.entries

/-- The number written by decimal digits. -/
def number (digits : Str) : Nat := digits.foldl (fun n c => 10 * n + (c.toNat - 48)) 0

/-- The text is a decimal number: digits, with a plus sign or (for signed types) a minus sign. -/
def Denotes (signed : Bool) (text : Str) (i : Int) : Prop :=
  ∃ digits, digits ≠ [] ∧ (∀ c ∈ digits, '0' ≤ c ∧ c ≤ '9') ∧
    ((text = digits ∧ i = number digits) ∨ (text = '+' :: digits ∧ i = number digits) ∨
     (signed = true ∧ text = '-' :: digits ∧ i = -(number digits : Int)))

/-- The integers of a type: `lo ≤ i ≤ hi`. -/
def IntRange (signed : Bool) (bits : Nat) (i : Int) : Prop :=
  if signed = true then -(2 ^ (bits - 1)) ≤ i ∧ i ≤ 2 ^ (bits - 1) - 1 else 0 ≤ i ∧ i ≤ 2 ^ bits - 1

/-- The text `x` stands for the value `v` of the scalar type: `true` or `false`, a decimal number in the
range of the type, any text for a string, and any non-empty text for its first character.  (For floating
point numbers and for types made from strings, what is allowed is up to the type.) -/
def Written : Scalar → Str → Val → Prop
  | .bool, x, v => ∃ b : Bool, v = .bool b ∧ x = (if b = true then "true".toList else "false".toList)
  | .int signed bits, x, v => ∃ i, v = .int i ∧ Denotes signed x i ∧ IntRange signed bits i
  | .float p, x, v => ∃ b, v = .float b ∧ p x = .ok b
  | .char, x, v => ∃ c r, x = c :: r ∧ v = .char c
  | .string, x, v => v = .str x
  | .ofString f, x, v => f x = .ok v

/-- All values are read, giving one or more elements, each of which is read with `R`. -/
inductive ReadsAll (R : List Str → Val → List Str → Prop) : List Str → List Val → Prop
  | last {xs v} : R xs v [] → ReadsAll R xs [v]
  | more {xs v r vs} : R xs v r → ReadsAll R r vs → ReadsAll R xs (v :: vs)

mutual
/-- `Reads t xs v r`: a value of type `t` is read from the front of the list of values `xs`, giving `v`
and leaving the values `r`.  A scalar takes one value, an empty value is `None`, a sequence takes all
values, a tuple takes its components one after the other (and an empty array takes one value). -/
def Reads : Ty → List Str → Val → List Str → Prop
  | .scalar k, xs, v, r => ∃ x, xs = x :: r ∧ Written k x v
  | .unit, xs, v, r => ∃ x, xs = x :: r ∧ v = .unit
  | .option t, xs, v, r =>
    (xs = [] :: r ∧ v = .none) ∨ (xs.head? ≠ some [] ∧ ∃ v', v = .some v' ∧ Reads t xs v' r)
  | .newtype t, xs, v, r => Reads t xs v r
  | .seq t, xs, v, r => r = [] ∧ ∃ vs, v = .list vs ∧ ReadsAll (Reads t) xs vs
  | .tuple _ ts, xs, v, r =>
    ∃ vs, v = .list vs ∧ ((ts = [] ∧ vs = [] ∧ ∃ x, xs = x :: r) ∨ (ts ≠ [] ∧ ReadsEach ts xs vs r))
  | .fails _, _, _, _ => False
/-- The components of a tuple are read one after the other. -/
def ReadsEach : List Ty → List Str → List Val → List Str → Prop
  | [], xs, vs, r => vs = [] ∧ r = xs
  | t :: ts, xs, vs, r => ∃ v vs' r', vs = v :: vs' ∧ Reads t xs v r' ∧ ReadsEach ts r' vs' r
end

mutual
/-- The type contains neither options nor units (outside of the string it may be made from). -/
def Steady : Ty → Bool
  | .scalar _ => true
  | .unit => false
  | .option _ => false
  | .newtype t => Steady t
  | .seq t => Steady t
  | .tuple _ ts => SteadyAll ts
  | .fails _ => true
/-- All the types are `Steady`. -/
def SteadyAll : List Ty → Bool
  | [] => true
  | t :: ts => Steady t && SteadyAll ts
end

/-- The type contains neither options nor units inside sequences and tuples. -/
def Safe : Ty → Bool
  | .scalar _ => true
  | .unit => true
  | .option t => Safe t
  | .newtype t => Safe t
  | .seq t => Steady t
  | .tuple _ ts => SteadyAll ts
  | .fails _ => true

/-- The values of a key can be given to a type: there is at least one, and empty values are only
allowed if the type has no options or units inside sequences and tuples. -/
def Fits (t : Ty) (vals : List Str) : Prop := vals ≠ [] ∧ (Safe t = true ∨ ∀ x ∈ vals, x ≠ [])

/-- The values of the key `k` are decoded to the type `t`: as a field of a struct, or as a value of a map. -/
def DecodedAs (shape : Shape) (k : Str) (t : Ty) : Prop :=
  match shape with
  | .struct fields _ => ∃ f ∈ fields, f.has k = true ∧ f.ty = t
  | .map t' => t = t'
  | _ => False

/-- `v` is the value of a struct field, `dec` being the decoding of a list of values: if the field is
named by an entry, then by only one, whose values are decoded; otherwise it is the default or, for
options, `None`. -/
def FieldValue (dec : Ty → List Str → Val → Prop) (entries : List (Str × List Str)) (f : Field) (v : Val) :
    Prop :=
  (∃ e ∈ entries, f.has e.1 = true ∧ (∀ e' ∈ entries, f.has e'.1 = true → e' = e) ∧ dec f.ty e.2 v) ∨
  ((∀ e ∈ entries, f.has e.1 = false) ∧
    (f.default = some v ∨ (f.default = none ∧ (∃ t, f.ty = .option t) ∧ v = .none)))

/-- Element by element. -/
inductive Each {α β : Type} (R : α → β → Prop) : List α → List β → Prop
  | nil : Each R [] []
  | cons {a b as bs} : R a b → Each R as bs → Each R (a :: as) (b :: bs)

/-- `vs` are the values of the fields of a struct. -/
def StructValue (dec : Ty → List Str → Val → Prop) (fields : List Field) (deny : Option (Str → Str))
    (entries : List (Str × List Str)) (vs : List Val) : Prop :=
  Each (FieldValue dec entries) fields vs ∧
  ∀ e ∈ entries, (∃ f ∈ fields, f.has e.1 = true) ∨ deny = none

/-- No key names two fields. -/
def Distinct (fields : List Field) : Prop :=
  fields.Pairwise (fun f g => ∀ k, f.has k = true → g.has k = false)

/-- No key occurs twice (in the entries of a map). -/
def KeysDistinct (entries : List (Str × List Str)) : Prop := (entries.map (·.1)).Nodup

end Obsidian.Spec
