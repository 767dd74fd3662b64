import Verif.Spec.Form

/- What the errors of forms and queries say. -/
namespace Obsidian.Spec
open Obsidian

/-- The text after the sign: a plus sign, or a minus sign if the type is signed. -/
def AfterSign (signed : Bool) (text : Str) (minus : Bool) (rest : Str) : Prop :=
  (text = '+' :: rest ∧ minus = false) ∨ (text = '-' :: rest ∧ signed = true ∧ minus = true) ∨
  (text = rest ∧ minus = false ∧ text.head? ≠ some '+' ∧ (signed = true → text.head? ≠ some '-'))

/-- A decimal digit. -/
def Digit (c : Char) : Prop := '0' ≤ c ∧ c ≤ '9'

/-- The number with this sign. -/
def withSign (minus : Bool) (n : Nat) : Int := if minus = true then -(n : Int) else n

/-- What is said about a text that is not an integer of the type (`std::num::ParseIntError`): it is about
the first character with which things go wrong. -/
inductive IntComplaint (signed : Bool) (bits : Nat) (text : Str) : Str → Prop
  | empty : text = [] → IntComplaint signed bits text "cannot parse integer from empty string".toList
  /-- a sign alone -/
  | sign {minus} : text ≠ [] → AfterSign signed text minus [] →
      IntComplaint signed bits text "invalid digit found in string".toList
  /-- a character that is not a digit -/
  | digit {minus digits c rest} : AfterSign signed text minus (digits ++ c :: rest) →
      (∀ c ∈ digits, Digit c) → IntRange signed bits (withSign minus (number digits)) → ¬ Digit c →
      IntComplaint signed bits text "invalid digit found in string".toList
  /-- a digit too many -/
  | large {digits c rest} : AfterSign signed text false (digits ++ c :: rest) →
      (∀ c ∈ digits, Digit c) → IntRange signed bits (number digits) → Digit c →
      ¬ IntRange signed bits (number (digits ++ [c])) →
      IntComplaint signed bits text "number too large to fit in target type".toList
  | small {digits c rest} : AfterSign signed text true (digits ++ c :: rest) →
      (∀ c ∈ digits, Digit c) → IntRange signed bits (-(number digits : Int)) → Digit c →
      ¬ IntRange signed bits (-(number (digits ++ [c]) : Int)) →
      IntComplaint signed bits text "number too small to fit in target type".toList

/-- What is said about a text that is not of the scalar type. -/
def ScalarComplaint : Scalar → Str → FormError → Prop
  | .bool, x, e => x ≠ "true".toList ∧ x ≠ "false".toList ∧
      e = .message "provided string was not `true` or `false`".toList
  | .int signed bits, x, e => ∃ m, e = .message m ∧ IntComplaint signed bits x m
  | .float p, x, e => ∃ m, e = .message m ∧ p x = .error m
  | .char, x, e => x = [] ∧ e = .noneError
  | .string, _, _ => False
  | .ofString f, x, e => f x = .error e

/-- The first element that cannot be read is complained about. -/
inductive ComplainsAll (R : List Str → Val → List Str → Prop) (C : List Str → FormError → Prop) :
    List Str → FormError → Prop
  | here {xs e} : C xs e → ComplainsAll R C xs e
  | later {xs v r e} : R xs v r → r ≠ [] → ComplainsAll R C r e → ComplainsAll R C xs e

mutual
/-- `Complains t xs e`: the values `xs` cannot be read as a value of type `t`, and `e` says why. -/
def Complains : Ty → List Str → FormError → Prop
  | .scalar k, xs, e => ∃ x r, xs = x :: r ∧ ScalarComplaint k x e
  | .unit, _, _ => False
  | .option t, xs, e => xs.head? ≠ some [] ∧ Complains t xs e
  | .newtype t, xs, e => Complains t xs e
  | .seq t, xs, e => ComplainsAll (Reads t) (Complains t) xs e
  | .tuple expected ts, xs, e => ComplainsEach expected ts 0 xs e
  | .fails e', _, e => e = e'
/-- For the components of a tuple, of which `i` have been read: too few values, or a component that cannot
be read. -/
def ComplainsEach (expected : Str) : List Ty → Nat → List Str → FormError → Prop
  | [], _, _, _ => False
  | t :: ts, i, xs, e =>
    (xs = [] ∧ e = .message ("invalid length ".toList ++ (Nat.repr i).toList ++ ", expected ".toList ++ expected)) ∨
    (xs ≠ [] ∧ (Complains t xs e ∨ ∃ v r, Reads t xs v r ∧ ComplainsEach expected ts (i + 1) r e))
end

/-- What is said about what was submitted for a struct. -/
inductive EntryComplaint (fields : List Field) (deny : Option (Str → Str)) (entries : List (Str × List Str)) :
    FormError → Prop
  /-- the values of a field -/
  | value {f e err} : f ∈ fields → e ∈ entries → f.has e.1 = true → Complains f.ty e.2 err →
      EntryComplaint fields deny entries err
  /-- a field that is given under two of its names -/
  | twice {f e e'} : f ∈ fields → e ∈ entries → e' ∈ entries → e ≠ e' → f.has e.1 = true → f.has e'.1 = true →
      EntryComplaint fields deny entries (.message ("duplicate field `".toList ++ f.name ++ ['`']))
  /-- a name that is not allowed -/
  | unknown {k vals text} : deny = some text → (k, vals) ∈ entries → (∀ f ∈ fields, f.has k = false) →
      EntryComplaint fields deny entries (.message (text k))

/-- The field has to be given, but is not. -/
def Lacks (entries : List (Str × List Str)) (f : Field) : Prop :=
  f.default = none ∧ (∀ t, f.ty ≠ .option t) ∧ ∀ e ∈ entries, f.has e.1 = false

/-- What is said about the first field that is lacking. -/
def LackComplaint (fields : List Field) (entries : List (Str × List Str)) (err : FormError) : Prop :=
  ∃ pre f post, fields = pre ++ f :: post ∧ (∀ g ∈ pre, ¬ Lacks entries g) ∧ Lacks entries f ∧
    err = .message ("missing field `".toList ++ f.name ++ ['`'])

end Obsidian.Spec
