import Verif.Spec.Flatten

/- What the errors about structs with flattened parts say. -/
namespace Obsidian.Spec
open Obsidian

/-- The text `x` is not taken for a value of type `t` in a flattened part, and `e` says why: a character is
not any number of characters, a type made from strings has its own complaint, and the types that take no
text at all say so, with the text and what they expect. -/
def RejectsText (tx : Texts) : Ty → Str → FormError → Prop
  | .scalar .string, _, _ => False
  | .scalar .char, x, e => x.length ≠ 1 ∧
      e = .message ("invalid value: string \"".toList ++ x ++ "\", expected a character".toList)
  | .scalar (.ofString f), x, e => f x = .error e
  | .option t, x, e => RejectsText tx t x e
  | .newtype t, x, e => RejectsText tx t x e
  | .fails e', _, e => e = e'
  | t, x, e => e = .message ("invalid type: string \"".toList ++ x ++ "\", expected ".toList ++ tx.expected t)

/-- The same for the types of fields of flattened parts. -/
def RejectsFlat (tx : Texts) : FlatTy → Str → FormError → Prop
  | .of t, x, e => RejectsText tx t x e
  | .enum vs, x, e => x ∉ vs ∧ e = .message (tx.variant vs x)

/-- A field of a flattened struct for which there has to be a text, but is none. -/
def LacksFlat (avail : Str → Option Str) (f : FlatField) : Prop :=
  f.default = none ∧ (∀ t, f.ty ≠ .of (.option t)) ∧ avail f.name = none

/-- What is said about a flattened struct: a text of a field is refused; or none is, and the first field
that is lacking is named. -/
def StructComplaint (tx : Texts) (avail : Str → Option Str) (fs : List FlatField) (e : FormError) : Prop :=
  (∃ f ∈ fs, ∃ x, avail f.name = some x ∧ RejectsFlat tx f.ty x e) ∨
  ((∀ f ∈ fs, ∀ x, avail f.name = some x → ∃ v, TakenFlat f.ty x v) ∧
    ∃ pre f post, fs = pre ++ f :: post ∧ (∀ g ∈ pre, ¬ LacksFlat avail g) ∧ LacksFlat avail f ∧
      e = .message ("missing field `".toList ++ f.name ++ ['`']))

/-- What is said about the flattened parts: it is about the first part that cannot be read.  Nothing is ever
said about an optional part. -/
def PartComplaint (tx : Texts) : List Part → (Str → Option Str) → FormError → Prop
  | [], _, _ => False
  | .struct fs :: ps, avail, e => StructComplaint tx avail fs e ∨
      ((∃ vs, Each (FlatValue avail) fs vs) ∧ PartComplaint tx ps (without fs avail) e)
  | .option fs :: ps, avail, e => PartComplaint tx ps (without fs avail) e
  | .map t :: ps, avail, e => (∃ k x, avail k = some x ∧ RejectsFlat tx t x e) ∨
      ((∀ k x, avail k = some x → ∃ v, TakenFlat t x v) ∧ PartComplaint tx ps avail e)

end Obsidian.Spec
