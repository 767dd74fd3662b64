import Verif.Model.Flatten
import Verif.Spec.Form

/- What can be expected of flattened parts of structs. -/
namespace Obsidian.Spec
open Obsidian

/-- The text `x` is taken for the value `v` of type `t` in a flattened part: only strings, texts of one
character for characters, types made from strings, and options and newtypes of these take a text. -/
def Taken : Ty → Str → Val → Prop
  | .scalar .string, x, v => v = .str x
  | .scalar .char, x, v => ∃ c, x = [c] ∧ v = .char c
  | .scalar (.ofString f), x, v => f x = .ok v
  | .option t, x, v => ∃ v', v = .some v' ∧ Taken t x v'
  | .newtype t, x, v => Taken t x v
  | _, _, _ => False

/-- The same for the types of fields of flattened parts; an enum takes the name of a variant (the number
of the variant stands for its value). -/
def TakenFlat : FlatTy → Str → Val → Prop
  | .of t, x, v => Taken t x v
  | .enum vs, x, v => ∃ i, v = .opaque i ∧ vs[i]? = some x ∧ ∀ j < i, vs[j]? ≠ some x

/-- `v` is the value of a field of a flattened struct, `avail` being the text there is for a key. -/
def FlatValue (avail : Str → Option Str) (f : FlatField) (v : Val) : Prop :=
  match avail f.name with
  | some x => TakenFlat f.ty x v
  | none => f.default = some v ∨ (f.default = none ∧ (∃ t, f.ty = .of (.option t)) ∧ v = .none)

/-- The texts that are left for later parts: not those of the fields `fs`. -/
def without (fs : List FlatField) (avail : Str → Option Str) : Str → Option Str :=
  fun k => if fs.any (fun f => f.name = k) = true then none else avail k

/-- `r` are the values of the flattened parts. A struct takes the texts of its fields, a map has all texts
that were not taken by the structs before it. -/
def PartsValue : List Part → (Str → Option Str) → List PartVal → Prop
  | [], _, r => r = []
  | .struct fs :: ps, avail, r => ∃ vs r', r = .struct vs :: r' ∧ Each (FlatValue avail) fs vs ∧
      PartsValue ps (without fs avail) r'
  | .option fs :: ps, avail, r => ∃ o r', r = .option o :: r' ∧
      ((∃ vs, o = some vs ∧ Each (FlatValue avail) fs vs) ∨ (o = none ∧ ¬ ∃ vs, Each (FlatValue avail) fs vs)) ∧
      PartsValue ps (without fs avail) r'
  | .map t :: ps, avail, r => ∃ m r', r = .map m :: r' ∧
      (∀ k, (∀ x, avail k = some x → ∃ v, TakenFlat t x v ∧ m.get k = some v) ∧ (avail k = none → m.get k = none)) ∧
      PartsValue ps avail r'

/-- The names in every flattened struct are distinct. -/
def PartsDistinct (ps : List Part) : Prop :=
  ∀ p ∈ ps, match p with
    | .struct fs | .option fs => (fs.map (·.name)).Nodup
    | .map _ => True

/-- The part has nothing to do with the texts of the fields `fs`. -/
def Apart (fs : List FlatField) : Part → Prop
  | .struct gs | .option gs => ∀ g ∈ gs, ∀ f ∈ fs, g.name ≠ f.name
  | .map _ => False

/-- No part that comes after an optional one has anything to do with the texts of its fields: there are no
maps after it, and no structs with fields of the same names. -/
def OptionApart : List Part → Prop
  | [] => True
  | .option fs :: ps => (∀ p ∈ ps, Apart fs p) ∧ OptionApart ps
  | .struct _ :: ps | .map _ :: ps => OptionApart ps

/-- The text of a key for the flattened parts: its first value, unless it is the name of an own field. -/
def spare (own : List Field) (firstValue : Str → Option Str) : Str → Option Str :=
  fun k => if own.any (fun f => f.has k) = true then none else firstValue k

/-- A field of a struct as a field of a flattened part. -/
def flatField (f : Field) : FlatField := ⟨f.name, .of f.ty, f.default⟩

/-- The type is a string, or made from a string. -/
def ByText : Ty → Bool
  | .scalar .string => true
  | .scalar (.ofString _) => true
  | .option t => ByText t
  | .newtype t => ByText t
  | _ => false

/-- No text is taken for the type: it is a number, a `bool`, `()`, a sequence, a tuple, or an option or a
newtype of these. -/
def Deaf : Ty → Bool
  | .scalar .bool | .scalar (.int _ _) | .scalar (.float _) | .unit | .seq _ | .tuple _ _ | .fails _ => true
  | .option t => Deaf t
  | .newtype t => Deaf t
  | _ => false

/-- The values of a struct whose first `n` fields are own fields and whose other fields are those of a
flattened struct. -/
def partedAt (n : Nat) (vs : List Val) : FlatDecoded := ⟨vs.take n, [.struct (vs.drop n)]⟩

end Obsidian.Spec
