import Verif.Model.Http

/- The ways in which clients can write names and values of forms and queries
(`application/x-www-form-urlencoded`). -/
namespace Obsidian.Spec
open Obsidian

/-- The byte is a hexadecimal digit with the given value. -/
def HexDigit (c : UInt8) (n : Nat) : Prop :=
  ("0123456789abcdef".toList[n]?.map Char.toNat = some c.toNat) ∨
  ("0123456789ABCDEF".toList[n]?.map Char.toNat = some c.toNat)

/-- The characters with a meaning of their own in values: `%`, `&` and `+`. -/
def special (b : UInt8) : Prop := b = 37 ∨ b = 38 ∨ b = 43

/-- The ways to write a byte: as it is, unless it is special; a space as `+`; any byte as `%` and two
hexadecimal digits. -/
inductive WritesByte : UInt8 → List UInt8 → Prop where
  | plain {b : UInt8} : ¬ special b → WritesByte b [b]
  | plus : WritesByte 32 [43]
  | percent {b h l : UInt8} {m n : Nat} : HexDigit h m → HexDigit l n → b.toNat = 16 * m + n → WritesByte b [37, h, l]

/-- The text begins with two hexadecimal digits. -/
def TwoDigits (es : List UInt8) : Prop := ∃ h l r m n, es = h :: l :: r ∧ HexDigit h m ∧ HexDigit l n

/-- The ways to write a sequence of bytes. A percent sign may be written as it is if there are not two
hexadecimal digits after it. -/
inductive Writes : List UInt8 → List UInt8 → Prop where
  | nil : Writes [] []
  | cons {b : UInt8} {bs e es : List UInt8} : WritesByte b e → Writes bs es → Writes (b :: bs) (e ++ es)
  | bare {bs es : List UInt8} : ¬ TwoDigits es → Writes bs es → Writes (37 :: bs) (37 :: es)

/-- The ways to write a name and a value: with `=` between them, or only the name if the value is
empty. The name is written without `=`. -/
inductive WritesPart : List UInt8 × List UInt8 → List UInt8 → Prop where
  | both {k v ek ev : List UInt8} : 61 ∉ ek → Writes k ek → Writes v ev → WritesPart (k, v) (ek ++ 61 :: ev)
  | name {k ek : List UInt8} : k ≠ [] → 61 ∉ ek → Writes k ek → WritesPart (k, []) ek

/-- The ways to write a form: the pairs with `&` between them, and with any number of further `&`. -/
inductive WritesParts : List (List UInt8 × List UInt8) → List UInt8 → Prop where
  | nil : WritesParts [] []
  | one {p : List UInt8 × List UInt8} {e : List UInt8} : WritesPart p e → WritesParts [p] e
  | more {p : List UInt8 × List UInt8} {ps : List (List UInt8 × List UInt8)} {e es : List UInt8} :
      WritesPart p e → WritesParts ps es → WritesParts (p :: ps) (e ++ 38 :: es)
  | skip {ps : List (List UInt8 × List UInt8)} {es : List UInt8} : WritesParts ps es → WritesParts ps (38 :: es)

/-- The ways to write names and values that are texts. -/
def WritesForm (ps : List (Str × Str)) (q : List UInt8) : Prop :=
  WritesParts (ps.map fun p => (utf8 p.1, utf8 p.2)) q

/-- The text that the bytes stand for: in UTF-8, and something else if they are not UTF-8. -/
def ReadsAs (repair : List UInt8 → Str) (bs : List UInt8) (t : Str) : Prop :=
  utf8 t = bs ∨ ((∀ t', utf8 t' ≠ bs) ∧ t = repair bs)

/-- The ways to write a byte within a segment of a path: as it is, unless it is `%` or `/`; any byte as
`%` and two hexadecimal digits. -/
inductive PathByte : UInt8 → List UInt8 → Prop where
  | plain {b : UInt8} : b ≠ 37 → b ≠ 47 → PathByte b [b]
  | percent {b h l : UInt8} {m n : Nat} : HexDigit h m → HexDigit l n → b.toNat = 16 * m + n → PathByte b [37, h, l]

/-- The ways to write a sequence of bytes within a segment of a path. -/
inductive PathBytes : List UInt8 → List UInt8 → Prop where
  | nil : PathBytes [] []
  | cons {b : UInt8} {bs e es : List UInt8} : PathByte b e → PathBytes bs es → PathBytes (b :: bs) (e ++ es)

/-- `seg` is a way to write the text as a segment of a path. -/
def WritesSegment (text seg : Str) : Prop := PathBytes (utf8 text) (utf8 seg)

end Obsidian.Spec
