import Verif.Model.Response

/-
`HeaderName::from_bytes` of the `http` crate (0.2), which response.rs:73 and 103 call.
-/
namespace Obsidian

/-- What depends on the version of the crate: whether `"` is accepted, and the greatest length. -/
structure NameRules where
  quote : Bool
  maxLen : Nat

/-- The table `HEADER_CHARS`: the character that a byte of a name stands for, `none` for the zeros. -/
def headerChar (r : NameRules) (b : UInt8) : Option Char :=
  if b = 33 ∨ (35 ≤ b ∧ b ≤ 39) ∨ b = 42 ∨ b = 43 ∨ b = 45 ∨ b = 46 then some (Char.ofNat b.toNat)
  else if b = 34 ∧ r.quote then some '"'
  else if 48 ≤ b ∧ b ≤ 57 then some (Char.ofNat b.toNat)
  else if 65 ≤ b ∧ b ≤ 90 then some (Char.ofNat (b.toNat + 32))
  else if 94 ≤ b ∧ b ≤ 122 then some (Char.ofNat b.toNat)
  else if b = 124 ∨ b = 126 then some (Char.ofNat b.toNat)
  else none

/-- The loop over the bytes. -/
def headerChars (r : NameRules) : List UInt8 → Option Str
  | [] => some []
  | b :: bs =>
    match headerChar r b, headerChars r bs with
    | some c, some cs => some (c :: cs)
    | _, _ => none

/-- `HeaderName::from_bytes(name.as_bytes())`. -/
def headerName (r : NameRules) : ParseName := fun name =>
  if (utf8 name).length = 0 ∨ r.maxLen < (utf8 name).length then none else headerChars r (utf8 name)

end Obsidian
