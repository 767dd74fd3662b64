import Verif.Model.Form
import Verif.Model.Static

/-
`form_urlencoded::parse` of the crate `url` (version 2.2), which src/context.rs:297-299 uses to read
queries and bodies.  The crate is not part of the repository; this is a description of it that is
trusted, like the other parts of libraries.
-/
namespace Obsidian

/-- The value of a hexadecimal digit (`char::to_digit(16)`). -/
def hexVal (c : UInt8) : Option UInt8 :=
  if 48 ≤ c ∧ c ≤ 57 then some (c - 48)
  else if 97 ≤ c ∧ c ≤ 102 then some (c - 87)
  else if 65 ≤ c ∧ c ≤ 70 then some (c - 55)
  else none

/-- `percent_encoding::percent_decode`: a percent sign that is not followed by two hexadecimal digits
stays. -/
def percentDecode : Bytes → Bytes
  | [] => []
  | c :: r =>
    if c = 37 then
      match r with
      | h :: l :: r' =>
        match hexVal h, hexVal l with
        | some a, some b => (a * 16 + b) :: percentDecode r'
        | _, _ => c :: percentDecode (h :: l :: r')
      | [h] => c :: percentDecode [h]
      | [] => [c]
    else c :: percentDecode r

/-- `form_urlencoded::decode`: plus signs are spaces; what is not UTF-8 is repaired
(`String::from_utf8_lossy`, a parameter as far as invalid bytes are concerned). -/
def urlDecode (repair : Bytes → Str) (b : Bytes) : Str :=
  let bytes := percentDecode (b.map (fun c => if c = 43 then 32 else c))
  (fromUtf8 bytes).getD (repair bytes)

/-- The parts of the input between separators. -/
def splitBytes (sep : UInt8) : Bytes → List Bytes
  | [] => [[]]
  | c :: r =>
    if c = sep then [] :: splitBytes sep r
    else
      match splitBytes sep r with
      | x :: xs => (c :: x) :: xs
      | [] => [[c]]

/-- `splitn(2, ..)`: what is before the first separator, and what comes after it. -/
def splitFirst (sep : UInt8) : Bytes → Bytes × Bytes
  | [] => ([], [])
  | c :: r => if c = sep then ([], r) else let (a, b) := splitFirst sep r; (c :: a, b)

/-- `form_urlencoded::parse(..).into_owned()`: the non-empty parts between `&`, each split at the first
`=`. -/
def urlParse (repair : Bytes → Str) (q : Bytes) : List (Str × Str) :=
  ((splitBytes 38 q).filter (fun x => !x.isEmpty)).map fun x =>
    (urlDecode repair (splitFirst 61 x).1, urlDecode repair (splitFirst 61 x).2)

end Obsidian
