import Verif.Spec.Server
import Verif.Model.HeaderName

/-
What is expected of headers that are set by name.
-/
namespace Obsidian.Spec
open Obsidian

/-- The characters of header names (`tchar` of RFC 7230). -/
def TokenChar (r : NameRules) (c : Char) : Prop :=
  c ∈ "!#$%&'*+-.^_`|~".toList ∨ ('0' ≤ c ∧ c ≤ '9') ∨ ('a' ≤ c ∧ c ≤ 'z') ∨ ('A' ≤ c ∧ c ≤ 'Z') ∨ (c = '"' ∧ r.quote = true)

/-- A header name: a token, not too long. -/
def Token (r : NameRules) (name : Str) : Prop := name ≠ [] ∧ name.length ≤ r.maxLen ∧ ∀ c ∈ name, TokenChar r c

/-- Capitalisation does not matter. -/
def lower (name : Str) : Str := name.map fun c => if 'A' ≤ c ∧ c ≤ 'Z' then Char.ofNat (c.toNat + 32) else c

/-- The last of the values given for the name. -/
def lastNamed (hs : List (Str × Str)) (name : Str) : Option Str :=
  ((hs.filter fun e => lower e.1 = lower name).getLast?).map (·.2)

end Obsidian.Spec
