/-
Rust strings.

A Rust `str` is a sequence of Unicode scalar values stored as UTF-8; Lean's `Char` is exactly a
Unicode scalar value, so a string is a list of characters, and byte lengths / byte offsets are
computed with `Char.utf8Size`.  Slicing at a byte offset that is out of range or not on a character
boundary panics in Rust; here it is `none`.
-/
namespace Obsidian

/-- A Rust `str`/`String`. -/
abbrev Str := List Char

/-- Models `str::len`: the length in bytes (used at route_trie.rs:91, 155, 245, 433-436, 528-534). -/
def byteLen : Str → Nat
  | [] => 0
  | c :: s => c.utf8Size + byteLen s

/-- Models `&s[n..]`, `none` being the slice-index panic
(route_trie.rs:358, 364, 365, 469, 480, 531). -/
def sliceFrom : Str → Nat → Option Str
  | s, 0 => some s
  | [], _ + 1 => none
  | c :: s, n + 1 => if c.utf8Size ≤ n + 1 then sliceFrom s (n + 1 - c.utf8Size) else none

/-- Models `&s[..n]`, `none` being the slice-index panic (route_trie.rs:366). -/
def sliceTo : Str → Nat → Option Str
  | _, 0 => some []
  | [], _ + 1 => none
  | c :: s, n + 1 =>
    if c.utf8Size ≤ n + 1 then (sliceTo s (n + 1 - c.utf8Size)).map (c :: ·) else none

/-- Models `path.split('/')` (route_trie.rs:87, 150, 195, 240; router.rs:117, 123, 132, 151):
the pieces between slashes, empty pieces included. -/
def splitSlash : Str → List Str
  | [] => [[]]
  | c :: s =>
    if c = '/' then [] :: splitSlash s
    else match splitSlash s with
      | [] => [[c]]
      | h :: t => (c :: h) :: t

/-- Models `path.split('/').filter(|key| !key.is_empty())` (same places as `splitSlash`). -/
def segs (path : Str) : List Str := (splitSlash path).filter (fun k => !k.isEmpty)

/-- Models the character-matching loops of route_trie.rs:415-430 and 511-526: walk over the
characters of the node key, comparing with the characters of the other key, and add up the byte
lengths of the characters that agree. `count` is the accumulator. -/
def matchLoop : (nodeKey key : Str) → (count : Nat) → Nat
  | [], _, count => count
  | _ :: _, [], count => count
  | k :: nk, t :: key, count => if t = k then matchLoop nk key (count + t.utf8Size) else count

/-- `matchLoop` started with `count = 0` (route_trie.rs:416, 512). -/
def matchCount (nodeKey key : Str) : Nat := matchLoop nodeKey key 0

/-- Models `Vec<String>::join("/")` (router.rs:141, 156). -/
def joinSlash : List Str → Str
  | [] => []
  | [s] => s
  | s :: t :: r => s ++ '/' :: joinSlash (t :: r)

end Obsidian
