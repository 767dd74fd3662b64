import Verif.Spec.Routing

/-!
What a request has to look like for a path of any form (colons and stars anywhere) to serve it.
-/

namespace Obsidian.Spec

open Obsidian

/-- The characters `q` of a path are read off the segments `req` of a request: each character is the next one
of the request, except that at the beginning of a segment (`inside` is `false`) a colon and some characters
after it may stand for the whole segment, and a star at the end for everything that is left.
`left` says what may be left over when the path ends. -/
inductive ReadOff (left : List Str → Prop) : (inside : Bool) → (q : Str) → (req : List Str) → Prop where
  | done {inside : Bool} {req : List Str} : left req → ReadOff left inside [] req
  | char {inside : Bool} {c : Char} {q t : Str} {req : List Str} : ReadOff left true q (t :: req) →
      ReadOff left inside (c :: q) ((c :: t) :: req)
  | next {q : Str} {req : List Str} : ReadOff left false q req → ReadOff left true q ([] :: req)
  | param {x q v : Str} {req : List Str} : ReadOff left false q req →
      ReadOff left false (':' :: x ++ q) (v :: req)
  | star {req : List Str} : ReadOff left false ['*'] req

/-- The path can be read off the whole request. -/
def ReadOffAll (q : Str) (req : List Str) : Prop := ReadOff (· = []) false q req

/-- The path can be read off the beginning of the request. -/
def ReadOffStart (q : Str) (req : List Str) : Prop := ReadOff (fun _ => True) false q req

/-- Some of the segments after the first one are left out. -/
def Thinned (req req' : List Str) : Prop := req'.Sublist req ∧ req'.head? = req.head?

end Obsidian.Spec
