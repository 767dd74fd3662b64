import Verif.Model.Str

/-
Vocabulary about lists of segments shared by the specification and the proofs.
-/
namespace Obsidian

/-- The characters of a list of segments, without the slashes.  The route tree compares paths only
through these characters. -/
def flat : List Str → Str
  | [] => []
  | s :: ss => s ++ flat ss

/-- `t` is one of the segments, and the segments before it make up the characters `p`. -/
def HasSeg (segs : List Str) (p t : Str) : Prop :=
  ∃ pre post, segs = pre ++ t :: post ∧ flat pre = p

/-- `p` is where one of the segments ends (or the start). -/
def SegEnd (segs : List Str) (p : Str) : Prop := ∃ pre post, segs = pre ++ post ∧ flat pre = p

end Obsidian
