import Verif.Spec.Pattern

/-
Exactly which requests lead to which registered path.
-/
namespace Obsidian.Spec
variable {M H : Type}

/-- A request may have a slash after the characters `q`: they are those of the first segments of a
registered path, or two registered paths agree in them and go on with different characters. -/
def IsStop (L : Log M H) (q : Str) : Prop :=
  (∃ e ∈ L, ∃ pre post, e.segs = pre ++ post ∧ flat pre = q) ∨
  ∃ e ∈ L, ∃ e' ∈ L, ∃ a b u v, flat e.segs = q ++ a :: u ∧ flat e'.segs = q ++ b :: v ∧ a ≠ b

/-- Request segments follow the registered path `ss`, of which the characters `p` are behind them.
`all` says whether they follow it to its end, or are caught by its final wildcard. -/
inductive Follows (stop : Str → Prop) (ss : List Str) : (all : Bool) → (p : Str) → (req : List Str) →
    (params : List (Str × Str)) → Prop where
  /-- The end is reached. -/
  | done : Follows stop ss true (flat ss) [] []
  /-- No parameter is next: the segment has to be the next characters. -/
  | text {all p x rest b} : (∀ y, ¬ HasSeg ss p (':' :: y)) → x.head? ≠ some '*' → stop (p ++ x) →
      Follows stop ss all (p ++ x) rest b → Follows stop ss all p (x :: rest) b
  /-- A parameter is next: it takes the segment. -/
  | param {all p y v rest b} : HasSeg ss p (':' :: y) →
      Follows stop ss all (p ++ ':' :: y) rest b → Follows stop ss all p (v :: rest) ((y, v) :: b)
  /-- The wildcard is next: it takes what is left. -/
  | wild {p x rest} : flat ss = p ++ ['*'] → Follows stop ss false p (x :: rest) []
  /-- Only the wildcard is left after the last segment of the request. -/
  | bare {p x} : (∀ y, ¬ HasSeg ss p (':' :: y)) → x.head? ≠ some '*' → stop (p ++ x) →
      flat ss = p ++ x ++ ['*'] → Follows stop ss false p [x] []

/-- The request leads to the registered path of the entry: it follows the path to its end; or it is
caught by its wildcard, and no registered path is followed to its end, and no longer one catches it. -/
def LeadsTo (L : Log M H) (ss : List Str) (req : List Str) (b : List (Str × Str)) : Prop :=
  Follows (IsStop L) ss true [] req b ∨
  (Follows (IsStop L) ss false [] req b ∧
    ∀ e ∈ L, e.what ≠ .nothing → ∀ b', ¬ Follows (IsStop L) e.segs true [] req b' ∧
      (Follows (IsStop L) e.segs false [] req b' → (flat e.segs).length ≤ (flat ss).length))

end Obsidian.Spec
