import Verif.Proofs.LogFacts2
import Verif.Proofs.Bridge

/- When two logs cannot be told apart by requests. -/
namespace Obsidian.Spec
open Obsidian
variable {M H : Type}

theorem Tidy.paramAt_iff {L : Log M H} (h : Tidy L) {p x : Str} :
    paramAt L p = some x ↔ ∃ e ∈ L, HasSeg e.segs p (':' :: x) := by
  refine ⟨paramAt_some, ?_⟩
  rintro ⟨e, he, pre, post, hs, rfl⟩
  exact (h.seg he hs).1 x rfl

theorem routeAt_none_iff {L : Log M H} {q : Str} {m : Method} :
    routeAt L q m = none ↔ ∀ e ∈ L, flat e.segs = q → ∀ h, e.what ≠ .route m h := by
  constructor
  · intro hn e he hq h hw
    rw [routeAt, List.getLast?_eq_none_iff] at hn
    have := (List.filterMap_eq_nil_iff.1 hn) e he
    rw [isAt_iff.2 hq, hw] at this
    simp at this
  · intro hall
    cases hr : routeAt L q m with
    | none => rfl
    | some h =>
      obtain ⟨e, he, hq, hw⟩ := routeAt_mem hr
      exact absurd hw (hall e he hq h)

theorem Good.routeAt_iff {L : Log M H} (h : Good L) {q : Str} {m : Method} {k : H} :
    routeAt L q m = some k ↔ ∃ e ∈ L, flat e.segs = q ∧ e.what = .route m k := by
  refine ⟨routeAt_mem, ?_⟩
  rintro ⟨e, he, rfl, hw⟩
  exact h.uniq e he m k hw

theorem find_congr {L L' : Log M H} (hp : ∀ p, paramAt L p = paramAt L' p)
    (hk : ∀ p, known L p = known L' p) (he : ∀ p, hasEntry L p = hasEntry L' p) (p : Str)
    (req : List Str) : find L p req = find L' p req := by
  induction req generalizing p with
  | nil => rfl
  | cons s rest ih => simp only [find, hp, hk, he, ih]

theorem lookup_congr {L L' : Log M H} (hp : ∀ p, paramAt L p = paramAt L' p)
    (hk : ∀ p, known L p = known L' p) (he : ∀ p, hasEntry L p = hasEntry L' p) (path : Str) :
    lookup L path = lookup L' path := by
  simp only [lookup, find_congr hp hk he, he]

theorem upTo_congr {L L' : Log M H} (hm : ∀ q, mwsAt L q = mwsAt L' q) (p r : Str) :
    upTo L p r = upTo L' p r := by
  induction r generalizing p with
  | nil => rfl
  | cons c r ih => simp only [upTo, ih, hm]

theorem chain_congr {L L' : Log M H} (hm : ∀ q, mwsAt L q = mwsAt L' q) (q : Str) :
    chain L q = chain L' q := by simp only [chain, upTo_congr hm, hm]

theorem opt_eq {α : Type} {a b : Option α} (h : ∀ x, a = some x ↔ b = some x) : a = b := by
  cases a with
  | none =>
    cases b with
    | none => rfl
    | some y => exact absurd ((h y).2 rfl) (by simp)
  | some x => exact ((h x).1 rfl).symm

/-- Two logs with the same entries, and the same middlewares in the same order at each place, cannot
be told apart. -/
theorem Rep.sameAt_of_mem {r r' : Router M H} {L L' : Log M H} (h : Rep r.routes.head L)
    (h' : Rep r'.routes.head L') (hg : Good L) (hg' : Good L') (hm : ∀ e, e ∈ L ↔ e ∈ L')
    (hmw : ∀ q, mwsAt L q = mwsAt L' q) (path : Str) : SameAt r r' path := by
  refine h.sameAt h' (lookup_congr (fun p => opt_eq fun x => ?_) (fun q => ?_) (fun q => ?_) path)
    (fun q _ _ => ⟨fun m => opt_eq fun k => ?_, chain_congr hmw q⟩)
  · rw [hg.paramAt_iff, hg'.paramAt_iff]; simp only [hm]
  · rw [Bool.eq_iff_iff, known_iff, known_iff, Fork, Fork]; simp only [hm]
  · rw [Bool.eq_iff_iff, hasEntry_iff, hasEntry_iff]; simp only [hm]
  · rw [hg.routeAt_iff, hg'.routeAt_iff]; simp only [hm]

end Obsidian.Spec
