import Verif.Spec.Routing
import Verif.Proofs.InsertLoop

/- Basic facts about the routing specification. -/
namespace Obsidian.Spec
open Obsidian
variable {M H : Type}

/-! ### Segments -/

theorem splitSlash_ne (s : Str) : splitSlash s ≠ [] := by
  cases s with
  | nil => simp [splitSlash]
  | cons c s =>
    simp only [splitSlash]; split
    · simp
    · split <;> simp

theorem segmentsFrom_eq (cur s : Str) : segmentsFrom cur s =
    ((match splitSlash s with | [] => [cur] | h :: t => (cur ++ h) :: t) : List Str).filter
      (fun k => !k.isEmpty) := by
  induction s generalizing cur with
  | nil => cases cur <;> simp [segmentsFrom, splitSlash]
  | cons c s ih =>
    simp only [segmentsFrom, splitSlash]
    split
    · simp only [ih []]
      cases h : splitSlash s with
      | nil => exact absurd h (splitSlash_ne s)
      | cons a t => cases cur <;> simp
    · rw [ih]
      cases h : splitSlash s with
      | nil => exact absurd h (splitSlash_ne s)
      | cons a t => simp

theorem segs_eq (path : Str) : segs path = segments path := by
  rw [segments, segmentsFrom_eq, segs]
  cases h : splitSlash path with
  | nil => exact absurd h (splitSlash_ne path)
  | cons a t => simp

theorem segments_ne (path : Str) : ∀ s ∈ segments path, s ≠ [] := by
  rw [← segs_eq]; intro s hs h; subst h; simp [segs] at hs

theorem segments_slash (path : Str) : segments ('/' :: path) = segments path := by
  simp [segments, segmentsFrom]

theorem splitSlash_noSlash (s : Str) : ∀ t ∈ splitSlash s, '/' ∉ t := by
  induction s with
  | nil => simp [splitSlash]
  | cons c s ih =>
    simp only [splitSlash]; split
    · intro t ht; rcases List.mem_cons.1 ht with rfl | ht
      · simp
      · exact ih t ht
    · next hc =>
      split
      · simp; exact fun h => hc h.symm
      · next h t heq =>
        intro x hx; rcases List.mem_cons.1 hx with rfl | hx
        · simp; exact ⟨fun h => hc h.symm, ih h (by simp [heq])⟩
        · exact ih x (by simp [heq, hx])

theorem segments_noSlash (path : Str) : ∀ s ∈ segments path, '/' ∉ s := by
  rw [← segs_eq]; intro s hs; exact splitSlash_noSlash path s (by simp [segs] at hs; exact hs.1)

/-! ### Places -/

theorem isAt_iff {e : Entry M H} {q : Str} : e.isAt q = true ↔ flat e.segs = q := by
  simp [Entry.isAt]

theorem mem_ends {q p : Str} {ss : List Str} :
    q ∈ ends p ss ↔ ∃ pre post, ss = pre ++ post ∧ p ++ flat pre = q := by
  induction ss generalizing p with
  | nil =>
    simp only [ends, List.mem_singleton]
    constructor
    · rintro rfl; exact ⟨[], [], by simp⟩
    · rintro ⟨pre, post, h, rfl⟩
      have : pre = [] := by cases pre with | nil => rfl | cons => simp at h
      simp [this]
  | cons s ss ih =>
    simp only [ends, List.mem_cons, ih]
    constructor
    · rintro (rfl | ⟨pre, post, rfl, rfl⟩)
      · exact ⟨[], s :: ss, by simp⟩
      · exact ⟨s :: pre, post, by simp⟩
    · rintro ⟨pre, post, h, rfl⟩
      cases pre with
      | nil => simp
      | cons a pre =>
        simp at h; obtain ⟨rfl, rfl⟩ := h
        right; exact ⟨pre, post, by simp⟩

theorem after_eq_some {p s t : Str} : after p s = some t ↔ s = p ++ t := by
  unfold after
  constructor
  · intro h
    split at h
    · next hp =>
      obtain ⟨u, rfl⟩ := List.isPrefixOf_iff_prefix.1 hp
      simp at h; rw [h]
    · simp at h
  · rintro rfl; simp

theorem forks_iff {q s t : Str} :
    forks q s t = true ↔ ∃ a b u v, s = q ++ a :: u ∧ t = q ++ b :: v ∧ a ≠ b := by
  unfold forks
  constructor
  · intro h
    split at h
    · next a u b v h1 h2 =>
      exact ⟨a, b, u, v, after_eq_some.1 h1, after_eq_some.1 h2, by simpa using h⟩
    · simp at h
  · rintro ⟨a, b, u, v, rfl, rfl, hab⟩
    rw [after_eq_some.2 rfl, after_eq_some.2 rfl]; simpa using hab

/-- Two registered paths part at `q`. -/
def Fork (L : Log M H) (q : Str) : Prop := ∃ e ∈ L, ∃ e' ∈ L, ∃ a b u v,
  flat e.segs = q ++ a :: u ∧ flat e'.segs = q ++ b :: v ∧ a ≠ b

theorem known_iff {L : Log M H} {q : Str} :
    known L q = true ↔ (∃ e ∈ L, SegEnd e.segs q) ∨ Fork L q := by
  simp only [known, Bool.or_eq_true, List.any_eq_true, List.contains_iff_mem, mem_ends, forks_iff,
    List.nil_append, SegEnd, Fork]

theorem hasEntry_iff {L : Log M H} {q : Str} :
    hasEntry L q = true ↔ ∃ e ∈ L, flat e.segs = q ∧ e.what ≠ .nothing := by
  simp only [hasEntry, List.any_eq_true, Bool.and_eq_true, isAt_iff]
  constructor
  · rintro ⟨e, he, hq, hw⟩; refine ⟨e, he, hq, ?_⟩; intro h; simp [h] at hw
  · rintro ⟨e, he, hq, hw⟩; refine ⟨e, he, hq, ?_⟩; cases h : e.what <;> simp_all

theorem mem_paramSegs {p q x : Str} {ss : List Str} :
    (q, x) ∈ paramSegs p ss ↔ ∃ r, HasSeg ss r (':' :: x) ∧ q = p ++ r := by
  induction ss generalizing p with
  | nil => simp [paramSegs]
  | cons s ss ih =>
    simp only [paramSegs, List.mem_append, ih]
    constructor
    · rintro (h | ⟨r, ⟨pre, post, rfl, rfl⟩, rfl⟩)
      · split at h
        · next y =>
          simp at h
          obtain ⟨rfl, rfl⟩ := h
          exact ⟨[], ⟨[], ss, rfl, rfl⟩, by simp⟩
        · simp at h
      · exact ⟨s ++ flat pre, ⟨s :: pre, post, rfl, rfl⟩, by simp⟩
    · rintro ⟨r, ⟨pre, post, h, rfl⟩, rfl⟩
      cases pre with
      | nil => simp at h; left; rw [h.1]; simp
      | cons a pre =>
        simp at h; obtain ⟨rfl, rfl⟩ := h
        right; exact ⟨flat pre, ⟨pre, post, rfl, rfl⟩, by simp⟩

theorem paramAt_some {L : Log M H} {p x : Str} (h : paramAt L p = some x) :
    ∃ e ∈ L, HasSeg e.segs p (':' :: x) := by
  unfold paramAt at h
  rw [List.lookup_eq_some_iff] at h
  obtain ⟨l₁, l₂, h, _⟩ := h
  have : (p, x) ∈ L.flatMap (fun e => paramSegs [] e.segs) := by rw [h]; simp
  rw [List.mem_flatMap] at this
  obtain ⟨e, he, hm⟩ := this
  rw [mem_paramSegs] at hm
  obtain ⟨r, hr, rfl⟩ := hm
  exact ⟨e, he, by simpa using hr⟩

theorem paramAt_none {L : Log M H} {p : Str} (h : paramAt L p = none) :
    ∀ e ∈ L, ∀ x, ¬ HasSeg e.segs p (':' :: x) := by
  unfold paramAt at h
  rw [List.lookup_eq_none_iff] at h
  intro e he x hx
  have := h (p, x) (List.mem_flatMap.2 ⟨e, he, mem_paramSegs.2 ⟨p, hx, by simp⟩⟩)
  simp at this

theorem mwsAt_append (L L' : Log M H) (q : Str) : mwsAt (L ++ L') q = mwsAt L q ++ mwsAt L' q := by
  simp [mwsAt]

theorem mem_mwsAt {L : Log M H} {q : Str} {m : M} :
    m ∈ mwsAt L q ↔ ∃ e ∈ L, flat e.segs = q ∧ e.what = .middleware m := by
  simp only [mwsAt, List.mem_filterMap]
  constructor
  · rintro ⟨e, he, h⟩
    split at h
    · next hq =>
      refine ⟨e, he, isAt_iff.1 hq, ?_⟩
      split at h
      · next h' => simp at h; rw [h', h]
      · simp at h
    · simp at h
  · rintro ⟨e, he, hq, hw⟩
    exact ⟨e, he, by rw [if_pos (isAt_iff.2 hq), hw]⟩

theorem hasEntry_append (L L' : Log M H) (q : Str) :
    hasEntry (L ++ L') q = (hasEntry L q || hasEntry L' q) := by simp [hasEntry]

theorem routeAt_append (L L' : Log M H) (q : Str) (m : Method) :
    routeAt (L ++ L') q m = (routeAt L' q m).or (routeAt L q m) := by
  simp [routeAt, List.getLast?_append]

/-! ### Segment boundaries -/

/-- Segments do not overlap. -/
theorem _root_.Obsidian.HasSeg.le {ss : List Str} {p s q : Str} (h : HasSeg ss p s) (hq : SegEnd ss q)
    (hne : ∀ x ∈ ss, x ≠ []) (hl : p.length < q.length) : p ++ s <+: q := by
  obtain ⟨pre, post, rfl, rfl⟩ := h
  obtain ⟨pre', post', h, rfl⟩ := hq
  rcases List.append_eq_append_iff.1 h with ⟨c, h1, h2⟩ | ⟨c, h1, h2⟩
  · cases c with
    | nil => simp at h1; rw [h1] at hl; simp at hl
    | cons a c =>
      simp at h2; obtain ⟨rfl, h2⟩ := h2
      rw [h1, flat_append, flat_cons, ← List.append_assoc]; simp
  · rw [h1, flat_append] at hl; simp at hl; omega

/-- The segment that contains a proper prefix. -/
theorem exists_seg {ss : List Str} {p : Str} (h : p <+: flat ss) (hne : p ≠ flat ss) :
    ∃ p₀ s w u, HasSeg ss p₀ s ∧ p = p₀ ++ w ∧ s = w ++ u ∧ u ≠ [] := by
  induction ss generalizing p with
  | nil => simp at h hne; exact absurd h hne
  | cons s ss ih =>
    rw [flat_cons] at h hne
    rcases Nat.lt_or_ge p.length s.length with hl | hl
    · have : p <+: s := List.prefix_of_prefix_length_le h (List.prefix_append s _) (by omega)
      obtain ⟨u, rfl⟩ := this
      refine ⟨[], p ++ u, p, u, ⟨[], ss, rfl, rfl⟩, by simp, rfl, ?_⟩
      rintro rfl; simp at hl
    · obtain ⟨p', rfl⟩ := List.prefix_of_prefix_length_le (List.prefix_append s _) h hl
      obtain ⟨p₀, s', w, u, ⟨pre, post, rfl, rfl⟩, h2, h3, h4⟩ := ih
        ((List.prefix_append_right_inj s).1 h) (fun e => hne (by rw [e]))
      exact ⟨s ++ flat pre, s', w, u, ⟨s :: pre, post, rfl, rfl⟩, by rw [h2, List.append_assoc], h3, h4⟩

theorem _root_.Obsidian.HasSeg.segEnd {ss : List Str} {p s : Str} (h : HasSeg ss p s) : SegEnd ss p := by
  obtain ⟨pre, post, rfl, rfl⟩ := h; exact ⟨pre, s :: post, rfl, rfl⟩

theorem _root_.Obsidian.HasSeg.segEnd' {ss : List Str} {p s : Str} (h : HasSeg ss p s) : SegEnd ss (p ++ s) := by
  obtain ⟨pre, post, rfl, rfl⟩ := h; exact ⟨pre ++ [s], post, by simp, by simp [flat_append]⟩

theorem _root_.Obsidian.SegEnd.prefix {ss : List Str} {p : Str} (h : SegEnd ss p) : p <+: flat ss := by
  obtain ⟨pre, post, rfl, rfl⟩ := h; simp [flat_append]

theorem _root_.Obsidian.HasSeg.mem {ss : List Str} {p s : Str} (h : HasSeg ss p s) : s ∈ ss := by
  obtain ⟨pre, post, rfl, rfl⟩ := h; simp

theorem _root_.Obsidian.HasSeg.prefix {ss : List Str} {p s : Str} (h : HasSeg ss p s) : p ++ s <+: flat ss :=
  h.segEnd'.prefix

theorem _root_.Obsidian.HasSeg.unique {ss : List Str} {p s t : Str} (hne : ∀ x ∈ ss, x ≠ [])
    (h : HasSeg ss p s) (h' : HasSeg ss p t) : s = t := by
  have hs : s ≠ [] := hne s h.mem
  have ht : t ≠ [] := hne t h'.mem
  have e1 := h.le h'.segEnd' hne (by simp [List.length_pos_iff.2 ht])
  have e2 := h'.le h.segEnd' hne (by simp [List.length_pos_iff.2 hs])
  have e1 := (List.prefix_append_right_inj p).1 e1
  have e2 := (List.prefix_append_right_inj p).1 e2
  exact e1.eq_of_length_le e2.length_le

/-- In clean segments a colon starts a parameter segment. -/
theorem colon_seg {ss : List Str} {p u : Str} (hk : ∀ s ∈ ss, KeyOK s)
    (h : flat ss = p ++ ':' :: u) : ∃ x, HasSeg ss p (':' :: x) := by
  have hp : p <+: flat ss := by rw [h]; simp
  obtain ⟨p₀, s, w, v, h1, rfl, rfl, h4⟩ := exists_seg hp (by rw [h]; simp)
  obtain ⟨t, ht⟩ := h1.prefix
  rw [h, ← List.append_assoc, List.append_assoc (p₀ ++ w), List.append_cancel_left_eq] at ht
  cases v with
  | nil => exact absurd rfl h4
  | cons c v =>
    simp at ht
    obtain ⟨rfl, ht⟩ := ht
    have hK := hk _ h1.mem
    cases w with
    | nil => exact ⟨v, by simpa using h1⟩
    | cons d w =>
      rcases hK with ⟨x, hx, hx', _⟩ | hx | ⟨_, hx, _⟩
      · simp at hx; rw [← hx.2] at hx'; simp at hx'
      · simp at hx
      · simp at hx

end Obsidian.Spec
