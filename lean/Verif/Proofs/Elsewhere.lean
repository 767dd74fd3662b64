import Verif.Spec.Elsewhere
import Verif.Proofs.LogEq
import Verif.Proofs.Follow

/- Changes below a path are not seen from elsewhere. -/
namespace Obsidian.Spec
open Obsidian
variable {M H : Type}

theorem SameElsewhere.symm {P : List Str} {L L' : Log M H} (h : SameElsewhere P L L') :
    SameElsewhere P L' L := ⟨h.1.symm, h.2.2, h.2.1⟩

theorem SameElsewhere.mem {P : List Str} {L L' : Log M H} (h : SameElsewhere P L L') {e : Entry M H}
    (he : e ∈ L) (hn : ¬ P <+: e.segs) : e ∈ L' := by
  have : e ∈ L.filter (fun e => ! P.isPrefixOf e.segs) :=
    List.mem_filter.2 ⟨he, by
      rw [Bool.not_eq_true', Bool.eq_false_iff]; exact fun hx => hn (List.isPrefixOf_iff_prefix.1 hx)⟩
  rw [h.1] at this
  exact (List.mem_filter.1 this).1

/-- What the entries say that are at the place depends only on those elsewhere. -/
theorem filterMap_elsewhere {α : Type} {P : List Str} {q : Str} (hq : ¬ flat P <+: q)
    (f : Entry M H → Option α) (hf : ∀ e : Entry M H, flat e.segs ≠ q → f e = none) (L : Log M H) :
    L.filterMap f = (L.filter (fun e => ! P.isPrefixOf e.segs)).filterMap f := by
  induction L with
  | nil => rfl
  | cons e L ih =>
    rw [List.filterMap_cons, List.filter_cons]
    by_cases h : P <+: e.segs
    · have hne : flat e.segs ≠ q := by
        rintro rfl
        obtain ⟨t, ht⟩ := h
        exact hq (by rw [← ht, flat_append]; exact List.prefix_append _ _)
      have hb : P.isPrefixOf e.segs = true := List.isPrefixOf_iff_prefix.2 h
      simp only [hf e hne, hb, Bool.not_true, ih]
      simp
    · have hb : P.isPrefixOf e.segs = false := by
        rw [Bool.eq_false_iff]; exact fun hx => h (List.isPrefixOf_iff_prefix.1 hx)
      simp only [hb, Bool.not_false, if_true, List.filterMap_cons, ih]

theorem SameElsewhere.mwsAt {P : List Str} {L L' : Log M H} (h : SameElsewhere P L L') {q : Str}
    (hq : ¬ flat P <+: q) : mwsAt L q = mwsAt L' q := by
  rw [Spec.mwsAt, Spec.mwsAt, filterMap_elsewhere hq, h.1, ← filterMap_elsewhere hq] <;>
  · intro e he
    have : e.isAt q = false := by simp [Entry.isAt, he]
    rw [this]; rfl

theorem SameElsewhere.routeAt {P : List Str} {L L' : Log M H} (h : SameElsewhere P L L') {q : Str}
    (hq : ¬ flat P <+: q) (m : Method) : routeAt L q m = routeAt L' q m := by
  rw [Spec.routeAt, Spec.routeAt, filterMap_elsewhere hq, h.1, ← filterMap_elsewhere hq] <;>
  · intro e he
    have : e.isAt q = false := by simp [Entry.isAt, he]
    rw [this]; rfl

theorem below_flat {P ss : List Str} (h : P <+: ss) : flat P <+: flat ss := by
  obtain ⟨t, ht⟩ := h
  rw [← ht, flat_append]; exact List.prefix_append _ _

theorem SameElsewhere.hasEntry_imp {P : List Str} {L L' : Log M H} (h : SameElsewhere P L L') {q : Str}
    (hq : ¬ flat P <+: q) (he : hasEntry L q = true) : hasEntry L' q = true := by
  obtain ⟨e, he, h1, h2⟩ := hasEntry_iff.1 he
  exact hasEntry_iff.2 ⟨e, h.mem he (fun hb => hq (h1 ▸ below_flat hb)), h1, h2⟩

theorem SameElsewhere.hasEntry {P : List Str} {L L' : Log M H} (h : SameElsewhere P L L') {q : Str}
    (hq : ¬ flat P <+: q) : hasEntry L q = hasEntry L' q := by
  rw [Bool.eq_iff_iff]
  exact ⟨h.hasEntry_imp hq, h.symm.hasEntry_imp hq⟩

/-- Where the place is not below the path, the first segments are some of the path. -/
theorem segEnd_of_below {P rest : List Str} {q : Str} (hq : ¬ flat P <+: q) (h : SegEnd (P ++ rest) q) :
    SegEnd P q := by
  obtain ⟨pre, post, h1, h2⟩ := h
  rcases List.append_eq_append_iff.1 h1 with ⟨g, h3, _⟩ | ⟨g, h3, _⟩
  · exact absurd (by rw [← h2, h3, flat_append]; exact List.prefix_append _ _) hq
  · exact ⟨pre, g, h3, h2⟩

theorem hasSeg_of_below {P rest : List Str} {q t : Str} (hq : ¬ flat P <+: q) (h : HasSeg (P ++ rest) q t) :
    HasSeg P q t := by
  obtain ⟨pre, post, h1, h2⟩ := h
  rcases List.append_eq_append_iff.1 h1 with ⟨g, h3, _⟩ | ⟨g, h3, h4⟩
  · exact absurd (by rw [← h2, h3, flat_append]; exact List.prefix_append _ _) hq
  · cases g with
    | nil =>
      rw [List.append_nil] at h3
      exact absurd (by rw [← h2, ← h3]; exact List.prefix_rfl) hq
    | cons g gs =>
      rw [List.cons_append] at h4
      injection h4 with h4 _
      exact ⟨pre, gs, by rw [h3, h4], h2⟩

theorem segEnd_longer {P rest : List Str} {q : Str} (h : SegEnd P q) : SegEnd (P ++ rest) q := by
  obtain ⟨pre, post, h1, h2⟩ := h
  exact ⟨pre, post ++ rest, by rw [h1, List.append_assoc], h2⟩

theorem hasSeg_longer {P rest : List Str} {q t : Str} (h : HasSeg P q t) : HasSeg (P ++ rest) q t := by
  obtain ⟨pre, post, h1, h2⟩ := h
  exact ⟨pre, post ++ rest, by rw [h1]; simp, h2⟩

theorem SameElsewhere.paramAt_imp {P : List Str} {L L' : Log M H} (h : SameElsewhere P L L') (hg' : Tidy L')
    {q x : Str} (hq : ¬ flat P <+: q) (hp : paramAt L q = some x) : paramAt L' q = some x := by
  obtain ⟨e, he, hs⟩ := paramAt_some hp
  by_cases hb : P <+: e.segs
  · obtain ⟨t, ht⟩ := hb
    obtain ⟨e', he', t', ht'⟩ := h.2.2
    exact hg'.paramAt_iff.2 ⟨e', he', ht' ▸ hasSeg_longer (hasSeg_of_below hq (ht ▸ hs))⟩
  · exact hg'.paramAt_iff.2 ⟨e, h.mem he hb, hs⟩

theorem SameElsewhere.paramAt {P : List Str} {L L' : Log M H} (h : SameElsewhere P L L') (hg : Tidy L)
    (hg' : Tidy L') {q : Str} (hq : ¬ flat P <+: q) : paramAt L q = paramAt L' q :=
  opt_eq fun _ => ⟨h.paramAt_imp hg' hq, h.symm.paramAt_imp hg hq⟩

/-- What follows a place in a path below `P`, if the place is not below `P`. -/
theorem next_char {P ss : List Str} {q u : Str} {a : Char} (hq : ¬ flat P <+: q) (hb : P <+: ss)
    (h : flat ss = q ++ a :: u) : ∃ v, flat P = q ++ a :: v := by
  have h1 := below_flat hb
  rw [h] at h1
  rcases List.prefix_or_prefix_of_prefix h1 (List.prefix_append q (a :: u)) with h2 | h2
  · exact absurd h2 hq
  · obtain ⟨v, hv⟩ := h2
    rw [← hv] at h1
    have h3 := (List.prefix_append_right_inj q).1 h1
    cases v with
    | nil => exact absurd (by rw [← hv, List.append_nil]; exact List.prefix_rfl) hq
    | cons c v =>
      obtain ⟨w, hw⟩ := h3
      rw [List.cons_append] at hw
      injection hw with hw _
      exact ⟨v, by rw [← hv, hw]⟩

theorem SameElsewhere.known_imp {P : List Str} {L L' : Log M H} (h : SameElsewhere P L L') {q : Str}
    (hq : ¬ flat P <+: q) (hk : known L q = true) : known L' q = true := by
  have hent : ∀ e ∈ L, ∀ a u, flat e.segs = q ++ a :: u → ∃ e' ∈ L', ∃ v, flat e'.segs = q ++ a :: v := by
    intro e he a u hf
    by_cases hb : P <+: e.segs
    · obtain ⟨v, hv⟩ := next_char hq hb hf
      obtain ⟨e', he', t, ht⟩ := h.2.2
      exact ⟨e', he', v ++ flat t, by rw [← ht, flat_append, hv]; simp⟩
    · exact ⟨e, h.mem he hb, u, hf⟩
  rcases known_iff.1 hk with ⟨e, he, hs⟩ | ⟨e, he, e', he', a, b, u, v, h1, h2, h3⟩
  · by_cases hb : P <+: e.segs
    · obtain ⟨t, ht⟩ := hb
      obtain ⟨e', he', t', ht'⟩ := h.2.2
      exact known_iff.2 (.inl ⟨e', he', ht' ▸ segEnd_longer (segEnd_of_below hq (ht ▸ hs))⟩)
    · exact known_iff.2 (.inl ⟨e, h.mem he hb, hs⟩)
  · obtain ⟨f, hf, u', hu⟩ := hent e he a u h1
    obtain ⟨f', hf', v', hv⟩ := hent e' he' b v h2
    exact known_iff.2 (.inr ⟨f, hf, f', hf', a, b, u', v', hu, hv, h3⟩)

theorem SameElsewhere.known {P : List Str} {L L' : Log M H} (h : SameElsewhere P L L') {q : Str}
    (hq : ¬ flat P <+: q) : known L q = known L' q := by
  rw [Bool.eq_iff_iff]
  exact ⟨h.known_imp hq, h.symm.known_imp hq⟩

/-- The way to a place does not lead to `P` or below it: the place is not there, and where it is on the
way there, the rest of the request does not match. -/
def Away (P : List Str) (p : Str) (req : List Str) : Prop :=
  ¬ flat P <+: p ∧ (p <+: flat P → ∃ pre post w, P = pre ++ post ∧ flat pre ++ flat w = p ∧
    ∀ more b, ¬ FlatMatch (post ++ more) (w ++ req) b)

theorem Away.start {P req : List Str} (h : Outside P req) : Away P [] req := by
  refine ⟨fun h0 => ?_, fun _ => ⟨[], P, [], rfl, rfl, h⟩⟩
  have h1 : flat P = [] := List.prefix_nil.1 h0
  refine h req [] ?_
  have := FlatMatch.text (ps := P ++ req) (rs := req) (by rw [flat_append, h1, List.nil_append]) .nil
  simpa using this

theorem flatMatch_refl (ss : List Str) : FlatMatch ss ss [] := by
  have := FlatMatch.text (ps := ss) (rs := ss) rfl .nil
  simpa using this

theorem not_prefix_mono {F p t : Str} (h1 : ¬ F <+: p) (h2 : ¬ p <+: F) : ¬ F <+: p ++ t := fun h =>
  (List.prefix_or_prefix_of_prefix h (List.prefix_append p t)).elim h1 h2

theorem Away.text {P : List Str} {p x : Str} {rest : List Str} (h : Away P p (x :: rest)) :
    Away P (p ++ x) rest := by
  obtain ⟨h1, h2⟩ := h
  have hno : ¬ flat P <+: p ++ x := by
    intro hx
    by_cases hp : p <+: flat P
    · obtain ⟨pre, post, w, h3, h4, h5⟩ := h2 hp
      rw [h3, flat_append, ← h4, List.append_assoc] at hx
      obtain ⟨t, ht⟩ := (List.prefix_append_right_inj (flat pre)).1 hx
      refine h5 (t :: rest) [] ?_
      have h6 : FlatMatch ((post ++ [t]) ++ rest) ((w ++ [x]) ++ rest) [] :=
        .text (by simp [flat_append, ← ht]) (flatMatch_refl rest)
      simpa using h6
    · exact not_prefix_mono h1 hp hx
  refine ⟨hno, fun hp => ?_⟩
  obtain ⟨pre, post, w, h3, h4, h5⟩ := h2 ((List.prefix_append p x).trans hp)
  exact ⟨pre, post, w ++ [x], h3, by simp [flat_append, ← h4], by simpa using h5⟩

theorem Away.star {P : List Str} {p : Str} {req : List Str} (h : Away P p req) (hk : ∀ s ∈ P, KeyOK s) :
    ¬ flat P <+: p ++ ['*'] := by
  obtain ⟨h1, h2⟩ := h
  intro hx
  by_cases hp : p <+: flat P
  · obtain ⟨pre, post, w, h3, h4, h5⟩ := h2 hp
    have hF : flat P = p ++ ['*'] := by
      obtain ⟨t, ht⟩ := hp
      rw [← ht] at hx
      have h6 := (List.prefix_append_right_inj p).1 hx
      cases t with
      | nil => exact absurd (by rw [← ht, List.append_nil]; exact List.prefix_rfl) h1
      | cons c t =>
        obtain ⟨v, hv⟩ := h6
        rw [List.cons_append] at hv
        injection hv with h7 h8
        rw [← ht, h7, (List.append_eq_nil_iff.1 h8).1]
    obtain ⟨a, h6, h7⟩ := last_star hk hF
    obtain ⟨g, h8, h9⟩ := split_at (h3.symm.trans h6) (fun s hs => (hk s (h3 ▸ hs)).ne_nil)
      (by rw [h7, ← h4]; exact List.prefix_append _ _)
    refine h5 [] [] ?_
    rw [h9, List.append_nil]
    refine .text ?_ .wild
    rw [h8, flat_append, ← h4] at h7
    exact List.append_cancel_left h7
  · exact not_prefix_mono h1 hp hx

theorem Away.param {P : List Str} {p y v : Str} {rest : List Str} (h : Away P p (v :: rest))
    (hk : ∀ s ∈ P, KeyOK s) (hs : p <+: flat P → HasSeg P p (':' :: y)) : Away P (p ++ ':' :: y) rest := by
  obtain ⟨h1, h2⟩ := h
  have key : p <+: flat P → ∃ a c, P = a ++ (':' :: y) :: c ∧ flat a = p ∧
      ∀ more b, ¬ FlatMatch (c ++ more) rest b := by
    intro hp
    obtain ⟨pre, post, w, h3, h4, h5⟩ := h2 hp
    obtain ⟨a, c, h6, h7⟩ := hs hp
    obtain ⟨g, h8, h9⟩ := split_at (h3.symm.trans h6) (fun s hs => (hk s (h3 ▸ hs)).ne_nil)
      (by rw [h7, ← h4]; exact List.prefix_append _ _)
    refine ⟨a, c, h6, h7, fun more b hm => h5 more ((y, v) :: b) ?_⟩
    rw [h9, List.append_assoc, List.cons_append]
    refine .text ?_ (.param hm)
    rw [h8, flat_append, ← h4] at h7
    exact List.append_cancel_left h7
  have hno : ¬ flat P <+: p ++ ':' :: y := by
    intro hx
    by_cases hp : p <+: flat P
    · obtain ⟨a, c, h3, h4, h5⟩ := key hp
      rw [h3, flat_append, flat_cons, h4] at hx
      have h6 := (List.prefix_append_right_inj p).1 hx
      have h7 := prefix_self_append h6
      have h8 : c = [] := (flat_eq_nil (fun s hs => (hk s (by rw [h3]; simp [hs])).ne_nil)).1 h7
      exact h5 rest [] (by rw [h8]; exact flatMatch_refl rest)
    · exact not_prefix_mono h1 hp hx
  refine ⟨hno, fun hp => ?_⟩
  obtain ⟨a, c, h3, h4, h5⟩ := key ((List.prefix_append p _).trans hp)
  exact ⟨a ++ [':' :: y], c, [], by rw [h3]; simp, by simp [flat_append, h4], h5⟩

/-- From elsewhere, the search is the same, and it stays elsewhere. -/
theorem SameElsewhere.find {P : List Str} {L L' : Log M H} (h : SameElsewhere P L L') (hg : Tidy L)
    (hg' : Tidy L') {req : List Str} {p : Str} (ha : Away P p req) :
    find L p req = find L' p req ∧ ∀ q b, find L p req = some (q, b) → ¬ flat P <+: q := by
  obtain ⟨e0, he0, t0, ht0⟩ := h.2.1
  have hk : ∀ s ∈ P, KeyOK s := fun s hs => hg.clean e0 he0 s (by rw [← ht0]; simp [hs])
  induction req generalizing p with
  | nil => exact ⟨rfl, by intro q b hq; simp [Spec.find] at hq⟩
  | cons x rest ih =>
    rw [Spec.find, Spec.find, ← h.paramAt hg hg' ha.1]
    cases hpa : Spec.paramAt L p with
    | some y =>
      have hseg : p <+: flat P → HasSeg P p (':' :: y) := by
        intro hp
        refine hasSeg_of_below (rest := t0) ha.1 ?_
        rw [ht0]
        refine (hg.next he0 ?_ ?_ y).2 hpa
        · rw [← ht0, flat_append]; exact hp.trans (List.prefix_append _ _)
        · intro hx
          exact ha.1 (by rw [hx, ← ht0, flat_append]; exact List.prefix_append _ _)
      have ha' := ha.param hk hseg
      have hi := ih ha'
      simp only
      rw [← h.hasEntry ha'.1, ← hi.1]
      refine ⟨rfl, fun q b hq => ?_⟩
      split at hq
      · split at hq
        · injection hq with hq; injection hq with hq _; rw [← hq]; exact ha'.1
        · cases hq
      · obtain ⟨⟨q', b'⟩, h1, h2⟩ := Option.map_eq_some_iff.1 hq
        injection h2 with h2 _
        rw [← h2]; exact hi.2 _ _ h1
    | none =>
      have ha' := ha.text
      have hi := ih ha'
      have hs := ha.star hk
      have hs' := ha'.star hk
      simp only
      rw [← h.hasEntry ha'.1, ← h.hasEntry hs', ← h.known ha'.1, ← h.known hs, ← hi.1]
      refine ⟨rfl, fun q b hq => ?_⟩
      split at hq
      · next r hr =>
        injection hq with hq
        subst hq
        split at hr
        · split at hr
          · split at hr
            · injection hr with hr; injection hr with hr _; rw [← hr]; exact ha'.1
            · split at hr
              · injection hr with hr; injection hr with hr _; rw [← hr]; exact hs'
              · cases hr
          · exact hi.2 _ _ hr
        · cases hr
      · split at hq
        · injection hq with hq; injection hq with hq _; rw [← hq]; exact hs
        · cases hq

theorem SameElsewhere.lookup {P : List Str} {L L' : Log M H} (h : SameElsewhere P L L') (hg : Tidy L)
    (hg' : Tidy L') {path : Str} (ho : Outside P (segments path)) :
    lookup L path = lookup L' path ∧ ∀ q b, lookup L path = some (q, b) → ¬ flat P <+: q := by
  have ha := Away.start ho
  have hf := h.find hg hg' ha
  rw [Spec.lookup, Spec.lookup, ← hf.1]
  by_cases h0 : segments path = []
  · simp only [h0, if_true]
    rw [← h.hasEntry ha.1]
    refine ⟨rfl, fun q b hq => ?_⟩
    split at hq
    · injection hq with hq; injection hq with hq _; rw [← hq]; exact ha.1
    · cases hq
  · simp only [h0, if_false]
    cases hr : Spec.find L [] (segments path) with
    | none => exact ⟨rfl, by intro q b hq; cases hq⟩
    | some qb =>
      obtain ⟨q, b⟩ := qb
      have hq := hf.2 q b hr
      simp only
      rw [← h.hasEntry hq]
      refine ⟨rfl, fun q' b' hq' => ?_⟩
      split at hq'
      · injection hq' with hq'; injection hq' with hq' _; rw [← hq']; exact hq
      · cases hq'

theorem SameElsewhere.upTo {P : List Str} {L L' : Log M H} (h : SameElsewhere P L L') {p r : Str}
    (hq : ¬ flat P <+: p ++ r) : upTo L p r = upTo L' p r := by
  induction r generalizing p with
  | nil => rfl
  | cons c r ih =>
    have h1 : ¬ flat P <+: (p ++ [c]) ++ r := by simpa using hq
    have h2 : ¬ flat P <+: p ++ [c] := fun hx => h1 (hx.trans (List.prefix_append _ _))
    simp only [Spec.upTo, ih h1, h.mwsAt h2]

theorem SameElsewhere.chain {P : List Str} {L L' : Log M H} (h : SameElsewhere P L L') {q : Str}
    (hq : ¬ flat P <+: q) : Spec.chain L q = Spec.chain L' q := by
  have h0 : ¬ flat P <+: [] := fun hx => hq (hx.trans (List.nil_prefix))
  rw [Spec.chain, Spec.chain, h.mwsAt h0, h.upTo (p := []) (by simpa using hq)]

end Obsidian.Spec
