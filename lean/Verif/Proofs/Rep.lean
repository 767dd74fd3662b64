import Verif.Proofs.SpecBasics

/- The invariant that relates the route tree to the log, and its preservation by insertions. -/
namespace Obsidian.Spec
open Obsidian
variable {M H : Type}

/-- The value of a node agrees with the log. -/
def ValOK (L : Log M H) (s : Str) (v : Option (RouteValue M H)) : Prop :=
  v.isSome = hasEntry L s ∧ ∀ rv, v = some rv → rv.middlewares = mwsAt L s ∧
    (∀ m, (rv.route.getRoute m).map (·.handler) = routeAt L s m) ∧
    ∀ m r, rv.route.getRoute m = some r → r.method = m

/-- The tree represents the log. -/
structure Rep (n : Node M H) (L : Log M H) : Prop where
  wf : n.WF
  clean : ∀ e ∈ L, ∀ s ∈ e.segs, KeyOK s
  pos : ∀ s, (n.view s).isSome = true ↔ s = [] ∨ known L s = true
  val : ∀ s v p, n.view s = some (v, p) → ValOK L s v
  par : ∀ s v p, n.view s = some (v, p) → ∀ x, p = some x ↔ ∃ e ∈ L, HasSeg e.segs s (':' :: x)

theorem Rep.new : Rep (RouteTrie.new : RouteTrie M H).head ([] : Log M H) := by
  have hv : ∀ s, (RouteTrie.new : RouteTrie M H).head.view s =
      if s = [] then some (none, none) else none := by
    intro s
    split
    · next h => subst h; simp [RouteTrie.new, Node.new, Node.pnL]
    · next h => exact Node.view_none (by simp) h (by simp)
  refine ⟨by simp [RouteTrie.new, Node.new, Node.WFL], by simp, ?_, ?_, ?_⟩
  · intro s; rw [hv]; split
    · next h => simp [h]
    · next h => simp [h, known]
  · intro s v p h; rw [hv] at h; split at h
    · simp at h; obtain ⟨rfl, rfl⟩ := h; simp [ValOK, hasEntry]
    · simp at h
  · intro s v p h; rw [hv] at h; split at h
    · simp at h; obtain ⟨rfl, rfl⟩ := h; simp
    · simp at h

theorem Rep.ne {n : Node M H} {L : Log M H} (h : Rep n L) {e : Entry M H} (he : e ∈ L) :
    ∀ s ∈ e.segs, s ≠ [] := fun s hs => (h.clean e he s hs).ne_nil

/-- Known places are prefixes of registered paths. -/
theorem known_prefix {L : Log M H} {q : Str} (h : known L q = true) :
    ∃ e ∈ L, q <+: flat e.segs := by
  rcases known_iff.1 h with ⟨e, he, hs⟩ | ⟨e, he, _, _, a, b, u, v, h1, _⟩
  · exact ⟨e, he, hs.prefix⟩
  · exact ⟨e, he, by rw [h1]; simp⟩

theorem known_flat {L : Log M H} {e : Entry M H} (he : e ∈ L) : known L (flat e.segs) = true :=
  known_iff.2 (Or.inl ⟨e, he, segEnd_full _⟩)

theorem known_append_left {L E : Log M H} {q : Str} (h : known L q = true) :
    known (L ++ E) q = true := by
  rw [known_iff] at h ⊢
  rcases h with ⟨e, he, hs⟩ | ⟨e, he, e', he', h⟩
  · exact Or.inl ⟨e, by simp [he], hs⟩
  · exact Or.inr ⟨e, by simp [he], e', by simp [he'], h⟩

/-! ### Entries below a list of segments, seen from places that are not below it -/

theorem segEnd_append_of_not {ss post : List Str} {q : Str} (h : ¬ flat ss <+: q) :
    SegEnd (ss ++ post) q ↔ SegEnd ss q := by
  constructor
  · rintro ⟨a, b, hab, rfl⟩
    rcases List.append_eq_append_iff.1 hab with ⟨c, h1, h2⟩ | ⟨c, h1, h2⟩
    · rw [h1, flat_append] at h; simp at h
    · exact ⟨a, c, h1, rfl⟩
  · rintro ⟨a, b, rfl, rfl⟩; exact ⟨a, b ++ post, by simp, rfl⟩

theorem hasSeg_append_of_not {ss post : List Str} {q t : Str} (h : ¬ flat ss <+: q) :
    HasSeg (ss ++ post) q t ↔ HasSeg ss q t := by
  constructor
  · rintro ⟨a, b, hab, rfl⟩
    rcases List.append_eq_append_iff.1 hab with ⟨c, h1, h2⟩ | ⟨c, h1, h2⟩
    · rw [h1, flat_append] at h; simp at h
    · cases c with
      | nil => simp at h1; rw [h1] at h; simp at h
      | cons d c =>
        simp at h2; obtain ⟨rfl, _⟩ := h2
        exact ⟨a, c, h1, rfl⟩
  · rintro ⟨a, b, rfl, rfl⟩; exact ⟨a, b ++ post, by simp, rfl⟩

theorem fork_prefix {F s x : Str} {a : Char} {u : Str} (h : ¬ F <+: s) (hx : F ++ x = s ++ a :: u) :
    ∃ u', F = s ++ a :: u' := by
  rcases List.append_eq_append_iff.1 hx with ⟨c, h1, h2⟩ | ⟨c, h1, h2⟩
  · exact absurd (by rw [h1]; simp) h
  · cases c with
    | nil => simp at h1; exact absurd (by rw [h1]; exact List.prefix_rfl) h
    | cons d c => simp at h2; obtain ⟨rfl, _⟩ := h2; exact ⟨c, h1⟩

theorem Rep.view_none {n : Node M H} {L : Log M H} (h : Rep n L) {s : Str} (hs : s ≠ []) :
    n.view s = none ↔ known L s ≠ true := by
  have := h.pos s
  cases hv : n.view s with
  | none => simp [hv, hs] at this ⊢; exact this
  | some v => simp [hv, hs] at this ⊢; exact this

theorem Rep.branch {n : Node M H} {L : Log M H} (h : Rep n L) {F s : Str} (hs : s ≠ []) :
    Node.Branch n F s ↔ ∃ e ∈ L, ∃ a b u v, F = s ++ a :: u ∧ flat e.segs = s ++ b :: v ∧ a ≠ b := by
  constructor
  · rintro ⟨_, a, b, u, t, hF, hab, hv⟩
    rcases (h.pos _).1 hv with h' | h'
    · simp at h'
    · obtain ⟨e, he, w, hw⟩ := known_prefix h'
      exact ⟨e, he, a, b, u, t ++ w, hF, by rw [← hw]; simp, hab⟩
  · rintro ⟨e, he, a, b, u, v, hF, he', hab⟩
    refine ⟨hs, a, b, u, v, hF, hab, ?_⟩
    rw [h.pos]; right; rw [← he']; exact known_flat he

/-- Preservation by an insertion that adds entries below the segments. -/
theorem Rep.insert {n m n' : Node M H} {L E : Log M H} {ss : List Str} (h : Rep n L)
    (hE : ∀ e ∈ E, ∃ post, e.segs = ss ++ post) (hE0 : ∃ e, e ∈ E)
    (hclean : ∀ e ∈ E, ∀ s ∈ e.segs, KeyOK s) (ha : ¬ Node.AmbSegs n ss) (hI : Node.InsertedL n ss m n')
    (hpos : ∀ r, (m.view r).isSome = true ↔ r = [] ∨ known (L ++ E) (flat ss ++ r) = true)
    (hval : ∀ r v p, m.view r = some (v, p) → ValOK (L ++ E) (flat ss ++ r) v)
    (hpar : ∀ r v p, m.view r = some (v, p) →
      ∀ x, p = some x ↔ ∃ e ∈ L ++ E, HasSeg e.segs (flat ss ++ r) (':' :: x)) :
    Rep n' (L ++ E) := by
  -- places that are not below the segments
  have hvalE : ∀ s, ¬ flat ss <+: s → ∀ v, ValOK L s v → ValOK (L ++ E) s v := by
    intro s hs v hv
    have hno : ∀ e ∈ E, flat e.segs ≠ s := by
      intro e he h'
      obtain ⟨post, hp⟩ := hE e he
      apply hs; rw [← h', hp, flat_append]; simp
    have e1 : hasEntry E s = false := by
      rw [Bool.eq_false_iff]; intro h'
      obtain ⟨e, he, h1, _⟩ := hasEntry_iff.1 h'
      exact hno e he h1
    have e2 : mwsAt E s = [] := by
      rw [List.eq_nil_iff_forall_not_mem]; intro m hm
      obtain ⟨e, he, h1, _⟩ := mem_mwsAt.1 hm
      exact hno e he h1
    have e3 : ∀ m, routeAt E s m = none := by
      intro m
      unfold routeAt
      rw [List.getLast?_eq_none_iff, List.filterMap_eq_nil_iff]
      intro e he
      rw [if_neg]
      rw [isAt_iff]; exact hno e he
    obtain ⟨h1, h2⟩ := hv
    refine ⟨by rw [hasEntry_append, e1, Bool.or_false]; exact h1, fun rv hrv => ?_⟩
    obtain ⟨h3, h4, h5⟩ := h2 rv hrv
    refine ⟨by rw [mwsAt_append, e2, List.append_nil]; exact h3, fun m => ?_, h5⟩
    rw [routeAt_append, e3 m]; simpa using h4 m
  have hparE : ∀ s, ¬ flat ss <+: s → ∀ x, ((∃ e ∈ L ++ E, HasSeg e.segs s (':' :: x)) ↔
      (∃ e ∈ L, HasSeg e.segs s (':' :: x)) ∨ HasSeg ss s (':' :: x)) := by
    intro s hs x
    constructor
    · rintro ⟨e, he, hx⟩
      rcases List.mem_append.1 he with he | he
      · exact Or.inl ⟨e, he, hx⟩
      · obtain ⟨post, hp⟩ := hE e he
        rw [hp] at hx
        exact Or.inr ((hasSeg_append_of_not hs).1 hx)
    · rintro (⟨e, he, hx⟩ | hx)
      · exact ⟨e, by simp [he], hx⟩
      · obtain ⟨e, he⟩ := hE0
        obtain ⟨post, hp⟩ := hE e he
        exact ⟨e, by simp [he], by rw [hp]; exact (hasSeg_append_of_not hs).2 hx⟩
  have hknE : ∀ s, ¬ flat ss <+: s → s ≠ [] → n.view s = none →
      (known (L ++ E) s = true ↔ SegEnd ss s ∨ Node.Branch n (flat ss) s) := by
    intro s hs hs0 hn
    have hnk := (h.view_none hs0).1 hn
    rw [h.branch hs0, known_iff]
    constructor
    · rintro (⟨e, he, hx⟩ | ⟨e, he, e', he', a, b, u, v, h1, h2, hab⟩)
      · rcases List.mem_append.1 he with he | he
        · exact absurd (known_iff.2 (Or.inl ⟨e, he, hx⟩)) hnk
        · obtain ⟨post, hp⟩ := hE e he
          rw [hp] at hx
          exact Or.inl ((segEnd_append_of_not hs).1 hx)
      · rcases List.mem_append.1 he with he | he <;> rcases List.mem_append.1 he' with he' | he'
        · exact absurd (known_iff.2 (Or.inr ⟨e, he, e', he', a, b, u, v, h1, h2, hab⟩)) hnk
        · obtain ⟨post, hp⟩ := hE e' he'
          rw [hp, flat_append] at h2
          obtain ⟨v', hv'⟩ := fork_prefix hs h2
          exact Or.inr ⟨e, he, b, a, v', u, hv', h1, fun h => hab h.symm⟩
        · obtain ⟨post, hp⟩ := hE e he
          rw [hp, flat_append] at h1
          obtain ⟨v', hv'⟩ := fork_prefix hs h1
          exact Or.inr ⟨e', he', a, b, v', v, hv', h2, hab⟩
        · obtain ⟨post, hp⟩ := hE e he
          rw [hp, flat_append] at h1
          obtain ⟨v', hv'⟩ := fork_prefix hs h1
          obtain ⟨post', hp'⟩ := hE e' he'
          rw [hp', flat_append] at h2
          obtain ⟨v'', hv''⟩ := fork_prefix hs h2
          rw [hv'] at hv''; simp at hv''; exact absurd hv''.1 hab
    · obtain ⟨e, he⟩ := hE0
      obtain ⟨post, hp⟩ := hE e he
      rintro (hx | ⟨e', he', a, b, u, v, h1, h2, hab⟩)
      · exact Or.inl ⟨e, by simp [he], by rw [hp]; exact (segEnd_append_of_not hs).2 hx⟩
      · refine Or.inr ⟨e, by simp [he], e', by simp [he'], a, b, u ++ flat post, v, ?_, h2, hab⟩
        rw [hp, flat_append, h1]; simp
  -- the new view away from the segments
  have hPN : ∀ s p p', ¬ flat ss <+: s → Node.PN ss s p p' →
      (∀ x, p = some x ↔ ∃ e ∈ L, HasSeg e.segs s (':' :: x)) →
      (∀ x, HasSeg ss s (':' :: x) → ∀ y, (∃ e ∈ L, HasSeg e.segs s (':' :: y)) → y = x) →
      ∀ x, p' = some x ↔ ∃ e ∈ L ++ E, HasSeg e.segs s (':' :: x) := by
    intro s p p' hs hp hx hu x
    rw [hparE s hs]
    by_cases hseg : ∃ y, HasSeg ss s (':' :: y)
    · obtain ⟨y, hy⟩ := hseg
      rw [hp.1 y hy]
      constructor
      · intro e; simp at e; subst e; exact Or.inr hy
      · rintro (h' | h')
        · rw [hu y hy x h']
        · have := hp.1 x h'; rw [hp.1 y hy] at this; exact this
    · rw [hp.2 (fun y hy => hseg ⟨y, hy⟩), hx]
      constructor
      · exact Or.inl
      · rintro (h' | h')
        · exact h'
        · exact absurd ⟨x, h'⟩ hseg
  -- a parameter of the new path agrees with the one that is there
  have hagree : ∀ s, ¬ flat ss <+: s → ∀ x, HasSeg ss s (':' :: x) → ∀ y,
      (∃ e ∈ L, HasSeg e.segs s (':' :: y)) → y = x := by
    intro s hs x hx y ⟨e, he, hy⟩
    have hvs : (n.view s).isSome = true := by
      rw [h.pos]; right; exact known_iff.2 (Or.inl ⟨e, he, hy.segEnd⟩)
    obtain ⟨⟨v, p⟩, hv⟩ := Option.isSome_iff_exists.1 hvs
    have hpy : p = some y := (h.par s v p hv y).2 ⟨e, he, hy⟩
    subst hpy
    have hamb : ¬ Node.AmbAt n s (':' :: x) := fun h' => ha ⟨s, _, hx, h'⟩
    rw [Node.AmbAt, if_pos (by rfl)] at hamb
    apply Classical.byContradiction
    intro hne
    apply hamb
    refine ⟨⟨':' :: y, by simp, ?_⟩, by rw [hv]; simpa using hne⟩
    rw [h.pos]; right; exact known_iff.2 (Or.inl ⟨e, he, hy.segEnd'⟩)
  refine ⟨hI.wf, ?_, ?_, ?_, ?_⟩
  · intro e he
    rcases List.mem_append.1 he with he | he
    · exact h.clean e he
    · exact hclean e he
  · intro s
    by_cases hs : flat ss <+: s
    · obtain ⟨r, rfl⟩ := hs
      rw [hI.below, hpos]
      by_cases hr : r = []
      · subst hr
        simp only [true_or, List.append_nil, true_iff]
        right
        obtain ⟨e, he⟩ := hE0
        obtain ⟨post, hp⟩ := hE e he
        exact known_iff.2 (Or.inl ⟨e, by simp [he], ⟨ss, post, hp, rfl⟩⟩)
      · simp [hr]
    · by_cases hs0 : s = []
      · subst hs0; simp
      · simp only [hs0, false_or]
        cases hv : n.view s with
        | some vp =>
          obtain ⟨v, p⟩ := vp
          obtain ⟨p', h', _⟩ := hI.keep s v p hs hv
          rw [h']
          have : (n.view s).isSome = true := by rw [hv]; rfl
          have := ((h.pos s).1 this).resolve_left hs0
          simp [known_append_left this]
        | none =>
          rw [hknE s hs hs0 hv]
          by_cases hk : SegEnd ss s ∨ Node.Branch n (flat ss) s
          · obtain ⟨p', h', _⟩ := hI.split s hs hv hk
            simp [h', hk]
          · rw [hI.absent s hs hv (fun h => hk (Or.inl h)) (fun h => hk (Or.inr h))]
            simp [hk]
  · intro s v p hv
    by_cases hs : flat ss <+: s
    · obtain ⟨r, rfl⟩ := hs
      rw [hI.below] at hv
      exact hval r v p hv
    · apply hvalE s hs
      cases hn : n.view s with
      | some vp =>
        obtain ⟨v₀, p₀⟩ := vp
        obtain ⟨p', h', _⟩ := hI.keep s v₀ p₀ hs hn
        rw [hv] at h'; simp at h'
        rw [h'.1]; exact h.val s v₀ p₀ hn
      | none =>
        by_cases hk : SegEnd ss s ∨ Node.Branch n (flat ss) s
        · obtain ⟨p', h', _⟩ := hI.split s hs hn hk
          rw [hv] at h'; simp at h'
          rw [h'.1]
          have hs0 : s ≠ [] := by rintro rfl; simp at hn
          have := (h.view_none hs0).1 hn
          refine ⟨?_, by simp⟩
          simp only [Option.isSome_none, Bool.false_eq, Bool.eq_false_iff]
          intro hh
          obtain ⟨e, he, h1, _⟩ := hasEntry_iff.1 hh
          exact this (h1 ▸ known_flat he)
        · rw [hI.absent s hs hn (fun h => hk (Or.inl h)) (fun h => hk (Or.inr h))] at hv
          simp at hv
  · intro s v p hv
    by_cases hs : flat ss <+: s
    · obtain ⟨r, rfl⟩ := hs
      rw [hI.below] at hv
      exact hpar r v p hv
    · cases hn : n.view s with
      | some vp =>
        obtain ⟨v₀, p₀⟩ := vp
        obtain ⟨p', h', h''⟩ := hI.keep s v₀ p₀ hs hn
        rw [hv] at h'; simp at h'
        rw [h'.2]; exact hPN s p₀ p' hs h'' (h.par s v₀ p₀ hn) (hagree s hs)
      | none =>
        by_cases hk : SegEnd ss s ∨ Node.Branch n (flat ss) s
        · obtain ⟨p', h', h''⟩ := hI.split s hs hn hk
          rw [hv] at h'; simp at h'
          rw [h'.2]
          refine hPN s none p' hs h'' ?_ (hagree s hs)
          intro x
          simp only [reduceCtorEq, false_iff]
          rintro ⟨e, he, hx⟩
          have hs0 : s ≠ [] := by rintro rfl; simp at hn
          exact (h.view_none hs0).1 hn (known_iff.2 (Or.inl ⟨e, he, hx.segEnd⟩))
        · rw [hI.absent s hs hn (fun h => hk (Or.inl h)) (fun h => hk (Or.inr h))] at hv
          simp at hv

end Obsidian.Spec
