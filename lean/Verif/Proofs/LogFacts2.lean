import Verif.Proofs.LogFacts

/- Wildcards and soundness of the specification. -/
namespace Obsidian.Spec
open Obsidian
variable {M H : Type}

theorem find_nil (L : Log M H) (p : Str) : find L p [] = none := rfl

/-- The result of `find` is a longer place. -/
theorem find_prefix {L : Log M H} {req : List Str} {p q : Str} {b : List (Str × Str)}
    (hne : ∀ s ∈ req, s ≠ []) (h : find L p req = some (q, b)) : p <+: q ∧ p ≠ q := by
  induction req generalizing p b with
  | nil => simp [find] at h
  | cons s rest ih =>
    have ih := fun p b => ih (p := p) (b := b) (fun x hx => hne x (by simp [hx]))
    have hs := hne s (by simp)
    have key : ∀ t, t ≠ [] → p ++ t <+: q → p <+: q ∧ p ≠ q := by
      intro t ht h'
      refine ⟨(List.prefix_append _ _).trans h', ?_⟩
      rintro rfl
      exact ht (prefix_self_append h')
    rw [find] at h
    split at h
    · next x hx =>
      simp only at h
      split at h
      · split at h
        · simp at h; exact key (':' :: x) (by simp) (by rw [← h.1]; exact List.prefix_rfl)
        · simp at h
      · simp only [Option.map_eq_some_iff] at h
        obtain ⟨⟨r, b'⟩, h1, h2⟩ := h
        simp at h2
        exact key (':' :: x) (by simp) (ih _ _ (h2.1 ▸ h1)).1
    · simp only at h
      split at h
      · next r hr =>
        simp at h; subst h
        split at hr
        · split at hr
          · split at hr
            · simp at hr; exact key s hs (by rw [← hr.1]; exact List.prefix_rfl)
            · split at hr
              · simp at hr; exact key s hs (by rw [← hr.1]; simp)
              · simp at hr
          · exact key s hs (ih _ _ hr).1
        · simp at hr
      · split at h
        · simp at h; exact key ['*'] (by simp) (by rw [← h.1]; exact List.prefix_rfl)
        · simp at h

/-- Following the first part of a path, without wildcards, with more of the request to come. -/
theorem Tidy.find_follow {L : Log M H} (h : Tidy L) {e : Entry M H} (he : e ∈ L) {post req : List Str}
    {b : List (Str × Str)} (hm : Matches post req b) {more tl : List Str} (hmore : more ≠ []) {q : Str}
    {b' : List (Str × Str)} :
    ∀ pre, e.segs = pre ++ post ++ tl → NoStar post →
      find L (flat (pre ++ post)) more = some (q, b') →
      find L (flat pre) (req ++ more) = some (q, b ++ b') := by
  induction hm with
  | nil => intro pre _ _ hf; simpa using hf
  | wild _ => intro pre _ hs _; simp [NoStar] at hs
  | @static s ps rs b h1 h2 hm ih =>
    intro pre hpre hstar hf
    have hpre' : e.segs = pre ++ s :: (ps ++ tl) := by simp [hpre]
    obtain ⟨_, hp, hk⟩ := h.seg he hpre'
    have hk' := head_star_of (h.clean e he s (by rw [hpre']; simp)) h2
    have ih := ih (pre ++ [s]) (by simp [hpre]) (fun hx => hstar (by simp [hx])) (by simpa using hf)
    have hfl : flat (pre ++ [s]) = flat pre ++ s := by simp [flat_append]
    rw [hfl] at ih
    rw [List.cons_append, find, hp h1]
    have hemp : (rs ++ more).isEmpty = false := by simp [hmore]
    simp [hk', hk, hemp, ih]
  | @param x v ps rs b hm ih =>
    intro pre hpre hstar hf
    have hpre' : e.segs = pre ++ (':' :: x) :: (ps ++ tl) := by simp [hpre]
    obtain ⟨hp, _, hk⟩ := h.seg he hpre'
    have ih := ih (pre ++ [':' :: x]) (by simp [hpre]) (fun hx => hstar (by simp [hx]))
      (by simpa using hf)
    have hfl : flat (pre ++ [':' :: x]) = flat pre ++ ':' :: x := by simp [flat_append]
    rw [hfl] at ih
    rw [List.cons_append, find, hp x rfl]
    have hemp : (rs ++ more).isEmpty = false := by simp [hmore]
    simp [hemp, ih]

/-! ### Wildcards -/

/-- A star in a path in the documented syntax is a whole segment. -/
theorem star_seg {ss : List Str} {p u : Str} (hk : ∀ s ∈ ss, KeyOK s)
    (h : flat ss = p ++ '*' :: u) : HasSeg ss p ['*'] := by
  have hp : p <+: flat ss := by rw [h]; simp
  obtain ⟨p₀, s, w, v, h1, rfl, rfl, h4⟩ := exists_seg hp (by rw [h]; simp)
  obtain ⟨t, ht⟩ := h1.prefix
  rw [h, ← List.append_assoc, List.append_assoc (p₀ ++ w), List.append_cancel_left_eq] at ht
  have hv : v.head? = some '*' := by
    cases v with
    | nil => simp at h4
    | cons a v => simp at ht; simp [ht.1]
  have hmem : '*' ∈ w ++ v := by
    cases v with
    | nil => simp at h4
    | cons a v => simp at hv; simp [hv]
  have hs : w ++ v = ['*'] := by
    rcases hk _ h1.mem with ⟨x, hx, _, hx'⟩ | h' | ⟨_, _, h'⟩
    · rw [hx] at hmem; simp at hmem; exact absurd hmem hx'
    · exact h'
    · exact absurd hmem h'
  cases w with
  | nil => simp at hs; rw [hs] at h1; simpa using h1
  | cons a w =>
    simp at hs
    exact absurd hs.2.2 h4

theorem Tidy.star_entry {L : Log M H} (h : Tidy L) (hs : NoStarMount L) {p : Str}
    (hk : known L (p ++ ['*']) = true) : hasEntry L (p ++ ['*']) = true := by
  obtain ⟨e, he, t, ht⟩ := known_prefix hk
  have hseg := star_seg (p := p) (u := t) (h.clean e he) (by rw [← ht]; simp)
  obtain ⟨pre, post, h1, h2⟩ := hseg
  obtain ⟨rfl, hw⟩ := hs e he pre post h1
  refine hasEntry_iff.2 ⟨e, he, ?_, hw⟩
  rw [h1, flat_append, h2]; simp

/-- With `NoStarMount`, `find` only ever leads to registered entries. -/
theorem Tidy.find_entry {L : Log M H} (hg : Tidy L) (hsm : NoStarMount L) {req : List Str} {p q : Str}
    {b : List (Str × Str)} (h : find L p req = some (q, b)) : hasEntry L q = true := by
  induction req generalizing p b with
  | nil => simp [find] at h
  | cons s rest ih =>
    rw [find] at h
    split at h
    · next x hx =>
      simp only at h
      split at h
      · split at h
        · next he => simp at h; rw [← h.1]; exact he
        · simp at h
      · simp only [Option.map_eq_some_iff] at h
        obtain ⟨⟨r, b'⟩, h1, h2⟩ := h
        simp at h2
        exact ih (h2.1 ▸ h1)
    · simp only at h
      split at h
      · next r hr =>
        simp at h; subst h
        split at hr
        · split at hr
          · split at hr
            · next he => simp at hr; rw [← hr.1]; exact he
            · split at hr
              · next he => simp at hr; rw [← hr.1]; simpa using he
              · simp at hr
          · exact ih hr
        · simp at hr
      · split at h
        · next hk => simp at h; rw [← h.1]; exact hg.star_entry hsm hk
        · simp at h

/-- What a request below a wildcard finds. -/
theorem Tidy.find_wild {L : Log M H} (h : Tidy L) {e : Entry M H} (he : e ∈ L) {pre post : List Str}
    (hs : e.segs = pre ++ ['*'] :: post) {x : Str} {xs : List Str} (hx : ∀ s ∈ x :: xs, s ≠ []) :
    ∃ q b, find L (flat pre) (x :: xs) = some (q, b) ∧
      ((q = flat pre ++ ['*'] ∧ b = []) ∨ (known L (flat pre ++ x) = true ∧ flat pre ++ x <+: q)) := by
  obtain ⟨_, hp, hk⟩ := h.seg he hs
  rw [find, hp (by simp)]
  simp only
  split
  · next r hr =>
    obtain ⟨q, b⟩ := r
    refine ⟨q, b, rfl, Or.inr ?_⟩
    split at hr
    · next hc =>
      refine ⟨hc.2, ?_⟩
      split at hr
      · split at hr
        · simp at hr; rw [← hr.1]; exact List.prefix_rfl
        · split at hr
          · simp at hr; rw [← hr.1]; simp
          · simp at hr
      · exact (find_prefix (fun s hs => hx s (by simp [hs])) hr).1
    · simp at hr
  · exact ⟨_, _, by rw [if_pos hk], Or.inl ⟨rfl, rfl⟩⟩

/-! ### Soundness -/

theorem split_at {pre post a c : List Str} (h : pre ++ post = a ++ c) (hne : ∀ s ∈ pre ++ post, s ≠ [])
    (hl : flat pre <+: flat a) : ∃ g, a = pre ++ g ∧ post = g ++ c := by
  rcases List.append_eq_append_iff.1 h with ⟨g, h1, h2⟩ | ⟨g, h1, h2⟩
  · exact ⟨g, h1, h2⟩
  · have : g = [] := by
      rw [h1, flat_append] at hl
      have := prefix_self_append hl
      exact (flat_eq_nil (fun s hs => hne s (by rw [h1]; simp [hs]))).1 this
    subst this
    exact ⟨[], by simpa using h1.symm, by simpa using h2.symm⟩

theorem last_star {ss : List Str} {p : Str} (hk : ∀ s ∈ ss, KeyOK s) (h : flat ss = p ++ ['*']) :
    ∃ a, ss = a ++ [['*']] ∧ flat a = p := by
  obtain ⟨a, c, h1, h2⟩ := star_seg (u := []) hk h
  have : flat c = [] := by
    rw [h1, flat_append, h2, flat_cons] at h
    simpa using h
  have hc : c = [] := (flat_eq_nil (fun s hs => (hk s (by rw [h1]; simp [hs])).ne_nil)).1 this
  subst hc
  exact ⟨a, h1, h2⟩

/-- Whatever is found flat-matches. -/
theorem Tidy.find_sound {L : Log M H} (hg : Tidy L) {req : List Str} {p q : Str}
    {b : List (Str × Str)} (hne : ∀ s ∈ req, s ≠ []) (h : find L p req = some (q, b)) {e : Entry M H}
    (he : e ∈ L) (hq : flat e.segs = q) {pre post w : List Str} (hs : e.segs = pre ++ post)
    (hp : flat pre ++ flat w = p) : FlatMatch post (w ++ req) b := by
  have hcl := hg.clean e he
  have hene := hg.ne he
  -- a wildcard at the end
  have hstar : ∀ w' rs, flat pre ++ flat w' ++ ['*'] = q → FlatMatch post (w' ++ rs) [] := by
    intro w' rs h'
    obtain ⟨a, h1, h2⟩ := last_star (p := flat pre ++ flat w') hcl (by rw [hq, h'])
    obtain ⟨g, h3, h4⟩ := split_at (hs.symm.trans h1) (hs ▸ hene) (by rw [h2]; simp)
    rw [h3, flat_append, List.append_cancel_left_eq] at h2
    rw [h4]
    exact .text h2 .wild
  induction req generalizing p b pre post w with
  | nil => simp [find] at h
  | cons s rest ih =>
    have hneR : ∀ s ∈ rest, s ≠ [] := fun x hx => hne x (by simp [hx])
    have hpq := find_prefix hne h
    rw [find] at h
    split at h
    · next x hx =>
      obtain ⟨e', he', hseg'⟩ := paramAt_some hx
      have hseg : HasSeg e.segs p (':' :: x) := by
        apply Classical.byContradiction
        intro hno
        exact hg.noClash e' he' e he ⟨p, x, hseg', hq ▸ hpq.1, hq ▸ hpq.2, hno⟩
      obtain ⟨a, c, h1, h2⟩ := hseg
      obtain ⟨g, h3, h4⟩ := split_at (hs.symm.trans h1) (hs ▸ hene) (by rw [h2, ← hp]; simp)
      have hgw : flat g = flat w := by
        rw [h3, flat_append, ← hp, List.append_cancel_left_eq] at h2; exact h2
      rw [h4]
      refine .text hgw ?_
      have hs' : e.segs = (a ++ [':' :: x]) ++ c := by rw [h1]; simp
      have hfa : flat (a ++ [':' :: x]) = p ++ ':' :: x := by rw [flat_append, h2]; simp
      simp only at h
      split at h
      · next hr =>
        split at h
        · simp at h
          have hrest : rest = [] := by simpa using hr
          subst hrest
          have : flat c = [] := by
            have h5 := hq
            rw [hs', flat_append, hfa, ← h.1] at h5
            simpa using h5
          have hc : c = [] := (flat_eq_nil (fun s hs => hene s (by rw [h1]; simp [hs]))).1 this
          subst hc
          rw [← h.2]
          exact .param .nil
        · simp at h
      · simp only [Option.map_eq_some_iff] at h
        obtain ⟨⟨r, b'⟩, h5, h6⟩ := h
        simp at h6
        rw [← h6.2]
        refine .param ?_
        have := ih hneR (h6.1 ▸ h5) hs' (w := []) (by rw [hfa]; simp) ?_
        · simpa using this
        · intro w' rs h'
          obtain ⟨a', h1', h2'⟩ := last_star (p := flat (a ++ [':' :: x]) ++ flat w') hcl
            (by rw [hq, h'])
          obtain ⟨g', h3', h4'⟩ := split_at (hs'.symm.trans h1') (hs' ▸ hene) (by rw [h2']; simp)
          rw [h3', flat_append, List.append_cancel_left_eq] at h2'
          rw [h4']
          exact .text h2' .wild
    · simp only at h
      have hw1 : flat (w ++ [s]) = flat w ++ s := by simp [flat_append]
      split at h
      · next r hr =>
        simp at h; subst h
        split at hr
        · split at hr
          · next hemp =>
            have hrest : rest = [] := by simpa using hemp
            subst hrest
            split at hr
            · simp at hr
              have : flat post = flat (w ++ [s]) := by
                have h5 := hq
                rw [hs, flat_append, ← hr.1, ← hp, List.append_assoc,
                  List.append_cancel_left_eq] at h5
                rw [hw1, h5]
              rw [hr.2]
              have := FlatMatch.text this .nil
              simpa using this
            · split at hr
              · simp at hr
                rw [hr.2]
                have := hstar (w ++ [s]) [] (by rw [← hr.1, ← hp, hw1]; simp)
                simpa using this
              · simp at hr
          · have := ih hneR hr hs (w := w ++ [s]) (by rw [hw1, ← hp]; simp) hstar
            simpa using this
        · simp at hr
      · split at h
        · simp at h
          rw [h.2]
          exact hstar w (s :: rest) (by rw [← h.1, ← hp])
        · simp at h

theorem Tidy.lookup_sound {L : Log M H} (hg : Tidy L) {path : Str} {q : Str} {b : List (Str × Str)}
    (h : lookup L path = some (q, b)) {e : Entry M H} (he : e ∈ L) (hq : flat e.segs = q) :
    FlatMatch e.segs (segments path) b := by
  rw [lookup] at h
  by_cases h0 : segments path = []
  · simp only [h0, if_true] at h
    split at h
    · simp at h
      have : e.segs = [] := (flat_eq_nil (hg.ne he)).1 (hq.trans h.1)
      rw [this, h0, h.2]; exact .nil
    · simp at h
  · simp only [h0, if_false] at h
    split at h
    · next q' b' hf =>
      split at h
      · simp at h
        rw [h.1, h.2] at hf
        have := hg.find_sound (segments_ne path) hf he hq (pre := []) (w := []) rfl rfl
        simpa using this
      · simp at h
    · simp at h

theorem lookup_entry {L : Log M H} {path : Str} {q : Str} {b : List (Str × Str)}
    (h : lookup L path = some (q, b)) : hasEntry L q = true := by
  rw [lookup] at h
  split at h
  · next he => 
    split at h
    · next hx => simp at h; rw [← h.1]; exact hx
    · simp at h
  · simp at h

end Obsidian.Spec
