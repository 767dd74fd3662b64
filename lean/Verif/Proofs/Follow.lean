import Verif.Spec.Follow
import Verif.Proofs.LogFacts2

/-
The search on logs does exactly what `LeadsTo` says.
-/
namespace Obsidian.Spec
open Obsidian
variable {M H : Type}

theorem isStop_iff {L : Log M H} {q : Str} : IsStop L q ↔ known L q = true := known_iff.symm

theorem Follows.prefix {stop : Str → Prop} {ss : List Str} {all : Bool} {p : Str} {req : List Str}
    {b : List (Str × Str)} (h : Follows stop ss all p req b) : p <+: flat ss := by
  induction h with
  | done => exact List.prefix_rfl
  | text _ _ _ _ ih => exact (List.prefix_append _ _).trans ih
  | param _ _ ih => exact (List.prefix_append _ _).trans ih
  | wild h => rw [h]; exact List.prefix_append _ _
  | bare _ _ _ h => rw [h, List.append_assoc]; exact List.prefix_append _ _

theorem Follows.nil {stop : Str → Prop} {ss : List Str} {all : Bool} {p : Str} {b : List (Str × Str)}
    (h : Follows stop ss all p [] b) : all = true ∧ p = flat ss ∧ b = [] := by
  generalize hr : ([] : List Str) = req at h
  cases h with
  | done => exact ⟨rfl, rfl, rfl⟩
  | text => simp at hr
  | param => simp at hr
  | wild => simp at hr
  | bare => simp at hr

theorem Follows.proper {stop : Str → Prop} {ss : List Str} {all : Bool} {p : Str} {req : List Str}
    {b : List (Str × Str)} (h : Follows stop ss all p req b) (hne : ∀ x ∈ req, x ≠ []) (h0 : req ≠ []) :
    p ≠ flat ss := by
  intro he
  cases h with
  | done => exact h0 rfl
  | text _ _ _ h =>
    have := h.prefix.length_le
    rw [← he] at this
    have hx := List.length_pos_iff.2 (hne _ List.mem_cons_self)
    rw [List.length_append] at this; omega
  | param _ h =>
    have := h.prefix.length_le
    rw [← he, List.length_append, List.length_cons] at this; omega
  | wild h => rw [← he] at h; simp at h
  | bare _ _ _ h => rw [← he, List.append_assoc] at h; simp at h

/-- Which parameter is next is the same for all registered paths that go on. -/
theorem Tidy.next {L : Log M H} (hg : Tidy L) {e : Entry M H} (he : e ∈ L) {p : Str} (h1 : p <+: flat e.segs)
    (h2 : p ≠ flat e.segs) (y : Str) : HasSeg e.segs p (':' :: y) ↔ paramAt L p = some y := by
  constructor
  · rintro ⟨pre, post, h3, h4⟩
    rw [← h4]; exact (hg.seg he h3).1 y rfl
  · intro hy
    obtain ⟨e', he', hseg⟩ := paramAt_some hy
    apply Classical.byContradiction
    intro hno
    exact hg.noClash e' he' e he ⟨p, y, hseg, h1, h2, hno⟩

/-- If nothing is found, no registered path is followed. -/
theorem Tidy.find_none {L : Log M H} (hg : Tidy L) {req : List Str} {p : Str} (h : find L p req = none)
    (hne : ∀ x ∈ req, x ≠ []) (h0 : req ≠ []) {e : Entry M H} (he : e ∈ L) (hw : e.what ≠ .nothing) {all : Bool}
    {b : List (Str × Str)} : ¬ Follows (IsStop L) e.segs all p req b := by
  intro hf
  have hk : known L (flat e.segs) = true := known_flat he
  have hent : hasEntry L (flat e.segs) = true := hasEntry_iff.2 ⟨e, he, rfl, hw⟩
  induction hf with
  | done => exact h0 rfl
  | @text all p x rest b h1 h2 h3 hf ih =>
    have hp := (Follows.text h1 h2 h3 hf).prefix
    have hq := (Follows.text h1 h2 h3 hf).proper hne h0
    have hpn : paramAt L p = none := by
      cases hx : paramAt L p with
      | none => rfl
      | some y => exact absurd ((hg.next he hp hq y).2 hx) (h1 y)
    rw [find, hpn] at h
    simp only [h2, isStop_iff.1 h3, ne_eq, not_false_eq_true, and_self, if_true] at h
    cases rest with
    | nil =>
      rw [← hf.nil.2.1] at hent
      simp [hent] at h
    | cons y rest =>
      simp only [List.isEmpty_cons, Bool.false_eq_true, if_false] at h
      refine ih ?_ (fun z hz => hne z (by simp [hz])) (by simp)
      cases hr : find L (p ++ x) (y :: rest) with
      | none => rfl
      | some r => rw [hr] at h; simp at h
  | @param all p y v rest b h1 hf ih =>
    have hp := (Follows.param (v := v) h1 hf).prefix
    have hq := (Follows.param (v := v) h1 hf).proper hne h0
    rw [find, (hg.next he hp hq y).1 h1] at h
    simp only at h
    cases rest with
    | nil =>
      rw [← hf.nil.2.1] at hent
      simp [hent] at h
    | cons z rest =>
      simp only [List.isEmpty_cons, Bool.false_eq_true, if_false, Option.map_eq_none_iff] at h
      exact ih h (fun z hz => hne z (by simp [hz])) (by simp)
  | @wild p x rest h1 =>
    have hp := (Follows.wild (stop := IsStop L) (x := x) (rest := rest) h1).prefix
    have hq := (Follows.wild (stop := IsStop L) (x := x) (rest := rest) h1).proper hne h0
    have hpn : paramAt L p = none := by
      cases hx : paramAt L p with
      | none => rfl
      | some y =>
        obtain ⟨a, b, h2, h3⟩ := (hg.next he hp hq y).2 hx
        rw [h2, flat_append, h3, flat_cons] at h1
        simp at h1
    rw [find, hpn] at h
    rw [h1] at hk
    simp only [hk, if_true] at h
    split at h <;> simp at h
  | @bare p x h1 h2 h3 h4 =>
    have hp := (Follows.bare (stop := IsStop L) h1 h2 h3 h4).prefix
    have hq := (Follows.bare (stop := IsStop L) h1 h2 h3 h4).proper hne h0
    have hpn : paramAt L p = none := by
      cases hx : paramAt L p with
      | none => rfl
      | some y => exact absurd ((hg.next he hp hq y).2 hx) (h1 y)
    rw [find, hpn] at h
    rw [h4] at hent
    simp only [h2, isStop_iff.1 h3, ne_eq, not_false_eq_true, and_self, if_true, List.isEmpty_nil, hent] at h
    by_cases hx : hasEntry L (p ++ x) = true <;> simp [hx] at h

/-- What is found is followed; to its end if any path is; and otherwise no longer path is followed. -/
theorem Tidy.find_some {L : Log M H} (hg : Tidy L) {req : List Str} {p q : Str}
    {b : List (Str × Str)} (h : find L p req = some (q, b)) (hne : ∀ x ∈ req, x ≠ [])
    {e : Entry M H} (he : e ∈ L) (hq : flat e.segs = q) :
    Follows (IsStop L) e.segs true p req b ∨ (Follows (IsStop L) e.segs false p req b ∧
      ∀ e' ∈ L, e'.what ≠ .nothing → ∀ b', ¬ Follows (IsStop L) e'.segs true p req b' ∧
        (Follows (IsStop L) e'.segs false p req b' → (flat e'.segs).length ≤ q.length)) := by
  induction req generalizing p b with
  | nil => simp [find] at h
  | cons x rest ih =>
    have hneR : ∀ s ∈ rest, s ≠ [] := fun x hx => hne x (by simp [hx])
    have hpq := find_prefix hne h
    have hnext := hg.next he (by rw [hq]; exact hpq.1) (by rw [hq]; exact hpq.2)
    rw [find] at h
    cases hpa : paramAt L p with
    | some y =>
      rw [hpa] at h
      simp only at h
      have hseg := (hnext y).2 hpa
      cases rest with
      | nil =>
        simp only [List.isEmpty_nil, if_true] at h
        by_cases hx : hasEntry L (p ++ ':' :: y) = true
        · simp only [hx, if_true, Option.some.injEq, Prod.mk.injEq] at h
          obtain ⟨rfl, rfl⟩ := h
          refine Or.inl (.param hseg ?_)
          rw [← hq]; exact .done
        · simp [hx] at h
      | cons z rest =>
        simp only [List.isEmpty_cons, Bool.false_eq_true, if_false, Option.map_eq_some_iff] at h
        obtain ⟨⟨q', b'⟩, h1, h2⟩ := h
        simp only [Prod.mk.injEq] at h2
        obtain ⟨rfl, rfl⟩ := h2
        rcases ih h1 hneR with h3 | ⟨h3, h4⟩
        · exact Or.inl (.param hseg h3)
        · refine Or.inr ⟨.param hseg h3, fun e' he' hw b'' => ?_⟩
          have key : ∀ all, Follows (IsStop L) e'.segs all p (x :: z :: rest) b'' →
              ∃ b₁, Follows (IsStop L) e'.segs all (p ++ ':' :: y) (z :: rest) b₁ := by
            intro all hf
            have n := hg.next he' hf.prefix (hf.proper hne (by simp))
            cases hf with
            | text g1 => exact absurd ((n y).2 hpa) (g1 y)
            | param g1 g2 =>
              have := (n _).1 g1
              rw [hpa] at this; injection this with this; subst this
              exact ⟨_, g2⟩
            | wild g1 =>
              obtain ⟨a, c, k1, k2⟩ := (n y).2 hpa
              rw [k1, flat_append, k2, flat_cons] at g1
              simp at g1
          refine ⟨fun hf => ?_, fun hf => ?_⟩
          · obtain ⟨b₁, hf⟩ := key _ hf
            exact (h4 e' he' hw b₁).1 hf
          · obtain ⟨b₁, hf⟩ := key _ hf
            exact (h4 e' he' hw b₁).2 hf
    | none =>
      rw [hpa] at h
      simp only at h
      have hno : ∀ y, ¬ HasSeg e.segs p (':' :: y) := fun y hy => by
        have := (hnext y).1 hy; rw [hpa] at this; simp at this
      -- what else follows
      have key : ∀ e' ∈ L, ∀ all b'', Follows (IsStop L) e'.segs all p (x :: rest) b'' →
          (x.head? ≠ some '*' ∧ known L (p ++ x) = true ∧ Follows (IsStop L) e'.segs all (p ++ x) rest b'') ∨
          (all = false ∧ flat e'.segs = p ++ ['*']) ∨
          (all = false ∧ rest = [] ∧ x.head? ≠ some '*' ∧ known L (p ++ x) = true ∧ flat e'.segs = p ++ x ++ ['*']) := by
        intro e' he' all b'' hf
        have n := hg.next he' hf.prefix (hf.proper hne (by simp))
        cases hf with
        | text g1 g2 g3 g4 => exact Or.inl ⟨g2, isStop_iff.1 g3, g4⟩
        | param g1 g2 =>
          have := (n _).1 g1
          rw [hpa] at this; simp at this
        | wild g1 => exact Or.inr (Or.inl ⟨rfl, g1⟩)
        | bare g1 g2 g3 g4 => exact Or.inr (Or.inr ⟨rfl, rfl, g2, isStop_iff.1 g3, g4⟩)
      have hxl : 0 < x.length := List.length_pos_iff.2 (hne x (by simp))
      by_cases hc : x.head? ≠ some '*' ∧ known L (p ++ x) = true
      · rw [if_pos hc] at h
        cases rest with
        | nil =>
          simp only [List.isEmpty_nil, if_true] at h
          by_cases hx : hasEntry L (p ++ x) = true
          · simp only [hx, if_true, Option.some.injEq, Prod.mk.injEq] at h
            obtain ⟨rfl, rfl⟩ := h
            refine Or.inl (.text hno hc.1 (isStop_iff.2 hc.2) ?_)
            rw [← hq]; exact .done
          · have hexact : ∀ e' ∈ L, e'.what ≠ .nothing → ∀ b'', ¬ Follows (IsStop L) e'.segs true p [x] b'' := by
              intro e' he' hw b'' hf
              rcases key e' he' _ _ hf with ⟨_, _, g⟩ | ⟨g, _⟩ | ⟨g, _⟩
              · exact hx (hasEntry_iff.2 ⟨e', he', g.nil.2.1.symm, hw⟩)
              · simp at g
              · simp at g
            simp only [hx] at h
            by_cases hy : hasEntry L (p ++ x ++ ['*']) = true
            · simp only [hy, if_true, Bool.false_eq_true, if_false, Option.some.injEq, Prod.mk.injEq] at h
              obtain ⟨rfl, rfl⟩ := h
              refine Or.inr ⟨.bare hno hc.1 (isStop_iff.2 hc.2) hq, fun e' he' hw b'' => ⟨hexact e' he' hw b'', fun hf => ?_⟩⟩
              rcases key e' he' _ _ hf with ⟨_, _, g⟩ | ⟨_, g⟩ | ⟨_, _, _, _, g⟩
              · exact absurd g.nil.1 (by simp)
              · rw [g]; simp
              · rw [g]; exact Nat.le_refl _
            · simp only [hy, Bool.false_eq_true, if_false] at h
              by_cases hs : known L (p ++ ['*']) = true
              · simp only [hs, if_true, Option.some.injEq, Prod.mk.injEq] at h
                obtain ⟨rfl, rfl⟩ := h
                refine Or.inr ⟨.wild hq, fun e' he' hw b'' => ⟨hexact e' he' hw b'', fun hf => ?_⟩⟩
                rcases key e' he' _ _ hf with ⟨_, _, g⟩ | ⟨_, g⟩ | ⟨_, _, _, _, g⟩
                · exact absurd g.nil.1 (by simp)
                · rw [g]; exact Nat.le_refl _
                · exact absurd (hasEntry_iff.2 ⟨e', he', g, hw⟩) hy
              · simp [hs] at h
        | cons z rest =>
          simp only [List.isEmpty_cons, Bool.false_eq_true, if_false] at h
          cases hr : find L (p ++ x) (z :: rest) with
          | some r =>
            rw [hr] at h
            simp only [Option.some.injEq] at h
            subst h
            rcases ih hr hneR with h3 | ⟨h3, h4⟩
            · exact Or.inl (.text hno hc.1 (isStop_iff.2 hc.2) h3)
            · refine Or.inr ⟨.text hno hc.1 (isStop_iff.2 hc.2) h3, fun e' he' hw b'' => ⟨fun hf => ?_, fun hf => ?_⟩⟩
              · rcases key e' he' _ _ hf with ⟨_, _, g⟩ | ⟨g, _⟩ | ⟨g, _⟩
                · exact (h4 e' he' hw b'').1 g
                · simp at g
                · simp at g
              · rcases key e' he' _ _ hf with ⟨_, _, g⟩ | ⟨_, g⟩ | ⟨_, g, _⟩
                · exact (h4 e' he' hw b'').2 g
                · have := h3.prefix.length_le
                  have h5 := h3.proper hneR (by simp)
                  rw [g, ← hq]
                  simp only [List.length_append, List.length_cons, List.length_nil] at this ⊢
                  omega
                · simp at g
          | none =>
            rw [hr] at h
            simp only at h
            by_cases hs : known L (p ++ ['*']) = true
            · simp only [hs, if_true, Option.some.injEq, Prod.mk.injEq] at h
              obtain ⟨rfl, rfl⟩ := h
              refine Or.inr ⟨.wild hq, fun e' he' hw b'' => ⟨fun hf => ?_, fun hf => ?_⟩⟩
              · rcases key e' he' _ _ hf with ⟨_, _, g⟩ | ⟨g, _⟩ | ⟨g, _⟩
                · exact absurd g (hg.find_none hr hneR (by simp) he' hw)
                · simp at g
                · simp at g
              · rcases key e' he' _ _ hf with ⟨_, _, g⟩ | ⟨_, g⟩ | ⟨_, g, _⟩
                · exact absurd g (hg.find_none hr hneR (by simp) he' hw)
                · rw [g]; exact Nat.le_refl _
                · simp at g
            · simp [hs] at h
      · rw [if_neg hc] at h
        simp only at h
        by_cases hs : known L (p ++ ['*']) = true
        · simp only [hs, if_true, Option.some.injEq, Prod.mk.injEq] at h
          obtain ⟨rfl, rfl⟩ := h
          refine Or.inr ⟨.wild hq, fun e' he' hw b'' => ⟨fun hf => ?_, fun hf => ?_⟩⟩
          · rcases key e' he' _ _ hf with ⟨g1, g2, _⟩ | ⟨g, _⟩ | ⟨g, _⟩
            · exact hc ⟨g1, g2⟩
            · simp at g
            · simp at g
          · rcases key e' he' _ _ hf with ⟨g1, g2, _⟩ | ⟨_, g⟩ | ⟨_, _, g1, g2, _⟩
            · exact absurd ⟨g1, g2⟩ hc
            · rw [g]; exact Nat.le_refl _
            · exact absurd ⟨g1, g2⟩ hc
        · simp [hs] at h

/-- Two registered paths that are both followed to the end, or both by wildcards of the same length,
have the same characters, and the parameters are the same. -/
theorem Tidy.follows_unique {L : Log M H} (hg : Tidy L) {e e' : Entry M H} (he : e ∈ L) (he' : e' ∈ L) {all : Bool}
    {req : List Str} {p : Str} {b b' : List (Str × Str)} (hne : ∀ x ∈ req, x ≠ [])
    (h : Follows (IsStop L) e.segs all p req b) (h' : Follows (IsStop L) e'.segs all p req b')
    (hl : all = false → (flat e.segs).length = (flat e'.segs).length) :
    flat e.segs = flat e'.segs ∧ b = b' := by
  induction h generalizing b' with
  | done =>
    generalize hq : flat e.segs = q at h'
    cases h' with
    | done => exact ⟨rfl, rfl⟩
  | @text all p x rest b h1 h2 h3 h4 ih =>
    have n := hg.next he (Follows.text h1 h2 h3 h4).prefix ((Follows.text h1 h2 h3 h4).proper hne (by simp))
    have n' := hg.next he' h'.prefix (h'.proper hne (by simp))
    have hneR : ∀ s ∈ rest, s ≠ [] := fun x hx => hne x (by simp [hx])
    have hxl : 0 < x.length := List.length_pos_iff.2 (hne x (by simp))
    cases h' with
    | text g1 g2 g3 g4 => exact ih hneR g4 hl
    | param g1 g2 => exact absurd ((n _).2 ((n' _).1 g1)) (h1 _)
    | wild g1 =>
      have hl := hl rfl
      have := h4.prefix.length_le
      have hne' : p ++ x ≠ flat e.segs := by
        cases rest with
        | nil => exact absurd h4.nil.1 (by simp)
        | cons z rest => exact h4.proper hneR (by simp)
      rw [hl, g1] at this
      simp at this
      have h5 : (p ++ x).length = (flat e.segs).length := by rw [hl, g1]; simp; omega
      exact absurd (h4.prefix.eq_of_length h5) hne'
    | bare g1 g2 g3 g4 => exact absurd h4.nil.1 (by simp)
  | @param all p y v rest b h1 h2 ih =>
    have n := hg.next he (Follows.param (v := v) h1 h2).prefix ((Follows.param (v := v) h1 h2).proper hne (by simp))
    have n' := hg.next he' h'.prefix (h'.proper hne (by simp))
    have hneR : ∀ s ∈ rest, s ≠ [] := fun x hx => hne x (by simp [hx])
    have hseg' := (n' y).2 ((n y).1 h1)
    cases h' with
    | text g1 g2 g3 g4 => exact absurd hseg' (g1 y)
    | param g1 g2 =>
      have := (n' _).1 g1
      rw [(n _).1 h1] at this
      injection this with this; subst this
      obtain ⟨k1, k2⟩ := ih hneR g2 hl
      exact ⟨k1, by rw [k2]⟩
    | wild g1 =>
      obtain ⟨a, c, k1, k2⟩ := hseg'
      rw [k1, flat_append, k2, flat_cons] at g1
      simp at g1
    | bare g1 _ _ _ => exact absurd hseg' (g1 y)
  | @wild p x rest h1 =>
    have n := hg.next he (Follows.wild (stop := IsStop L) (x := x) (rest := rest) h1).prefix
      ((Follows.wild (stop := IsStop L) (x := x) (rest := rest) h1).proper hne (by simp))
    have hxl : 0 < x.length := List.length_pos_iff.2 (hne x (by simp))
    have hneR : ∀ s ∈ rest, s ≠ [] := fun x hx => hne x (by simp [hx])
    have n' := hg.next he' h'.prefix (h'.proper hne (by simp))
    have hl := hl rfl
    cases h' with
    | text g1 g2 g3 g4 =>
      have := g4.prefix.length_le
      rw [← hl, h1] at this
      simp at this
      have h5 : (p ++ x).length = (flat e'.segs).length := by rw [← hl, h1]; simp; omega
      have h6 := g4.prefix.eq_of_length h5
      cases rest with
      | nil => exact absurd g4.nil.1 (by simp)
      | cons z rest => exact absurd h6 (g4.proper hneR (by simp))
    | param g1 g2 =>
      obtain ⟨a, c, k1, k2⟩ := (n _).2 ((n' _).1 g1)
      rw [k1, flat_append, k2, flat_cons] at h1
      simp at h1
    | wild g1 => exact ⟨by rw [h1, g1], rfl⟩
    | bare g1 g2 g3 g4 => rw [h1, g4] at hl; simp at hl; simp [hl] at hxl
  | @bare p x h1 h2 h3 h4 =>
    have n := hg.next he (Follows.bare (stop := IsStop L) h1 h2 h3 h4).prefix
      ((Follows.bare (stop := IsStop L) h1 h2 h3 h4).proper hne (by simp))
    have hxl : 0 < x.length := List.length_pos_iff.2 (hne x (by simp))
    have n' := hg.next he' h'.prefix (h'.proper hne (by simp))
    have hl := hl rfl
    cases h' with
    | text g1 g2 g3 g4 => exact absurd g4.nil.1 (by simp)
    | param g1 g2 => exact absurd ((n _).2 ((n' _).1 g1)) (h1 _)
    | wild g1 => rw [h4, g1] at hl; simp at hl; simp [hl] at hxl
    | bare g1 g2 g3 g4 => exact ⟨by rw [h4, g4], rfl⟩

/-- The search does exactly what `LeadsTo` says. -/
theorem Tidy.lookup_leads {L : Log M H} (hg : Tidy L) (hsm : NoStarMount L) {path : Str} {e : Entry M H}
    (he : e ∈ L) (hw : e.what ≠ .nothing) {b : List (Str × Str)} :
    lookup L path = some (flat e.segs, b) ↔ LeadsTo L e.segs (segments path) b := by
  have hne := segments_ne path
  constructor
  · intro h
    rw [lookup] at h
    by_cases h0 : segments path = []
    · simp only [h0, if_true] at h
      split at h
      · simp only [Option.some.injEq, Prod.mk.injEq] at h
        refine Or.inl ?_
        rw [h0, ← h.2, h.1]
        exact .done
      · simp at h
    · simp only [h0, if_false] at h
      split at h
      · next q' b' hf =>
        split at h
        · simp at h
          rw [h.1, h.2] at hf
          exact hg.find_some hf hne he rfl
        · simp at h
      · simp at h
  · intro h
    have hent : hasEntry L (flat e.segs) = true := hasEntry_iff.2 ⟨e, he, rfl, hw⟩
    rw [lookup]
    by_cases h0 : segments path = []
    · simp only [h0, if_true]
      rw [h0] at h
      rcases h with h | ⟨h, _⟩
      · obtain ⟨_, h1, h2⟩ := h.nil
        rw [← h1] at hent ⊢; simp [hent, h2]
      · exact absurd h.nil.1 (by simp)
    · simp only [h0, if_false]
      cases hr : find L [] (segments path) with
      | none =>
        rcases h with h | ⟨h, _⟩
        · exact absurd h (hg.find_none hr hne h0 he hw)
        · exact absurd h (hg.find_none hr hne h0 he hw)
      | some r =>
        obtain ⟨q', b'⟩ := r
        have hent' := hg.find_entry hsm hr
        obtain ⟨e', he', hq', hw'⟩ := hasEntry_iff.1 hent'
        have h2 := hg.find_some hr hne he' hq'
        simp only [hent', if_true, Option.some.injEq, Prod.mk.injEq]
        rw [← hq']
        rcases h with h | ⟨h, hb⟩ <;> rcases h2 with h2 | ⟨h2, hb2⟩
        · obtain ⟨k1, k2⟩ := hg.follows_unique he' he hne h2 h (by simp); exact ⟨k1, k2⟩
        · exact absurd h (hb2 e he hw b).1
        · exact absurd h2 (hb e' he' hw' b').1
        · obtain ⟨k1, k2⟩ := hg.follows_unique he' he hne h2 h (fun _ => Nat.le_antisymm ((hb e' he' hw' b').2 h2)
            (by rw [hq']; exact (hb2 e he hw b).2 h))
          exact ⟨k1, k2⟩

end Obsidian.Spec
