import Verif.Proofs.Insert
import Verif.Spec.Flat

/- What inserting a list of segments does to a well-formed tree. -/
namespace Obsidian

@[simp] theorem flat_nil : flat [] = [] := rfl
@[simp] theorem flat_cons (s : Str) (ss : List Str) : flat (s :: ss) = s ++ flat ss := rfl

theorem flat_append (a b : List Str) : flat (a ++ b) = flat a ++ flat b := by
  induction a with
  | nil => rfl
  | cons s a ih => simp [ih]

theorem flat_eq_nil {ss : List Str} (h : ∀ s ∈ ss, s ≠ []) : flat ss = [] ↔ ss = [] := by
  cases ss with
  | nil => simp
  | cons s ss => simp [h s (by simp)]

@[simp] theorem not_hasSeg_nil (p t : Str) : ¬ HasSeg [] p t := by
  rintro ⟨pre, post, h, _⟩; simp at h

theorem hasSeg_cons_nil {k : Str} {ks : List Str} {t : Str} (hne : ∀ s ∈ k :: ks, s ≠ []) :
    HasSeg (k :: ks) [] t ↔ k = t := by
  constructor
  · rintro ⟨pre, post, h, hp⟩
    cases pre with
    | nil => simp at h; exact h.1
    | cons a pre =>
      simp at h hp
      exact absurd hp.1 (by rw [← h.1]; exact hne k (by simp))
  · rintro rfl; exact ⟨[], ks, rfl, rfl⟩

theorem hasSeg_cons_append {k : Str} {ks : List Str} {t p : Str} (hk : k ≠ []) :
    HasSeg (k :: ks) (k ++ p) t ↔ HasSeg ks p t := by
  constructor
  · rintro ⟨pre, post, h, hp⟩
    cases pre with
    | nil => simp at hp; exact absurd hp.1 hk
    | cons a pre =>
      simp at h hp
      obtain ⟨rfl, h⟩ := h
      exact ⟨pre, post, h, List.append_cancel_left hp⟩
  · rintro ⟨pre, post, rfl, rfl⟩; exact ⟨k :: pre, post, rfl, rfl⟩

theorem hasSeg_cons_not {k : Str} {ks : List Str} {t p : Str} (hp : p ≠ []) (h : ¬ k <+: p) :
    ¬ HasSeg (k :: ks) p t := by
  rintro ⟨pre, post, h', rfl⟩
  cases pre with
  | nil => simp at hp
  | cons a pre => simp at h'; exact h (by rw [h'.1]; simp)

theorem segEnd_cons_append {k : Str} {ks : List Str} {p : Str} (hk : k ≠ []) :
    SegEnd (k :: ks) (k ++ p) ↔ SegEnd ks p := by
  constructor
  · rintro ⟨pre, post, h, hp⟩
    cases pre with
    | nil => simp at hp; exact absurd hp.1 hk
    | cons a pre =>
      simp at h hp
      obtain ⟨rfl, h⟩ := h
      exact ⟨pre, post, h, List.append_cancel_left hp⟩
  · rintro ⟨pre, post, rfl, rfl⟩; exact ⟨k :: pre, post, rfl, rfl⟩

theorem segEnd_cons_not {k : Str} {ks : List Str} {p : Str} (hp : p ≠ []) (h : ¬ k <+: p) :
    ¬ SegEnd (k :: ks) p := by
  rintro ⟨pre, post, h', rfl⟩
  cases pre with
  | nil => simp at hp
  | cons a pre => simp at h'; exact h (by rw [h'.1]; simp)

theorem segEnd_nil (ks : List Str) : SegEnd ks [] := ⟨[], ks, rfl, rfl⟩
theorem segEnd_full (ks : List Str) : SegEnd ks (flat ks) := ⟨ks, [], by simp, rfl⟩

namespace Node
variable {M H : Type}

/-- `insertLoop` with `f` applied to the node itself for the empty list of segments. -/
def descend (path : Str) (f : Node M H → Out (Node M H)) : List Str → Node M H → Out (Node M H)
  | [], n => f n
  | k :: ks, n => n.processInsertion path k (descend path f ks)

theorem insertLoop_eq (path : Str) (f : Node M H → Out (Node M H)) {segs : List Str}
    (h : segs ≠ []) (n : Node M H) : insertLoop path f segs n = descend path f segs n := by
  have key : ∀ k ks, (insertLoop path f (k :: ks) : Node M H → _) = descend path f (k :: ks) := by
    intro k ks
    induction ks generalizing k with
    | nil => rfl
    | cons k' ks ih => funext n; rw [insertLoop, ih]; rfl
  cases segs with
  | nil => exact absurd rfl h
  | cons k ks => rw [key]

/-- How the name of the parameter child changes at `s`. -/
def PN (segs : List Str) (s : Str) (p p' : Option Str) : Prop :=
  (∀ x, HasSeg segs s (':' :: x) → p' = some x) ∧
  ((∀ x, ¬ HasSeg segs s (':' :: x)) → p' = p)

/-- The segment `s` is ambiguous at the position `p`. -/
def AmbAt (n : Node M H) (p s : Str) : Prop :=
  if startsColon s then
    (∃ r, r ≠ [] ∧ (n.view (p ++ r)).isSome) ∧ (n.view p).bind (·.2) ≠ some s.tail
  else ∃ w u v x, s = w ++ u ∧ u ≠ [] ∧ n.view (p ++ w) = some (v, some x)

/-- Some segment is ambiguous. -/
def AmbSegs (n : Node M H) (segs : List Str) : Prop := ∃ p s, HasSeg segs p s ∧ AmbAt n p s

/-- `n'` is `n` after inserting the segments, with the reached node replaced by `m`. -/
structure InsertedL (n : Node M H) (segs : List Str) (m n' : Node M H) : Prop where
  wf : n'.WF
  keyEq : n'.key = n.key
  below : ∀ r, n'.view (flat segs ++ r) = m.view r
  keep : ∀ s v p, ¬ flat segs <+: s → n.view s = some (v, p) →
    ∃ p', n'.view s = some (v, p') ∧ PN segs s p p'
  split : ∀ s, ¬ flat segs <+: s → n.view s = none → (SegEnd segs s ∨ Branch n (flat segs) s) →
    ∃ p', n'.view s = some (none, p') ∧ PN segs s none p'
  absent : ∀ s, ¬ flat segs <+: s → n.view s = none → ¬ SegEnd segs s →
    ¬ Branch n (flat segs) s → n'.view s = none

theorem view_nil_isSome (n : Node M H) : n.view [] ≠ none := by simp

theorem ambAt_nil {n : Node M H} {s : Str} : AmbAt n [] s ↔ AmbSeg n s := by
  simp [AmbAt, AmbSeg]

theorem Target.ambAt {n tgt : Node M H} {k : Str} (h : Target n k tgt) (p s : Str) :
    AmbAt tgt p s ↔ AmbAt n (k ++ p) s := by
  have e : ∀ q, (tgt.view q).bind (·.2) = (n.view (k ++ q)).bind (·.2) := by
    intro q
    by_cases hq : q = []
    · subst hq; rw [h.root, List.append_nil]; cases n.view k <;> rfl
    · rw [h.ext q hq]
  have e' : ∀ q, (∃ v x, tgt.view q = some (v, some x)) ↔ ∃ v x, n.view (k ++ q) = some (v, some x) := by
    intro q
    have := e q
    constructor
    · rintro ⟨v, x, hx⟩
      rw [hx] at this
      cases h : n.view (k ++ q) with
      | none => simp [h] at this
      | some y => obtain ⟨y1, y2⟩ := y; simp [h] at this; subst this; exact ⟨_, _, rfl⟩
    · rintro ⟨v, x, hx⟩
      rw [hx] at this
      cases h : tgt.view q with
      | none => simp [h] at this
      | some y => obtain ⟨y1, y2⟩ := y; simp [h] at this; subst this; exact ⟨_, _, rfl⟩
  unfold AmbAt
  split
  · rw [e p]
    have : (∃ r, r ≠ [] ∧ (tgt.view (p ++ r)).isSome) ↔
        ∃ r, r ≠ [] ∧ (n.view (k ++ p ++ r)).isSome := by
      constructor
      · rintro ⟨r, hr, hv⟩
        refine ⟨r, hr, ?_⟩
        rw [List.append_assoc, ← h.ext _ (by simp [hr])]; exact hv
      · rintro ⟨r, hr, hv⟩
        refine ⟨r, hr, ?_⟩
        rw [List.append_assoc, ← h.ext _ (by simp [hr])] at hv; exact hv
    rw [this]
  · constructor
    · rintro ⟨w, u, v, x, hs, hu, hv⟩
      obtain ⟨v', x', h'⟩ := (e' (p ++ w)).1 ⟨v, x, hv⟩
      exact ⟨w, u, v', x', hs, hu, by rw [List.append_assoc]; exact h'⟩
    · rintro ⟨w, u, v, x, hs, hu, hv⟩
      obtain ⟨v', x', h'⟩ := (e' (p ++ w)).2 ⟨v, x, by rw [← List.append_assoc]; exact hv⟩
      exact ⟨w, u, v', x', hs, hu, h'⟩

theorem ambSegs_cons {n tgt : Node M H} {k : Str} {ks : List Str} (h : Target n k tgt) :
    AmbSegs n (k :: ks) ↔ AmbSeg n k ∨ AmbSegs tgt ks := by
  constructor
  · rintro ⟨_, s, ⟨pre, post, hseg, rfl⟩, ha⟩
    cases pre with
    | nil => simp at hseg; obtain ⟨rfl, rfl⟩ := hseg; exact Or.inl (ambAt_nil.1 ha)
    | cons a pre =>
      simp at hseg; obtain ⟨rfl, rfl⟩ := hseg
      exact Or.inr ⟨flat pre, s, ⟨pre, post, rfl, rfl⟩, (h.ambAt _ _).2 ha⟩
  · rintro (ha | ⟨_, s, ⟨pre, post, rfl, rfl⟩, ha⟩)
    · exact ⟨[], k, ⟨[], ks, rfl, rfl⟩, ambAt_nil.2 ha⟩
    · exact ⟨k ++ flat pre, s, ⟨k :: pre, post, rfl, rfl⟩, (h.ambAt _ _).1 ha⟩

theorem InsertedL.comp {n tgt m m₁ n' : Node M H} {k : Str} {ks : List Str}
    (hne : ∀ s ∈ k :: ks, s ≠ [])
    (ht : Target n k tgt) (h1 : Inserted n k m₁ n') (h2 : InsertedL tgt ks m m₁) :
    InsertedL n (k :: ks) m n' := by
  have hk : k ≠ [] := hne k (by simp)
  have hpre : ∀ s, k ++ flat ks <+: k ++ s ↔ flat ks <+: s := fun s => List.prefix_append_right_inj k
  have hbr : ∀ s, s ≠ [] → (Branch n (k ++ flat ks) (k ++ s) ↔ Branch tgt (flat ks) s) := by
    intro s hs
    constructor
    · rintro ⟨_, a, b, u, t, h, hab, hv⟩
      rw [List.append_assoc] at h hv
      refine ⟨hs, a, b, u, t, List.append_cancel_left h, hab, ?_⟩
      rw [ht.ext _ (by simp)]; exact hv
    · rintro ⟨_, a, b, u, t, h, hab, hv⟩
      refine ⟨by simp [hs], a, b, u, t, by rw [h, List.append_assoc], hab, ?_⟩
      rw [List.append_assoc, ← ht.ext _ (by simp)]; exact hv
  have hbr' : ∀ s, ¬ k <+: s → (Branch n (k ++ flat ks) s ↔ Branch n k s) := by
    intro s hs
    constructor
    · rintro ⟨h0, a, b, u, t, h, hab, hv⟩
      refine ⟨h0, a, b, ?_⟩
      rcases List.append_eq_append_iff.1 h with ⟨c, h1, h2⟩ | ⟨c, h1, h2⟩
      · exact absurd (by rw [h1]; simp) hs
      · cases c with
        | nil => simp at h1; exact absurd (by rw [h1]; exact List.prefix_rfl) hs
        | cons d c =>
          simp at h2; obtain ⟨rfl, _⟩ := h2
          exact ⟨c, t, h1, hab, hv⟩
    · rintro ⟨h0, a, b, u, t, h, hab, hv⟩
      exact ⟨h0, a, b, u ++ flat ks, t, by rw [h]; simp, hab, hv⟩
  have hPN : ∀ s p p', PN (k :: ks) (k ++ s) p p' ↔ PN ks s p p' := by
    intro s p p'; unfold PN; simp only [hasSeg_cons_append hk]
  have hPN' : ∀ s p, s ≠ [] → ¬ k <+: s → PN (k :: ks) s p p := by
    intro s p hs0 hs
    exact ⟨fun x hx => absurd hx (hasSeg_cons_not hs0 hs), fun _ => rfl⟩
  refine ⟨h1.wf, h1.keyEq, ?_, ?_, ?_, ?_⟩
  · intro r; rw [flat_cons, List.append_assoc, h1.below, h2.below]
  · intro s v p hs hv
    by_cases hks : k <+: s
    · obtain ⟨s', rfl⟩ := hks
      rw [h1.below, ]
      rw [flat_cons, hpre] at hs
      have hv' : tgt.view s' = some (v, p) := by
        by_cases h0 : s' = []
        · subst h0; rw [List.append_nil] at hv; rw [ht.root, hv]; rfl
        · rw [ht.ext _ h0, hv]
      obtain ⟨p', ha, hb⟩ := h2.keep s' v p hs hv'
      exact ⟨p', ha, (hPN _ _ _).2 hb⟩
    · by_cases h0 : s = []
      · subst h0
        rw [view_nil] at hv ⊢
        simp only [Option.some.injEq, Prod.mk.injEq] at hv
        obtain ⟨rfl, rfl⟩ := hv
        refine ⟨n'.pn, by rw [h1.valueEq], ?_, ?_⟩
        · intro x hx
          rw [hasSeg_cons_nil hne] at hx
          rw [h1.pnEq, hx]; rfl
        · intro hx
          rw [h1.pnEq, if_neg]
          intro hc
          rw [startsColon_iff] at hc
          cases hkk : k with
          | nil => exact hk hkk
          | cons a x =>
            simp [hkk] at hc; subst hc
            exact hx x ((hasSeg_cons_nil hne).2 hkk)
      · exact ⟨p, h1.keep s _ hks h0 hv, hPN' s p h0 hks⟩
  · intro s hs hv hor
    by_cases hks : k <+: s
    · obtain ⟨s', rfl⟩ := hks
      rw [h1.below]
      rw [flat_cons, hpre] at hs
      by_cases h0 : s' = []
      · subst h0
        rw [List.append_nil] at hv
        obtain ⟨p', ha, hb⟩ := h2.keep [] none none hs (by rw [ht.root, hv]; rfl)
        exact ⟨p', ha, (hPN _ _ _).2 hb⟩
      · rw [flat_cons, segEnd_cons_append hk, hbr s' h0] at hor
        obtain ⟨p', ha, hb⟩ := h2.split s' hs (by rw [ht.ext _ h0, hv]) hor
        exact ⟨p', ha, (hPN _ _ _).2 hb⟩
    · have h0 : s ≠ [] := by rintro rfl; simp at hv
      rcases hor with hor | hor
      · exact absurd hor (segEnd_cons_not h0 hks)
      · exact ⟨none, h1.split s hks h0 hv ((hbr' s hks).1 hor), hPN' s none h0 hks⟩
  · intro s hs hv hor hb
    by_cases hks : k <+: s
    · obtain ⟨s', rfl⟩ := hks
      rw [h1.below]
      rw [flat_cons, hpre] at hs
      by_cases h0 : s' = []
      · subst h0; exact absurd ((segEnd_cons_append hk).2 (segEnd_nil ks)) hor
      · rw [segEnd_cons_append hk] at hor
        rw [flat_cons, hbr s' h0] at hb
        exact h2.absent s' hs (by rw [ht.ext _ h0, hv]) hor hb
    · have h0 : s ≠ [] := by rintro rfl; simp at hv
      exact h1.absent s hks h0 hv (fun h => hb ((hbr' s hks).2 h))

theorem InsertedL.nil {n m : Node M H} (hw : m.WF) (hk : m.key = n.key) : InsertedL n [] m m :=
  ⟨hw, hk, by simp, fun _ _ _ h => absurd (by simp) h, fun _ h => absurd (by simp) h,
    fun _ h => absurd (by simp) h⟩

theorem Target.nil {n : Node M H} (hw : n.WF) : Target n [] n :=
  ⟨hw, by simp, by simp⟩

theorem Target.comp {n tgt tgt₂ : Node M H} {k : Str} {ks : Str} (hks : ks = [] → tgt₂ = tgt)
    (h1 : Target n k tgt) (h2 : Target tgt ks tgt₂) : Target n (k ++ ks) tgt₂ := by
  refine ⟨h2.wf, ?_, ?_⟩
  · intro r hr; rw [h2.ext r hr, h1.ext _ (by simp [hr]), List.append_assoc]
  · by_cases h0 : ks = []
    · subst h0; rw [hks rfl, h1.root, List.append_nil]
    · rw [h2.root, h1.ext _ h0]

/-- Inserting an unambiguous list of segments. -/
theorem descend_ok (path : Str) {segs : List Str} {n : Node M H} (hw : n.WF)
    (hk : ∀ s ∈ segs, KeyOK s) (h : ¬ AmbSegs n segs) :
    ∃ tgt, Target n (flat segs) tgt ∧ ∀ f : Node M H → Out (Node M H),
      (f tgt).1.key = tgt.key → (f tgt).1.WF →
      (descend path f segs n).2 = (f tgt).2 ∧
      InsertedL n segs (f tgt).1 (descend path f segs n).1 := by
  induction segs generalizing n with
  | nil => exact ⟨n, Target.nil hw, fun f hf hwf => ⟨rfl, InsertedL.nil hwf hf⟩⟩
  | cons k ks ih =>
    have hne : ∀ s ∈ k :: ks, s ≠ [] := fun s hs => (hk s hs).ne_nil
    have ha : ¬ AmbSeg n k := fun ha => h ⟨[], k, ⟨[], ks, rfl, rfl⟩, ambAt_nil.2 ha⟩
    obtain ⟨t₁, ht₁, hi₁⟩ := processInsertion_ok path hw (hk k (by simp)) ha
    rw [ambSegs_cons ht₁] at h
    obtain ⟨t₂, ht₂, hi₂⟩ := ih ht₁.wf (fun s hs => hk s (by simp [hs])) (fun x => h (Or.inr x))
    by_cases hks : ks = []
    · subst hks
      refine ⟨t₁, by simpa using ht₁, ?_⟩
      intro f hf hwf
      obtain ⟨a, b⟩ := hi₁ f hf
      exact ⟨a, InsertedL.comp hne ht₁ (b hwf) (InsertedL.nil hwf hf)⟩
    · refine ⟨t₂, Target.comp ?_ ht₁ ht₂, ?_⟩
      · intro e; exact absurd ((flat_eq_nil (fun s hs => hne s (by simp [hs]))).1 e) hks
      · intro f hf hwf
        obtain ⟨h1, h2⟩ := hi₂ f hf hwf
        obtain ⟨a, b⟩ := hi₁ (descend path f ks) h2.keyEq
        exact ⟨by rw [descend, a, h1], InsertedL.comp hne ht₁ (b h2.wf) h2⟩

/-- Inserting an ambiguous list of segments: the call panics, and the segments before the first
ambiguous one have been inserted. -/
theorem descend_amb (path : Str) {segs : List Str} {n : Node M H} (hw : n.WF)
    (hk : ∀ s ∈ segs, KeyOK s) (h : AmbSegs n segs) (f : Node M H → Out (Node M H)) :
    ∃ pre s post, segs = pre ++ s :: post ∧ ¬ AmbSegs n pre ∧ AmbAt n (flat pre) s ∧
      (∃ a b, (descend path f segs n).2 = some (.ambiguous a b path)) ∧
      ∃ tgt, Target n (flat pre) tgt ∧ InsertedL n pre tgt (descend path f segs n).1 := by
  induction segs generalizing n with
  | nil => obtain ⟨p, s, h, _⟩ := h; exact absurd h (not_hasSeg_nil p s)
  | cons k ks ih =>
    have hne : ∀ s ∈ k :: ks, s ≠ [] := fun s hs => (hk s hs).ne_nil
    by_cases ha : AmbSeg n k
    · obtain ⟨a, b, e⟩ := processInsertion_amb path hw (hk k (by simp)) ha (descend path f ks)
      refine ⟨[], k, ks, rfl, ?_, ambAt_nil.2 ha, ⟨a, b, by rw [descend, e]⟩, n, Target.nil hw, ?_⟩
      · rintro ⟨p, s, h, _⟩; exact not_hasSeg_nil p s h
      · rw [descend, e]; exact InsertedL.nil hw rfl
    · obtain ⟨t₁, ht₁, hi₁⟩ := processInsertion_ok path hw (hk k (by simp)) ha
      rw [ambSegs_cons ht₁] at h
      have h := h.resolve_left ha
      obtain ⟨pre, s, post, e, h1, h2, ⟨a, b, h3⟩, t₂, ht₂, h4⟩ :=
        ih ht₁.wf (fun s hs => hk s (by simp [hs])) h
      obtain ⟨i1, i2⟩ := hi₁ (descend path f ks) h4.keyEq
      refine ⟨k :: pre, s, post, by simp [e], ?_, (ht₁.ambAt _ _).1 h2,
        ⟨a, b, by rw [descend, i1, h3]⟩, ?_⟩
      · rw [ambSegs_cons ht₁]; exact fun x => x.elim ha h1
      · by_cases hp : pre = []
        · subst hp
          refine ⟨t₁, by simpa using ht₁, ?_⟩
          have hv : (descend path f ks t₁).1.view = t₁.view := by
            funext r
            have e1 := h4.below r
            simp only [flat_nil, List.nil_append] at e1
            rw [e1]
            by_cases hr : r = []
            · subst hr; rw [ht₂.root]; simp
            · rw [ht₂.ext r hr]; simp
          have := InsertedL.comp (ks := []) (by simpa using hne k (by simp)) ht₁ (i2 h4.wf)
            (InsertedL.nil h4.wf h4.keyEq)
          exact ⟨this.wf, this.keyEq, fun r => (this.below r).trans (by rw [hv]),
            fun s v p hs hv => this.keep s v p hs hv, this.split, this.absent⟩
        · refine ⟨t₂, Target.comp ?_ ht₁ ht₂, InsertedL.comp ?_ ht₁ (i2 h4.wf) h4⟩
          · intro e'; exact absurd ((flat_eq_nil (fun x hx => hne x (by simp [e, hx]))).1 e') hp
          · intro x hx
            rcases List.mem_cons.1 hx with rfl | hx
            · exact hne _ (by simp)
            · exact hne x (by simp [e, hx])

/-! ### Parameter children -/

theorem WF.sub {n m : Node M H} {s : Str} (hw : n.WF) (h : n.sub s = some m) : m.WF := by
  have key : ∀ N, ∀ n : Node M H, sizeOf n ≤ N → n.WF → ∀ s, n.sub s = some m → m.WF := by
    intro N
    induction N with
    | zero => intro n; cases n; simp
    | succ N ih =>
      intro n hN hw s h
      cases n with
      | mk k v cs =>
      cases s with
      | nil => simp at h; rw [← h]; exact hw
      | cons a s =>
        rw [sub_cons, children_mk] at h
        rw [WF_mk] at hw
        rcases hw.cases (a :: s) with hh | ⟨l₁, c, l₂, rfl, hc, h1, h2⟩
        · rw [subL_none hw.ne hh] at h; simp at h
        · rw [subL_mid hw.ne h1 h2] at h
          split at h
          · refine ih c ?_ (hw.wf (by simp)) _ h
            have : sizeOf c < sizeOf (l₁ ++ c :: l₂) := List.sizeOf_lt_of_mem (by simp)
            simp at hN; omega
          · simp at h
  exact key _ n (Nat.le_refl _) hw s h

theorem sub_append {n m : Node M H} {s : Str} (hw : n.WF) (h : n.sub s = some m) (r : Str) :
    n.sub (s ++ r) = m.sub r := by
  have key : ∀ N, ∀ n : Node M H, sizeOf n ≤ N → n.WF → ∀ s, n.sub s = some m →
      n.sub (s ++ r) = m.sub r := by
    intro N
    induction N with
    | zero => intro n; cases n; simp
    | succ N ih =>
      intro n hN hw s h
      cases n with
      | mk k v cs =>
      cases s with
      | nil => simp at h; rw [← h]; rfl
      | cons a s =>
        rw [List.cons_append, sub_cons, children_mk]
        rw [sub_cons, children_mk] at h
        rw [WF_mk] at hw
        rcases hw.cases (a :: s) with hh | ⟨l₁, c, l₂, rfl, hc, h1, h2⟩
        · rw [subL_none hw.ne hh] at h; simp at h
        · rw [subL_mid hw.ne h1 h2] at h
          split at h
          · next hp =>
            obtain ⟨t, ht⟩ := hp
            rw [← List.cons_append, subL_mid hw.ne (by simpa using h1) (by simpa using h2),
              if_pos (by rw [← ht]; simp), ← ht]
            rw [← ht] at h
            simp only [List.append_assoc, List.drop_left] at h ⊢
            refine ih c ?_ (hw.wf (by simp)) _ h
            have : sizeOf c < sizeOf (l₁ ++ c :: l₂) := List.sizeOf_lt_of_mem (by simp)
            simp at hN; omega
          · simp at h
  exact key _ n (Nat.le_refl _) hw s h

theorem view_eq_some {n : Node M H} {s : Str} {v p} :
    n.view s = some (v, p) ↔ ∃ m, n.sub s = some m ∧ m.value = v ∧ m.pn = p := by
  simp [view, Option.map_eq_some_iff]

theorem view_append {n m : Node M H} {s : Str} (hw : n.WF) (h : n.sub s = some m) (r : Str) :
    n.view (s ++ r) = m.view r := by
  rw [view, view, sub_append hw h]

/-- Everything below a node with a parameter child is below that child. -/
theorem below_param {n : Node M H} {s x r : Str} {v} (hw : n.WF) (h : n.view s = some (v, some x))
    (hr : r ≠ []) (h' : (n.view (s ++ r)).isSome = true) : ':' :: x <+: r := by
  obtain ⟨m, hm, _, hp⟩ := view_eq_some.1 h
  rw [view_append hw hm] at h'
  obtain ⟨c, hc, hk⟩ := (WF_iff.1 (hw.sub hm)).param hp
  cases m with
  | mk k v cs =>
  simp at hc; subst hc
  by_cases hh : c.key <+: r
  · rwa [hk] at hh
  · rw [view, sub_ne hr, children, subL, if_neg hh, subL] at h'; simp at h'

end Node
end Obsidian
