import Verif.Proofs.LogEq

/-
Facts about a log that contains a mounted one: what is below the mount point comes from the mounted
log only.  Used for C18.
-/
namespace Obsidian.Spec
open Obsidian
variable {M H : Type}

/-- A segment of `ss ++ t` that starts before the end of `ss` belongs to `ss`. -/
theorem hasSeg_left {ss t : List Str} {p s : Str} (h : HasSeg (ss ++ t) p s)
    (hl : p.length < (flat ss).length) : HasSeg ss p s := by
  obtain ⟨pre, post, h, rfl⟩ := h
  rcases List.append_eq_append_iff.1 h with ⟨c, h1, h2⟩ | ⟨c, h1, h2⟩
  · rw [h1, flat_append] at hl; simp at hl; omega
  · cases c with
    | nil => rw [List.append_nil] at h1; subst h1; omega
    | cons d c =>
      simp at h2
      exact ⟨pre, c, by rw [h1, h2.1], rfl⟩

theorem hasSeg_append {ss t : List Str} {p s : Str} (h : HasSeg ss p s) : HasSeg (ss ++ t) p s := by
  obtain ⟨pre, post, rfl, rfl⟩ := h
  exact ⟨pre, post ++ t, by simp, rfl⟩

/-- A segment of `ss ++ t` that does not start before the end of `ss` belongs to `t`. -/
theorem hasSeg_right {ss t : List Str} {p s : Str} (hne : ∀ x ∈ ss, x ≠ [])
    (h : HasSeg (ss ++ t) (flat ss ++ p) s) : HasSeg t p s := by
  obtain ⟨pre, post, h, hp⟩ := h
  rcases List.append_eq_append_iff.1 h with ⟨c, h1, h2⟩ | ⟨c, h1, h2⟩
  · rw [h1, flat_append, List.append_cancel_left_eq] at hp
    exact ⟨c, post, h2, hp⟩
  · rw [h1, flat_append, List.append_assoc] at hp
    have hc : c = [] := by
      cases c with
      | nil => rfl
      | cons d c =>
        have : flat pre = flat pre ++ (flat (d :: c) ++ p) := hp
        have h0 : flat (d :: c) ++ p = [] := by
          have := congrArg List.length this; rw [List.length_append] at this
          exact List.length_eq_zero_iff.1 (by omega)
        simp at h0
        exact absurd h0.1 (hne d (by rw [h1]; simp))
    subst hc
    have hp0 : p = [] := by
      have := congrArg List.length hp
      rw [List.length_append] at this
      exact List.length_eq_zero_iff.1 (by simp at this ⊢; exact this)
    subst hp0
    exact ⟨[], post, by simpa using h2.symm, rfl⟩

theorem hasSeg_below {ss t : List Str} {p s : Str} (h : HasSeg t p s) :
    HasSeg (ss ++ t) (flat ss ++ p) s := by
  obtain ⟨pre, post, rfl, rfl⟩ := h
  exact ⟨ss ++ pre, post, by simp, by simp [flat_append]⟩

/-- Clashes below a common prefix. -/
theorem clash_under {ss a b : List Str} (hne : ∀ x ∈ ss, x ≠ []) :
    Clash (ss ++ a) (ss ++ b) ↔ Clash a b := by
  constructor
  · rintro ⟨p, x, h1, h2, h3, h4⟩
    by_cases hl : p.length < (flat ss).length
    · exact absurd (hasSeg_append (hasSeg_left h1 hl)) h4
    · rw [flat_append] at h2 h3
      have : flat ss <+: p := List.prefix_of_prefix_length_le (List.prefix_append _ _) h2 (by omega)
      obtain ⟨q, rfl⟩ := this
      refine ⟨q, x, hasSeg_right hne h1, (List.prefix_append_right_inj _).1 h2, fun h => h3 (by rw [h]),
        fun h => h4 (hasSeg_below h)⟩
  · rintro ⟨p, x, h1, h2, h3, h4⟩
    refine ⟨flat ss ++ p, x, hasSeg_below h1, ?_, ?_, fun h => h4 (hasSeg_right hne h)⟩
    · rw [flat_append]; exact (List.prefix_append_right_inj _).2 h2
    · rw [flat_append]; intro h; exact h3 (List.append_cancel_left h)

/-- Below a free place there is nothing. -/
theorem free_noClash {L : Log M H} {ss t : List Str} (hf : Free L (flat ss)) (hn : NoClash L ss) :
    NoClash L (ss ++ t) := by
  intro e he
  obtain ⟨n1, n2⟩ := hn e he
  have key : ∀ p : Str, flat ss <+: p → p <+: flat e.segs → p = flat e.segs := by
    intro p h1 h2
    have := hf.2 e he (h1.trans h2)
    exact List.IsPrefix.eq_of_length_le h2 (by rw [this]; exact h1.length_le)
  refine ⟨?_, ?_⟩
  · rintro ⟨p, x, h1, h2, h3, h4⟩
    by_cases hl : p.length < (flat ss).length
    · refine n1 ⟨p, x, h1, ?_, ?_, fun h => h4 (hasSeg_append h)⟩
      · rw [flat_append] at h2
        exact List.prefix_of_prefix_length_le h2 (List.prefix_append _ _) (by omega)
      · intro h; rw [h] at hl; omega
    · rw [flat_append] at h2
      have h5 : flat ss <+: p := List.prefix_of_prefix_length_le (List.prefix_append _ _) h2 (by omega)
      have h6 := key p h5 ((List.prefix_append _ _).trans h1.prefix)
      have := h1.prefix.length_le
      rw [← h6] at this; simp at this; omega
  · rintro ⟨p, x, h1, h2, h3, h4⟩
    by_cases hl : p.length < (flat ss).length
    · exact n2 ⟨p, x, hasSeg_left h1 hl, h2, h3, h4⟩
    · have h5 : flat ss <+: p := by
        have := h1.prefix
        rw [flat_append] at this
        exact List.prefix_of_prefix_length_le (List.prefix_append _ _)
          ((List.prefix_append _ _).trans this) (by omega)
      exact h3 (key p h5 h2)

theorem starsOK_append {ss t : List Str} (h : NoStar ss) (hs : StarsOK ss) :
    StarsOK (ss ++ t) ↔ StarsOK t := by
  induction ss with
  | nil => simp
  | cons a ss ih =>
    rw [starsOK_cons] at hs
    rw [List.cons_append, starsOK_cons, ih (fun hx => h (by simp [hx])) hs.2]
    refine ⟨fun h => h.2, fun h' => ⟨fun ha => ?_, h'⟩⟩
    exact absurd (by rw [(hs.1 ha).1]; simp) h

theorem mwsAt_free {L : Log M H} {F r : Str} (h : Free L F) : mwsAt L (F ++ r) = [] := by
  rw [List.eq_nil_iff_forall_not_mem]
  intro m hm
  obtain ⟨e, he, hq, hw⟩ := mem_mwsAt.1 hm
  have := free_hasEntry (r := r) h
  rw [← Bool.not_eq_true, hasEntry_iff] at this
  exact this ⟨e, he, hq, by rw [hw]; simp⟩

/-! ### Logs that differ by redundant mount points -/

/-- `L'` has the entries of `L` and possibly mount points on the way to entries of `L`. -/
structure Sim (L L' : Log M H) : Prop where
  sub : ∀ e ∈ L, e ∈ L'
  back : ∀ e ∈ L', e ∈ L ∨ (e.what = .nothing ∧ ∃ e' ∈ L, e.segs <+: e'.segs)
  mws : ∀ q, mwsAt L q = mwsAt L' q
  routes : ∀ q m, routeAt L q m = routeAt L' q m

theorem Sim.refl (L : Log M H) : Sim L L :=
  ⟨fun _ h => h, fun _ h => Or.inl h, fun _ => rfl, fun _ _ => rfl⟩

theorem Sim.append {L L' : Log M H} (h : Sim L L') (X : Log M H) : Sim (L ++ X) (L' ++ X) := by
  refine ⟨fun e he => ?_, fun e he => ?_, fun q => ?_, fun q m => ?_⟩
  · rcases List.mem_append.1 he with he | he
    · exact List.mem_append_left _ (h.sub e he)
    · exact List.mem_append_right _ he
  · rcases List.mem_append.1 he with he | he
    · rcases h.back e he with h1 | ⟨h1, e', h2, h3⟩
      · exact Or.inl (List.mem_append_left _ h1)
      · exact Or.inr ⟨h1, e', List.mem_append_left _ h2, h3⟩
    · exact Or.inl (List.mem_append_right _ he)
  · rw [mwsAt_append, mwsAt_append, h.mws]
  · rw [routeAt_append, routeAt_append, h.routes]

theorem Sim.hasEntry {L L' : Log M H} (h : Sim L L') (q : Str) : hasEntry L q = hasEntry L' q := by
  rw [Bool.eq_iff_iff, hasEntry_iff, hasEntry_iff]
  constructor
  · rintro ⟨e, he, h1, h2⟩; exact ⟨e, h.sub e he, h1, h2⟩
  · rintro ⟨e, he, h1, h2⟩
    rcases h.back e he with h3 | h3
    · exact ⟨e, h3, h1, h2⟩
    · exact absurd h3.1 h2

theorem Sim.hasSeg {L L' : Log M H} (h : Sim L L') (p s : Str) :
    (∃ e ∈ L, HasSeg e.segs p s) ↔ ∃ e ∈ L', HasSeg e.segs p s := by
  constructor
  · rintro ⟨e, he, h1⟩; exact ⟨e, h.sub e he, h1⟩
  · rintro ⟨e, he, h1⟩
    rcases h.back e he with h3 | ⟨_, e', he', t, ht⟩
    · exact ⟨e, h3, h1⟩
    · exact ⟨e', he', by rw [← ht]; exact hasSeg_append h1⟩

theorem Sim.known {L L' : Log M H} (h : Sim L L') (q : Str) : known L q = known L' q := by
  have key : ∀ e ∈ L', ∀ c u, flat e.segs = q ++ c :: u → ∃ e' ∈ L, ∃ u', flat e'.segs = q ++ c :: u' := by
    intro e he c u hq
    rcases h.back e he with h3 | ⟨_, e', he', t, ht⟩
    · exact ⟨e, h3, u, hq⟩
    · exact ⟨e', he', u ++ flat t, by rw [← ht, flat_append, hq]; simp⟩
  rw [Bool.eq_iff_iff, known_iff, known_iff]
  constructor
  · rintro (⟨e, he, h1⟩ | ⟨e, he, e', he', a, b, u, v, h1, h2, h3⟩)
    · exact Or.inl ⟨e, h.sub e he, h1⟩
    · exact Or.inr ⟨e, h.sub e he, e', h.sub e' he', a, b, u, v, h1, h2, h3⟩
  · rintro (⟨e, he, h1⟩ | ⟨e, he, e', he', a, b, u, v, h1, h2, h3⟩)
    · rcases h.back e he with h3 | ⟨_, e', he', t, ht⟩
      · exact Or.inl ⟨e, h3, h1⟩
      · obtain ⟨pre, post, h4, h5⟩ := h1
        exact Or.inl ⟨e', he', pre, post ++ t, by rw [← ht, h4]; simp, h5⟩
    · obtain ⟨x, hx, u', hu⟩ := key e he a u h1
      obtain ⟨y, hy, v', hv⟩ := key e' he' b v h2
      exact Or.inr ⟨x, hx, y, hy, a, b, u', v', hu, hv, h3⟩

theorem Sim.noClash {L L' : Log M H} (h : Sim L L') (ss : List Str) : NoClash L ss ↔ NoClash L' ss := by
  constructor
  · intro hn e he
    rcases h.back e he with h3 | ⟨_, e', he', t, ht⟩
    · exact hn e h3
    · obtain ⟨n1, n2⟩ := hn e' he'
      rw [← ht] at n1 n2
      refine ⟨?_, ?_⟩
      · rintro ⟨p, x, h1, h2, h3, h4⟩
        exact n1 ⟨p, x, hasSeg_append h1, h2, h3, h4⟩
      · rintro ⟨p, x, h1, h2, h3, h4⟩
        have hl : p.length < (flat e.segs).length := by
          have := h2.length_le
          rcases Nat.lt_or_ge p.length (flat e.segs).length with h | h
          · exact h
          · exact absurd (h2.eq_of_length_le h) h3
        refine n2 ⟨p, x, h1, ?_, ?_, fun hx => h4 (hasSeg_left hx hl)⟩
        · rw [flat_append]; exact h2.trans (List.prefix_append _ _)
        · intro hp; rw [hp, flat_append] at hl; simp at hl; omega
  · intro hn e he; exact hn e (h.sub e he)

theorem Sim.free {L L' : Log M H} (h : Sim L L') (F : Str) : Free L F ↔ Free L' F := by
  rw [Free, Free, h.hasEntry]
  refine and_congr_right fun _ => ⟨fun hf e he hp => ?_, fun hf e he hp => hf e (h.sub e he) hp⟩
  rcases h.back e he with h3 | ⟨_, e', he', t, ht⟩
  · exact hf e h3 hp
  · have h1 : flat e.segs <+: flat e'.segs := by rw [← ht, flat_append]; exact List.prefix_append _ _
    have h2 := hf e' he' (hp.trans h1)
    rw [h2] at h1
    exact h1.eq_of_length_le hp.length_le

theorem Sim.route {L L' : Log M H} (h : Sim L L') (m : Method) (ss : List Str) :
    RouteOK L m ss ↔ RouteOK L' m ss := by
  rw [RouteOK, RouteOK, h.noClash, h.routes]

theorem Sim.reg {L L' : Log M H} (h : Sim L L') (c : Reg M H) :
    (RegOK c L ↔ RegOK c L') ∧ Sim (logReg c L) (logReg c L') := by
  have hm : ∀ pre S, Sim (mountLog pre L S) (mountLog pre L' S) := by
    intro pre S
    simp only [mountLog]
    split
    · exact Sim.refl _
    · exact h.append _
  cases c with
  | useServiceTo p m =>
    refine ⟨by simp only [RegOK, h.noClash], ?_⟩
    simp only [logReg]
    split
    · exact h
    · exact h.append _
  | useService m => exact ⟨by simp only [RegOK], by simp only [logReg]; exact h.append _⟩
  | useRouter p sub => exact ⟨by simp only [RegOK, h.noClash, h.free], by simp only [logReg]; exact hm _ _⟩
  | scope p sub => exact ⟨by simp only [RegOK, h.noClash, h.free], by simp only [logReg]; exact hm _ _⟩
  | _ => exact ⟨by simp only [RegOK, h.route], by simp only [logReg]; exact h.append _⟩

theorem Sim.regs {L L' : Log M H} (h : Sim L L') (cs : List (Reg M H)) :
    (RegsOK cs L ↔ RegsOK cs L') ∧ Sim (logRegs cs L) (logRegs cs L') := by
  induction cs generalizing L L' with
  | nil => simpa [RegsOK, logRegs] using h
  | cons c cs ih =>
    obtain ⟨h1, h2⟩ := h.reg c
    obtain ⟨h3, h4⟩ := ih h2
    exact ⟨by rw [RegsOK, RegsOK, h1, h3], by rw [logRegs, logRegs]; exact h4⟩

theorem Sim.sameAt {r r' : Router M H} {L L' : Log M H} (hs : Sim L L') (h : Rep r.routes.head L)
    (h' : Rep r'.routes.head L') (hg : Good L) (hg' : Good L') (path : Str) : SameAt r r' path := by
  refine h.sameAt h' (lookup_congr (fun p => opt_eq fun x => ?_) hs.known hs.hasEntry path)
    (fun q _ _ => ⟨fun m => hs.routes q m, chain_congr hs.mws q⟩)
  rw [hg.paramAt_iff, hg'.paramAt_iff]
  exact hs.hasSeg p _

/-! ### Looking up below the mount point -/

section Below
variable {L S : Log M H} {ss : List Str}

theorem below_mem (hf : Free L (flat ss)) {e : Entry M H}
    (he : e ∈ L ++ ⟨ss, .nothing⟩ :: S.map (Entry.under ss)) {p : Str} (hp : flat ss ++ p <+: flat e.segs)
    (h0 : p ≠ []) : ∃ e' ∈ S, e = e'.under ss := by
  have hlen : (flat ss).length < (flat e.segs).length := by
    have := hp.length_le
    have := List.length_pos_iff.2 h0
    simp at *; omega
  rcases List.mem_append.1 he with he | he
  · have := hf.2 e he ((List.prefix_append _ _).trans hp)
    rw [this] at hlen; omega
  · rcases List.mem_cons.1 he with rfl | he
    · simp at hlen
    · obtain ⟨e', he', rfl⟩ := List.mem_map.1 he
      exact ⟨e', he', rfl⟩

theorem below_under {e : Entry M H} : e ∈ S →
    e.under ss ∈ L ++ ⟨ss, .nothing⟩ :: S.map (Entry.under ss) :=
  fun h => List.mem_append_right _ (List.mem_cons_of_mem _ (List.mem_map_of_mem h))

theorem below_hasEntry (hf : Free L (flat ss)) (q : Str) :
    hasEntry (L ++ ⟨ss, .nothing⟩ :: S.map (Entry.under ss)) (flat ss ++ q) = hasEntry S q := by
  rw [hasEntry_append, free_hasEntry hf, Bool.false_or]
  rw [show (⟨ss, .nothing⟩ :: S.map (Entry.under ss) : Log M H) = [⟨ss, .nothing⟩] ++ S.map (Entry.under ss)
    from rfl, hasEntry_append, hasEntry_under]
  simp [hasEntry]

theorem below_routeAt (hf : Free L (flat ss)) (q : Str) (m : Method) :
    routeAt (L ++ ⟨ss, .nothing⟩ :: S.map (Entry.under ss)) (flat ss ++ q) m = routeAt S q m := by
  rw [routeAt_append, free_routeAt hf, Option.or_none]
  rw [show (⟨ss, .nothing⟩ :: S.map (Entry.under ss) : Log M H) = [⟨ss, .nothing⟩] ++ S.map (Entry.under ss)
    from rfl, routeAt_append, routeAt_under, routeAt_one]
  simp

theorem below_mwsAt (hf : Free L (flat ss)) (q : Str) :
    mwsAt (L ++ ⟨ss, .nothing⟩ :: S.map (Entry.under ss)) (flat ss ++ q) = mwsAt S q := by
  rw [mwsAt_append, mwsAt_free hf, List.nil_append]
  rw [show (⟨ss, .nothing⟩ :: S.map (Entry.under ss) : Log M H) = [⟨ss, .nothing⟩] ++ S.map (Entry.under ss)
    from rfl, mwsAt_append, mwsAt_under]
  simp [mwsAt]

theorem below_known (hf : Free L (flat ss)) (hne : ∀ x ∈ ss, x ≠ []) {q : Str} (h0 : q ≠ []) :
    known (L ++ ⟨ss, .nothing⟩ :: S.map (Entry.under ss)) (flat ss ++ q) = known S q := by
  rw [Bool.eq_iff_iff, known_iff, known_iff]
  constructor
  · rintro (⟨e, he, h1⟩ | ⟨e, he, e', he', a, b, u, v, h1, h2, h3⟩)
    · obtain ⟨x, hx, rfl⟩ := below_mem hf he h1.prefix h0
      obtain ⟨pre, post, h4, h5⟩ := h1
      rw [Entry.under] at h4
      rcases List.append_eq_append_iff.1 h4 with ⟨c, h6, h7⟩ | ⟨c, h6, h7⟩
      · rw [h6, flat_append, List.append_cancel_left_eq] at h5
        exact Or.inl ⟨x, hx, c, post, h7, h5⟩
      · rw [h6, flat_append, List.append_assoc] at h5
        have h8 := congrArg List.length h5
        have h9 := List.length_pos_iff.2 h0
        rw [List.length_append, List.length_append] at h8
        omega
    · obtain ⟨x, hx, rfl⟩ := below_mem hf he (by rw [h1]; simp) h0
      obtain ⟨y, hy, rfl⟩ := below_mem hf he' (by rw [h2]; simp) h0
      rw [Entry.under, flat_append, List.append_assoc, List.append_cancel_left_eq] at h1 h2
      exact Or.inr ⟨x, hx, y, hy, a, b, u, v, h1, h2, h3⟩
  · rintro (⟨e, he, pre, post, h1, h2⟩ | ⟨e, he, e', he', a, b, u, v, h1, h2, h3⟩)
    · exact Or.inl ⟨_, below_under he, ss ++ pre, post, by rw [Entry.under, h1]; simp,
        by rw [flat_append, h2]⟩
    · exact Or.inr ⟨_, below_under he, _, below_under he', a, b, u, v,
        by rw [Entry.under, flat_append, h1]; simp, by rw [Entry.under, flat_append, h2]; simp, h3⟩

theorem below_paramAt (hf : Free L (flat ss)) (hne : ∀ x ∈ ss, x ≠ []) (hS : Good S)
    (hg : Good (L ++ ⟨ss, .nothing⟩ :: S.map (Entry.under ss))) (q : Str) :
    paramAt (L ++ ⟨ss, .nothing⟩ :: S.map (Entry.under ss)) (flat ss ++ q) = paramAt S q := by
  refine opt_eq fun x => ?_
  rw [hg.paramAt_iff, hS.paramAt_iff]
  constructor
  · rintro ⟨e, he, h1⟩
    have := h1.prefix
    rw [List.append_assoc] at this
    obtain ⟨y, hy, rfl⟩ := below_mem hf he this (by simp)
    exact ⟨y, hy, hasSeg_right hne h1⟩
  · rintro ⟨e, he, h1⟩
    exact ⟨_, below_under he, hasSeg_below h1⟩

theorem below_find (hf : Free L (flat ss)) (hne : ∀ x ∈ ss, x ≠ []) (hS : Good S)
    (hg : Good (L ++ ⟨ss, .nothing⟩ :: S.map (Entry.under ss))) (req : List Str)
    (hreq : ∀ x ∈ req, x ≠ []) (p : Str) :
    find (L ++ ⟨ss, .nothing⟩ :: S.map (Entry.under ss)) (flat ss ++ p) req =
      (find S p req).map (fun x => (flat ss ++ x.1, x.2)) := by
  induction req generalizing p with
  | nil => rfl
  | cons s rest ih =>
    have ih := ih (fun x hx => hreq x (by simp [hx]))
    have hs : s ≠ [] := hreq s (by simp)
    simp only [find, below_paramAt hf hne hS hg]
    cases hp : paramAt S p with
    | some x =>
      simp only [List.append_assoc, below_hasEntry hf, ih]
      split
      · split <;> simp
      · cases find S (p ++ ':' :: x) rest <;> simp
    | none =>
      have e1 : known (L ++ ⟨ss, .nothing⟩ :: S.map (Entry.under ss)) (flat ss ++ (p ++ s)) =
          known S (p ++ s) := below_known hf hne (by simp [hs])
      have e2 : known (L ++ ⟨ss, .nothing⟩ :: S.map (Entry.under ss)) (flat ss ++ (p ++ ['*'])) =
          known S (p ++ ['*']) := below_known hf hne (by simp)
      simp only [List.append_assoc, below_hasEntry hf, ih, e1, e2]
      have fin : ∀ (a a' : Option (Str × List (Str × Str))) (k : Bool),
          a' = a.map (fun x => (flat ss ++ x.1, x.2)) →
          (match a' with
            | some r => some r
            | none => if k = true then some (flat ss ++ (p ++ ['*']), []) else none) =
          (match a with
            | some r => some r
            | none => if k = true then some (p ++ ['*'], []) else none : Option (Str × List (Str × Str))).map
              (fun x => (flat ss ++ x.1, x.2)) := by
        rintro a a' k rfl
        cases a <;> cases k <;> simp
      refine fin _ _ _ ?_
      by_cases hk : s.head? ≠ some '*' ∧ known S (p ++ s) = true
      · rw [if_pos hk, if_pos hk]
        by_cases hr : rest.isEmpty = true
        · rw [if_pos hr, if_pos hr]
          by_cases h1 : hasEntry S (p ++ s) = true
          · rw [if_pos h1, if_pos h1]; rfl
          · rw [if_neg h1, if_neg h1]
            by_cases h2 : hasEntry S (p ++ (s ++ ['*'])) = true
            · rw [if_pos h2, if_pos h2]; rfl
            · rw [if_neg h2, if_neg h2]; rfl
        · rw [if_neg hr, if_neg hr]
      · rw [if_neg hk, if_neg hk]; rfl

theorem below_upTo (hf : Free L (flat ss)) (p r : Str) :
    upTo (L ++ ⟨ss, .nothing⟩ :: S.map (Entry.under ss)) (flat ss ++ p) r = upTo S p r := by
  induction r generalizing p with
  | nil => rfl
  | cons c r ih => simp only [upTo, List.append_assoc, ih, below_mwsAt hf]

end Below

end Obsidian.Spec
