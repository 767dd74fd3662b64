import Verif.Props.Affected
import Verif.Props.Start

/-
C51 and C17: what further registrations can change.
-/
namespace Obsidian.Props
open Obsidian Spec
variable {M H : Type}

/-- A path that a request follows, in place of a wildcard that catches it, begins with what is before the
wildcard. -/
theorem follows_prefix {L : Log M H} (hg : Tidy L) {e e' : Entry M H} (he : e ∈ L) (he' : e' ∈ L) {f all : Bool}
    (hf : f = false) {req : List Str} {p q : Str} {b b' : List (Str × Str)} (hne : ∀ x ∈ req, x ≠ [])
    (h : Follows (IsStop L) e.segs f p req b) (hq : flat e.segs = q ++ ['*'])
    (h' : Follows (IsStop L) e'.segs all p req b')
    (hl : all = false → (flat e.segs).length ≤ (flat e'.segs).length) : q <+: flat e'.segs := by
  induction h generalizing b' with
  | done => cases hf
  | @text f p x rest b h1 h2 h3 h4 ih =>
    subst hf
    have n := hg.next he (Follows.text h1 h2 h3 h4).prefix ((Follows.text h1 h2 h3 h4).proper hne (by simp))
    have n' := hg.next he' h'.prefix (h'.proper hne (by simp))
    have hneR : ∀ s ∈ rest, s ≠ [] := fun x hx => hne x (by simp [hx])
    have hxl : 0 < x.length := List.length_pos_iff.2 (hne x (by simp))
    have hr0 : rest ≠ [] := by rintro rfl; exact absurd h4.nil.1 (by simp)
    cases h' with
    | text g1 g2 g3 g4 => exact ih rfl hneR g4
    | param g1 g2 => exact absurd ((n _).2 ((n' _).1 g1)) (h1 _)
    | wild g1 =>
      have hl := hl rfl
      have h5 := h4.prefix.length_le
      have h6 : (p ++ x).length ≠ (flat e.segs).length := fun h => h4.proper hneR hr0 (h4.prefix.eq_of_length h)
      rw [g1] at hl
      simp only [List.length_append, List.length_cons, List.length_nil] at hl h5 h6
      omega
    | bare => exact absurd rfl hr0
  | @param f p y v rest b h1 h2 ih =>
    subst hf
    have n := hg.next he (Follows.param (v := v) h1 h2).prefix ((Follows.param (v := v) h1 h2).proper hne (by simp))
    have n' := hg.next he' h'.prefix (h'.proper hne (by simp))
    have hneR : ∀ s ∈ rest, s ≠ [] := fun x hx => hne x (by simp [hx])
    have hseg' := (n' y).2 ((n y).1 h1)
    cases h' with
    | text g1 g2 g3 g4 => exact absurd hseg' (g1 y)
    | param g1 g2 =>
      have := (n' _).1 g1
      rw [(n _).1 h1] at this
      injection this with this; subst this
      exact ih rfl hneR g2
    | wild g1 =>
      obtain ⟨a, c, k1, k2⟩ := hseg'
      rw [k1, flat_append, k2, flat_cons] at g1
      simp at g1
    | bare g1 _ _ _ => exact absurd hseg' (g1 y)
  | @wild p x rest h1 =>
    rw [h1] at hq
    rw [← List.append_cancel_right hq]
    exact h'.prefix
  | @bare p x h1 h2 h3 h4 =>
    have n := hg.next he (Follows.bare (stop := IsStop L) h1 h2 h3 h4).prefix
      ((Follows.bare (stop := IsStop L) h1 h2 h3 h4).proper hne (by simp))
    have n' := hg.next he' h'.prefix (h'.proper hne (by simp))
    have hxl : 0 < x.length := List.length_pos_iff.2 (hne x (by simp))
    have hqe : p ++ x = q := List.append_cancel_right (h4.symm.trans hq)
    cases h' with
    | text g1 g2 g3 g4 => rw [← hqe]; exact g4.prefix
    | param g1 g2 => exact absurd ((n _).2 ((n' _).1 g1)) (h1 _)
    | wild g1 =>
      have hl := hl rfl
      rw [h4, g1] at hl
      simp only [List.length_append, List.length_cons, List.length_nil] at hl
      omega
    | bare g1 g2 g3 g4 => rw [← hqe, g4]; exact List.prefix_append _ _

/-- A path is not followed both to its end and by its wildcard. -/
theorem follows_one_way {L : Log M H} (hg : Tidy L) {e e' : Entry M H} (he : e ∈ L) (he' : e' ∈ L) (hfl : flat e'.segs = flat e.segs)
    {f : Bool} (hf : f = true) {req : List Str} {p : Str} {b b' : List (Str × Str)} (hne : ∀ x ∈ req, x ≠ [])
    (h : Follows (IsStop L) e.segs f p req b) (h' : Follows (IsStop L) e'.segs false p req b') : False := by
  induction h generalizing b' with
  | done => exact absurd h'.nil.1 (by simp)
  | @text f p x rest b h1 h2 h3 h4 ih =>
    subst hf
    have n := hg.next he (Follows.text h1 h2 h3 h4).prefix ((Follows.text h1 h2 h3 h4).proper hne (by simp))
    have n' := hg.next he' h'.prefix (h'.proper hne (by simp))
    have hneR : ∀ s ∈ rest, s ≠ [] := fun x hx => hne x (by simp [hx])
    cases h' with
    | text g1 g2 g3 g4 => exact ih rfl hneR g4
    | param g1 g2 => exact absurd ((n _).2 ((n' _).1 g1)) (h1 _)
    | wild g1 =>
      have h5 := h4.prefix
      rw [← hfl, g1, List.prefix_append_right_inj] at h5
      cases x with
      | nil => exact absurd rfl (hne [] (by simp))
      | cons c x =>
        rw [List.cons_prefix_cons] at h5
        exact h2 (by rw [h5.1]; rfl)
    | bare g1 g2 g3 g4 =>
      have h5 := h4.nil.2.1
      rw [← hfl, g4] at h5
      simp at h5
  | @param f p y v rest b h1 h2 ih =>
    subst hf
    have n := hg.next he (Follows.param (v := v) h1 h2).prefix ((Follows.param (v := v) h1 h2).proper hne (by simp))
    have n' := hg.next he' h'.prefix (h'.proper hne (by simp))
    have hneR : ∀ s ∈ rest, s ≠ [] := fun x hx => hne x (by simp [hx])
    have hseg' := (n' y).2 ((n y).1 h1)
    cases h' with
    | text g1 g2 g3 g4 => exact absurd hseg' (g1 y)
    | param g1 g2 =>
      have := (n' _).1 g1
      rw [(n _).1 h1] at this
      injection this with this; subst this
      exact ih rfl hneR g2
    | wild g1 =>
      obtain ⟨a, c, k1, k2⟩ := hseg'
      rw [k1, flat_append, k2, flat_cons] at g1
      simp at g1
    | bare g1 _ _ _ => exact absurd hseg' (g1 y)
  | wild => cases hf
  | bare => cases hf

theorem follows_from {stop stop' : Str → Prop} {ss : List Str} {q : Str} (h : ∀ z, q <+: z → stop z → stop' z) {all : Bool} {p : Str}
    {req : List Str} {b : List (Str × Str)} (hp : q <+: p) (hf : Follows stop ss all p req b) : Follows stop' ss all p req b := by
  induction hf with
  | done => exact .done
  | @text _ p x _ _ h1 h2 h3 _ ih =>
    have hp' := hp.trans (List.prefix_append p x)
    exact .text h1 h2 (h _ hp' h3) (ih hp')
  | param h1 _ ih => exact .param h1 (ih (hp.trans (List.prefix_append _ _)))
  | wild h1 => exact .wild h1
  | bare h1 h2 h3 h4 => exact .bare h1 h2 (h _ (hp.trans (List.prefix_append _ _)) h3) h4

/-- What is followed in the larger table was followed before, if nothing was added below the prefix of the
wildcard. -/
theorem follows_back {L L' : Log M H} (hg : Tidy L') {e e' : Entry M H} (he : e ∈ L') (he' : e' ∈ L') {f all : Bool}
    (hf : f = false) {req : List Str} {p q : Str} {b b' : List (Str × Str)} (hne : ∀ x ∈ req, x ≠ [])
    (h : Follows (IsStop L) e.segs f p req b) (hq : flat e.segs = q ++ ['*'])
    (h' : Follows (IsStop L') e'.segs all p req b')
    (hst : ∀ z, q <+: z → IsStop L' z → IsStop L z) : Follows (IsStop L) e'.segs all p req b' := by
  induction h generalizing b' with
  | done => cases hf
  | @text f p x rest b h1 h2 h3 h4 ih =>
    subst hf
    have n := hg.next he (Follows.text h1 h2 h3 h4).prefix ((Follows.text h1 h2 h3 h4).proper hne (by simp))
    have n' := hg.next he' h'.prefix (h'.proper hne (by simp))
    have hneR : ∀ s ∈ rest, s ≠ [] := fun x hx => hne x (by simp [hx])
    cases h' with
    | text g1 g2 g3 g4 => exact .text g1 g2 h3 (ih rfl hneR g4)
    | param g1 g2 => exact absurd ((n _).2 ((n' _).1 g1)) (h1 _)
    | wild g1 => exact .wild g1
    | bare g1 g2 g3 g4 => exact .bare g1 g2 h3 g4
  | @param f p y v rest b h1 h2 ih =>
    subst hf
    have n := hg.next he (Follows.param (v := v) h1 h2).prefix ((Follows.param (v := v) h1 h2).proper hne (by simp))
    have n' := hg.next he' h'.prefix (h'.proper hne (by simp))
    have hneR : ∀ s ∈ rest, s ≠ [] := fun x hx => hne x (by simp [hx])
    have hseg' := (n' y).2 ((n y).1 h1)
    cases h' with
    | text g1 g2 g3 g4 => exact absurd hseg' (g1 y)
    | param g1 g2 =>
      have := (n' _).1 g1
      rw [(n _).1 h1] at this
      injection this with this; subst this
      exact .param g1 (ih rfl hneR g2)
    | wild g1 => exact .wild g1
    | bare g1 _ _ _ => exact absurd hseg' (g1 y)
  | @wild p x rest h1 =>
    rw [h1] at hq
    exact follows_from hst (List.append_cancel_right hq ▸ List.prefix_rfl) h'
  | @bare p x h1 h2 h3 h4 =>
    cases h' with
    | text g1 g2 g3 g4 =>
      refine .text g1 g2 h3 ?_
      have hqe : p ++ x = q := List.append_cancel_right (h4.symm.trans hq)
      exact follows_from hst (hqe ▸ List.prefix_rfl) g4
    | param g1 g2 =>
      have n := hg.next he (Follows.bare (stop := IsStop L) h1 h2 h3 h4).prefix
        ((Follows.bare (stop := IsStop L) h1 h2 h3 h4).proper hne (by simp))
      have n' := hg.next he' (Follows.param (v := x) g1 g2).prefix ((Follows.param (v := x) g1 g2).proper hne (by simp))
      exact absurd ((n _).2 ((n' _).1 g1)) (h1 _)
    | wild g1 => exact .wild g1
    | bare g1 g2 g3 g4 => exact .bare g1 g2 h3 g4

/-- Who is caught is caught by a wildcard. -/
theorem follows_star {L : Log M H} (hg : Tidy L) {e : Entry M H} (he : e ∈ L) {stop : Str → Prop} {p : Str} {req : List Str}
    {b : List (Str × Str)} (h : Follows stop e.segs false p req b) : ∃ pre, e.segs = pre ++ [['*']] := by
  have hfl : ∃ q, flat e.segs = q ++ ['*'] := by
    generalize hf : false = f at h
    induction h with
    | done => cases hf
    | text _ _ _ _ ih => exact ih hf
    | param _ _ ih => exact ih hf
    | wild h1 => exact ⟨_, h1⟩
    | bare _ _ _ h4 => exact ⟨_, h4⟩
  obtain ⟨q, hq⟩ := hfl
  have hc := hg.clean e he
  rcases List.eq_nil_or_concat e.segs with h0 | ⟨pre, x, h0⟩
  · rw [h0] at hq; simp [flat] at hq
  · rw [List.concat_eq_append] at h0
    refine ⟨pre, ?_⟩
    have hx : KeyOK x := hc x (by rw [h0]; simp)
    have hstar : '*' ∈ x := by
      rw [h0, flat_append, flat_cons] at hq
      rcases List.eq_nil_or_concat x with hx0 | ⟨y, c, hx0⟩
      · exact absurd hx0 hx.ne_nil
      · rw [List.concat_eq_append] at hx0
        subst hx0
        have : flat pre ++ (y ++ [c] ++ flat []) = (flat pre ++ y) ++ [c] := by simp [flat]
        rw [this] at hq
        have := (List.append_inj' hq rfl).2
        injection this with this
        rw [this]; simp
    rcases hx with ⟨y, rfl, _, h2⟩ | rfl | ⟨_, _, h2⟩
    · rcases List.mem_cons.1 hstar with h | h
      · exact absurd h (by decide)
      · exact absurd h h2
    · exact h0
    · exact absurd hstar h2

/-- Who follows a registered path finds something. -/
theorem follows_found {L : Log M H} (hg : Tidy L) (hsm : NoStarMount L) {e : Entry M H} (he : e ∈ L) (hw : e.what ≠ .nothing)
    {path : Str} {all : Bool} {b : List (Str × Str)} (h : Follows (IsStop L) e.segs all [] (segments path) b) :
    ∃ q b', lookup L path = some (q, b') := by
  have hne := segments_ne path
  have hent : hasEntry L (flat e.segs) = true := hasEntry_iff.2 ⟨e, he, rfl, hw⟩
  rw [lookup]
  by_cases h0 : segments path = []
  · rw [h0] at h
    obtain ⟨_, h1, h2⟩ := h.nil
    rw [← h1] at hent
    simp [h0, hent]
  · simp only [h0, if_false]
    cases hr : find L [] (segments path) with
    | none => exact absurd h (hg.find_none hr hne h0 he hw)
    | some r =>
      obtain ⟨q', b'⟩ := r
      simp [hg.find_entry hsm hr]

/-- Who is led to a path by a table, and where a larger table leads them. -/
theorem lookup_further {L X : Log M H} (hg : Tidy L) (hg' : Tidy X) (hsub : ∀ e ∈ L, e ∈ X) (hsm : NoStarMount L)
    (hsm' : NoStarMount X) {path : Str} {e : Entry M H} (he : e ∈ L) (hw' : e.what ≠ .nothing) {b : List (Str × Str)}
    (hl0 : lookup L path = some (flat e.segs, b)) :
    ∃ e' ∈ X, e'.what ≠ .nothing ∧ ∃ b', lookup X path = some (flat e'.segs, b') ∧
      ((flat e'.segs = flat e.segs ∧ b' = b) ∨ ∃ pre, e.segs = pre ++ [['*']] ∧
        (∃ e2 ∈ X, e2 ∉ L ∧ flat pre <+: flat e2.segs) ∧ flat pre <+: flat e'.segs ∧ flat e'.segs ≠ flat pre ++ ['*']) := by
  have up : ∀ {e : Entry M H} {all : Bool} {b : List (Str × Str)},
      Follows (IsStop L) e.segs all [] (segments path) b → Follows (IsStop X) e.segs all [] (segments path) b :=
    follows_mono (fun q _ => isStop_mono hsub)
  rcases (hg.lookup_leads hsm he hw').1 hl0 with hl | ⟨hl, hbest⟩
  · exact ⟨e, hsub e he, hw', b, (hg'.lookup_leads hsm' (hsub e he) hw').2 (.inl (up hl)), .inl ⟨rfl, rfl⟩⟩
  · obtain ⟨q, b', hlk⟩ := follows_found hg' hsm' (hsub e he) hw' (up hl)
    obtain ⟨e', he', rfl, hw2⟩ := hasEntry_iff.1 (lookup_entry hlk)
    have hl' := (hg'.lookup_leads hsm' he' hw2).1 hlk
    refine ⟨e', he', hw2, b', hlk, ?_⟩
    by_cases hfl : flat e'.segs = flat e.segs
    · left
      refine ⟨hfl, ?_⟩
      rcases hl' with g | ⟨g, _⟩
      · exact (follows_one_way hg' he' (hsub e he) hfl.symm rfl (segments_ne path) g (up hl)).elim
      · exact (hg'.follows_unique he' (hsub e he) (segments_ne path) g (up hl) (fun _ => by rw [hfl])).2
    · right
      obtain ⟨pre, hpre⟩ := follows_star hg he hl
      have hfe : flat e.segs = flat pre ++ ['*'] := by rw [hpre, flat_append]; simp [flat]
      have hpe : flat pre <+: flat e'.segs := by
        rcases hl' with g | ⟨g, g'⟩
        · exact follows_prefix hg' (hsub e he) he' rfl (segments_ne path) (up hl) hfe g (by simp)
        · exact follows_prefix hg' (hsub e he) he' rfl (segments_ne path) (up hl) hfe g
            (fun _ => (g' e (hsub e he) hw' b).2 (up hl))
      refine ⟨pre, hpre, ?_, hpe, by rw [← hfe]; exact hfl⟩
      apply Classical.byContradiction
      intro hno
      have old : ∀ e2 ∈ X, flat pre <+: flat e2.segs → e2 ∈ L := fun e2 h2 h3 =>
        Classical.byContradiction fun h4 => hno ⟨e2, h2, h4, h3⟩
      have hst : ∀ z, flat pre <+: z → IsStop X z → IsStop L z := by
        rintro z hz (⟨e2, h2, a, c, h3, h4⟩ | ⟨e2, h2, e3, h3, c, d, u, v, h4, h5, h6⟩)
        · refine .inl ⟨e2, old e2 h2 (hz.trans ?_), a, c, h3, h4⟩
          rw [h3, flat_append, h4]; exact List.prefix_append _ _
        · exact .inr ⟨e2, old e2 h2 (hz.trans ⟨_, h4.symm⟩), e3, old e3 h3 (hz.trans ⟨_, h5.symm⟩), c, d, u, v, h4, h5, h6⟩
      have hin := old e' he' hpe
      rcases hl' with g | ⟨g, g'⟩
      · exact (hbest e' hin hw2 b').1 (follows_back hg' (hsub e he) he' rfl (segments_ne path) hl hfe g hst)
      · have g2 := follows_back hg' (hsub e he) he' rfl (segments_ne path) hl hfe g hst
        exact hfl (hg.follows_unique hin he (segments_ne path) g2 hl
          (fun _ => Nat.le_antisymm ((hbest e' hin hw2 b').2 g2) ((g' e (hsub e he) hw' b).2 (up hl)))).1

/-- **C51, what holds** of every request: one that is found is found after any further registrations (other
than root mounts).  One that is served keeps its handler and its parameters, unless a wildcard serves it and one
of the new paths begins with the characters before the wildcard; and if it does not keep them, it goes to a
path that begins with these characters too, and goes on.  Missing: that this path is one of the new ones,
which is false (`C51_false`). -/
theorem C51_only_wildcards_partial {prog more : List (Reg M H)} (hc : CleanRegs prog) (hc' : CleanRegs (prog ++ more))
    {r r' : Router M H} (hb : build prog = (r, none)) (hb' : build (prog ++ more) = (r', none))
    (hn : NoRootMount more) (hsm : NoStarMount (logOf prog)) (hsm' : NoStarMount (logOf (prog ++ more))) (path : Str) :
    (isFound r path = true → isFound r' path = true) ∧
    ∀ m h, handlerFor r m path = some h →
      (handlerFor r' m path = some h ∧ ∀ x, paramFor r' path x = paramFor r path x) ∨
      ∃ pre, ⟨pre ++ [['*']], .route m h⟩ ∈ logOf prog ∧
        (∃ e ∈ logOf (prog ++ more), e ∉ logOf prog ∧ flat pre <+: flat e.segs) ∧
        ∃ e ∈ logOf (prog ++ more), e.what ≠ .nothing ∧ (∃ b, FlatMatch e.segs (segments path) b) ∧
          flat pre <+: flat e.segs ∧ flat e.segs ≠ flat pre ++ ['*'] ∧
          ∀ m', handlerFor r' m' path = routeAt (logOf (prog ++ more)) (flat e.segs) m' := by
  have hsub : ∀ e ∈ logOf prog, e ∈ logOf (prog ++ more) := by
    intro e he; rw [logOf, logRegs_append]; exact mem_logRegs he hn
  have hr := build_rep hc hb
  have hr' := build_rep hc' hb'
  have hg' := build_good hc' hb'
  refine ⟨fun hf => ?_, fun m h hh => ?_⟩
  · obtain ⟨q, b, hl⟩ := hr.found hf
    obtain ⟨e, he, rfl, hw⟩ := hasEntry_iff.1 (lookup_entry hl)
    obtain ⟨e', _, _, b', hl', _⟩ := lookup_further hr.tidy hr'.tidy hsub hsm hsm' he hw hl
    exact (hr'.obs_some hl').1
  · obtain ⟨q, b, hl, hq⟩ := hr.handler hh
    obtain ⟨e, he, rfl, hw⟩ := routeAt_mem hq
    obtain ⟨e', he', hw', b', hl', hcase⟩ := lookup_further hr.tidy hr'.tidy hsub hsm hsm' he (by rw [hw]; simp) hl
    obtain ⟨_, a2, _, a4⟩ := hr'.obs_some hl'
    rcases hcase with ⟨hfl, rfl⟩ | ⟨pre, hpre, hnew, hpe, hnfl⟩
    · refine .inl ⟨?_, fun x => by rw [a4, (hr.obs_some hl).2.2.2]⟩
      rw [a2, hfl]; exact hg'.uniq e (hsub e he) m h hw
    · exact .inr ⟨pre, by rw [← hpre, ← hw]; exact he, hnew, e', he', hw', ⟨b', hg'.lookup_sound hl' he' rfl⟩, hpe, hnfl, a2⟩

/-- **C17, what holds** of every request: whatever the path at which a middleware is added, who is found is
still found, and who is served keeps handler and parameters, unless a wildcard serves the request and the
path of the middleware begins with the characters before the wildcard.  Missing: these requests, for which the
claim is false. -/
theorem C17_only_wildcards_partial {prog : List (Reg M H)} {P : Str} {mw : M} (hc : CleanRegs prog)
    (hc' : CleanRegs (prog ++ [.useServiceTo P mw])) {r r' : Router M H} (hb : build prog = (r, none))
    (hb' : build (prog ++ [.useServiceTo P mw]) = (r', none)) (hsm : NoStarMount (logOf prog)) (path : Str) :
    (isFound r path = true → isFound r' path = true) ∧
    ∀ m h, handlerFor r m path = some h →
      (handlerFor r' m path = some h ∧ ∀ x, paramFor r' path x = paramFor r path x) ∨
      ∃ pre, ⟨pre ++ [['*']], .route m h⟩ ∈ logOf prog ∧ flat pre <+: flat (segments P) := by
  have hn : NoRootMount [(.useServiceTo P mw : Reg M H)] := by
    intro c hm p sub hs; rw [List.mem_singleton] at hm; subst hm; simp at hs
  have hlog : ∀ e ∈ logOf (prog ++ [.useServiceTo P mw]), e ∈ logOf prog ∨ e = ⟨segments P, .middleware mw⟩ := by
    intro e he
    rw [logOf, logRegs_append] at he
    by_cases h0 : segments P = []
    · left; simpa [logRegs, logReg, h0, logOf] using he
    · simpa [logRegs, logReg, h0, logOf] using he
  have hsm' : NoStarMount (logOf (prog ++ [.useServiceTo P mw])) := by
    intro e he pre post hs
    rcases hlog e he with h | rfl
    · exact hsm e h pre post hs
    · refine ⟨?_, by simp⟩
      have hrun : (r.useServiceTo P mw).2 = none := by
        rw [build, runRegs_append _ _ _ (by rw [show runRegs prog Router.new = (r, none) from hb])] at hb'
        rw [show runRegs prog Router.new = (r, none) from hb, runRegs] at hb'
        change (match r.useServiceTo P mw with | (r', none) => runRegs [] r' | (r', some e) => (r', some e)) = _ at hb'
        cases h : r.useServiceTo P mw with
        | mk r2 o => rw [h] at hb'; cases o with | none => rfl | some e => simp at hb'
      have hok : StarsOK (segments P) := by
        apply Classical.byContradiction
        intro hno
        obtain ⟨p, hp, _⟩ := (C10_middleware r P mw).1.2 hno
        rw [hrun] at hp; cases hp
      exact (hok pre ['*'] post hs (by simp)).2
  obtain ⟨h1, h2⟩ := C51_only_wildcards_partial hc hc' hb hb' hn hsm hsm' path
  refine ⟨h1, fun m h hh => (h2 m h hh).imp id ?_⟩
  rintro ⟨pre, hpre, ⟨e, he, hnot, hp⟩, _⟩
  rcases hlog e he with h | rfl
  · exact absurd h hnot
  · exact ⟨pre, hpre, hp⟩

/-- A middleware below another path than the wildcard's: by the theorem, the request stays with the wildcard. -/
example : ∃ r r', build nested = (r, none) ∧ build (nested ++ [.useServiceTo (s "/users/:id") 7]) = (r', none) ∧
    handlerFor r .get (s "/files/img/a/b") = some 2 ∧ handlerFor r' .get (s "/files/img/a/b") = some 2 := by
  have hok : (build (nested ++ [.useServiceTo (s "/users/:id") 7])).2 = none := by decide +kernel
  have hc : CleanRegs (nested ++ [.useServiceTo (s "/users/:id") 7]) := by
    simp only [nested, List.cons_append, List.nil_append, CleanRegs, CleanReg]; decide +kernel
  refine ⟨_, _, build_eq nested_ok, build_eq hok, by decide +kernel, ?_⟩
  rcases (C17_only_wildcards_partial nested_clean hc (build_eq nested_ok) (build_eq hok) nested_star (s "/files/img/a/b")).2
    .get 2 (by decide +kernel) with h | ⟨pre, h1, h2⟩
  · exact h.1
  · rw [nested_log] at h1
    simp only [List.mem_cons, List.not_mem_nil, or_false, Entry.mk.injEq, What.route.injEq] at h1
    rcases h1 with ⟨_, _, h⟩ | ⟨h, _⟩ | ⟨_, _, h⟩ | ⟨_, _, h⟩
    · cases h
    · rw [List.append_cancel_right h] at h2
      exact absurd h2 (by decide +kernel)
    · cases h
    · cases h

/-- A route below the wildcard: the request goes there. -/
example : ∃ r r', build nested = (r, none) ∧ build (nested ++ [.get (s "/files/img/logo") 9]) = (r', none) ∧
    handlerFor r .get (s "/files/img/logo") = some 2 ∧ handlerFor r' .get (s "/files/img/logo") = some 9 :=
  ⟨_, _, build_eq nested_ok, build_eq (by decide +kernel), by decide +kernel, by decide +kernel⟩

end Obsidian.Props
