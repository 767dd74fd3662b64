import Verif.Spec.Calls
import Verif.Props.Exact
import Verif.Props.Reach

/-
C51 and C17: which requests are affected by further registrations.
-/
namespace Obsidian.Props
open Obsidian Spec
variable {M H : Type}

theorem follows_mono {stop stop' : Str → Prop} {ss : List Str}
    (h : ∀ q, q <+: flat ss → stop q → stop' q) {all : Bool} {p : Str} {req : List Str}
    {b : List (Str × Str)} (hf : Follows stop ss all p req b) : Follows stop' ss all p req b := by
  induction hf with
  | done => exact .done
  | text h1 h2 h3 h4 ih => exact .text h1 h2 (h _ h4.prefix h3) ih
  | param h1 _ ih => exact .param h1 ih
  | wild h1 => exact .wild h1
  | bare h1 h2 h3 h4 => exact .bare h1 h2 (h _ ⟨['*'], h4.symm⟩ h3) h4

/-- The same, for requests without empty segments: only non-empty places matter. -/
theorem follows_stops {stop stop' : Str → Prop} {ss : List Str}
    (h : ∀ q, q <+: flat ss → q ≠ [] → stop q → stop' q) {all : Bool} {p : Str} {req : List Str}
    {b : List (Str × Str)} (hreq : ∀ x ∈ req, x ≠ []) (hf : Follows stop ss all p req b) :
    Follows stop' ss all p req b := by
  have hx : ∀ (p x : Str), x ≠ [] → p ++ x ≠ [] := fun p x hx hn => hx (List.append_eq_nil_iff.1 hn).2
  induction hf with
  | done => exact .done
  | text h1 h2 h3 h4 ih =>
    exact .text h1 h2 (h _ h4.prefix (hx _ _ (hreq _ List.mem_cons_self)) h3)
      (ih fun x hx => hreq x (List.mem_cons_of_mem _ hx))
  | param h1 _ ih => exact .param h1 (ih fun x hx => hreq x (List.mem_cons_of_mem _ hx))
  | wild h1 => exact .wild h1
  | bare h1 h2 h3 h4 =>
    exact .bare h1 h2 (h _ ⟨['*'], h4.symm⟩ (hx _ _ (hreq _ List.mem_cons_self)) h3) h4

theorem isStop_mono {L L' : Log M H} (h : ∀ e ∈ L, e ∈ L') {q : Str} (hs : IsStop L q) : IsStop L' q := by
  rcases hs with ⟨e, he, h1⟩ | ⟨e, he, e', he', h1⟩
  · exact .inl ⟨e, h e he, h1⟩
  · exact .inr ⟨e, h e he, e', h e' he', h1⟩

/-- Further registrations do not matter for a request that follows none of the new paths, and no old path
only because of them. -/
theorem unaffected {prog more : List (Reg M H)} (hc : CleanRegs prog) (hc' : CleanRegs (prog ++ more))
    {r r' : Router M H} (hb : build prog = (r, none)) (hb' : build (prog ++ more) = (r', none))
    (hn : NoRootMount more) (hsm : NoStarMount (logOf prog)) (hsm' : NoStarMount (logOf (prog ++ more)))
    {path : Str}
    (hnew : ∀ e ∈ logOf (prog ++ more), e ∉ logOf prog → e.what ≠ .nothing → ∀ all b,
      ¬ Follows (IsStop (logOf (prog ++ more))) e.segs all [] (segments path) b)
    (hold : ∀ e ∈ logOf prog, e.what ≠ .nothing → ∀ all b,
      Follows (IsStop (logOf (prog ++ more))) e.segs all [] (segments path) b →
      Follows (IsStop (logOf prog)) e.segs all [] (segments path) b) :
    isFound r' path = isFound r path ∧ (∀ x, paramFor r' path x = paramFor r path x) ∧
    ∀ m, handlerFor r' m path = handlerFor r m path := by
  have hsub : ∀ e ∈ logOf prog, e ∈ logOf (prog ++ more) := by
    intro e he; rw [logOf, logRegs_append]; exact mem_logRegs he hn
  have hiff : ∀ e ∈ logOf prog, e.what ≠ .nothing → ∀ all b,
      (Follows (IsStop (logOf (prog ++ more))) e.segs all [] (segments path) b ↔
        Follows (IsStop (logOf prog)) e.segs all [] (segments path) b) := fun e he hw all b =>
    ⟨hold e he hw all b, follows_mono (fun q _ => isStop_mono hsub)⟩
  have hleads : ∀ e ∈ logOf prog, e.what ≠ .nothing → ∀ b,
      (LeadsTo (logOf (prog ++ more)) e.segs (segments path) b ↔ LeadsTo (logOf prog) e.segs (segments path) b) := by
    intro e he hw b
    rw [LeadsTo, LeadsTo, hiff e he hw, hiff e he hw]
    constructor
    · rintro (h | ⟨h, h'⟩)
      · exact .inl h
      · refine .inr ⟨h, fun e' he' hw' b' => ?_⟩
        rw [← hiff e' he' hw', ← hiff e' he' hw']
        exact h' e' (hsub e' he') hw' b'
    · rintro (h | ⟨h, h'⟩)
      · exact .inl h
      · refine .inr ⟨h, fun e' he' hw' b' => ?_⟩
        by_cases hin : e' ∈ logOf prog
        · rw [hiff e' hin hw', hiff e' hin hw']
          exact h' e' hin hw' b'
        · exact ⟨hnew e' he' hin hw' true b', fun hf => absurd hf (hnew e' he' hin hw' false b')⟩
  have holdOf : ∀ e ∈ logOf (prog ++ more), e.what ≠ .nothing → ∀ b,
      LeadsTo (logOf (prog ++ more)) e.segs (segments path) b → e ∈ logOf prog := by
    intro e he hw b hl
    by_cases hin : e ∈ logOf prog
    · exact hin
    · rcases hl with h | ⟨h, _⟩
      · exact absurd h (hnew e he hin hw true b)
      · exact absurd h (hnew e he hin hw false b)
  have hr := build_rep hc hb
  have hr' := build_rep hc' hb'
  have hlook : lookup (logOf (prog ++ more)) path = lookup (logOf prog) path := by
    cases h : lookup (logOf prog) path with
    | some qb =>
      obtain ⟨q, b⟩ := qb
      obtain ⟨e, he, rfl, hw⟩ := hasEntry_iff.1 (lookup_entry h)
      exact (hr'.tidy.lookup_leads hsm' (hsub e he) hw).2
        ((hleads e he hw b).2 ((hr.tidy.lookup_leads hsm he hw).1 h))
    | none =>
      cases h' : lookup (logOf (prog ++ more)) path with
      | none => rfl
      | some qb =>
        obtain ⟨q, b⟩ := qb
        obtain ⟨e, he, rfl, hw⟩ := hasEntry_iff.1 (lookup_entry h')
        have hl := (hr'.tidy.lookup_leads hsm' he hw).1 h'
        have hin := holdOf e he hw b hl
        rw [(hr.tidy.lookup_leads hsm hin hw).2 ((hleads e hin hw b).1 hl)] at h
        cases h
  have hand : ∀ m, handlerFor r' m path = handlerFor r m path := by
    intro m
    apply Option.ext
    intro h
    rw [(C04_exact_partial hc hb hsm m path).1 h, (C04_exact_partial hc' hb' hsm' m path).1 h]
    constructor
    · rintro ⟨e, he, hw, b, hl⟩
      have hw' : e.what ≠ .nothing := by rw [hw]; simp
      have hin := holdOf e he hw' b hl
      exact ⟨e, hin, hw, b, (hleads e hin hw' b).1 hl⟩
    · rintro ⟨e, he, hw, b, hl⟩
      have hw' : e.what ≠ .nothing := by rw [hw]; simp
      exact ⟨e, hsub e he, hw, b, (hleads e he hw' b).2 hl⟩
  refine ⟨?_, ?_, hand⟩
  · cases h : lookup (logOf prog) path with
    | none =>
      rw [(hr.obs_none h).1, (hr'.obs_none (hlook.trans h)).1]
    | some qb => rw [(hr.obs_some h).1, (hr'.obs_some (hlook.trans h)).1]
  · intro x
    cases h : lookup (logOf prog) path with
    | none => rw [(hr.obs_none h).2.2.2, (hr'.obs_none (hlook.trans h)).2.2.2]
    | some qb => rw [(hr.obs_some h).2.2.2, (hr'.obs_some (hlook.trans h)).2.2.2]

/-- The first character of a path without parameter or wildcard at the beginning is followed only by
requests that begin with it. -/
theorem follows_first {stop : Str → Prop} {ss : List Str} {a : Char} {u : Str} (hss : flat ss = a :: u)
    (h1 : a ≠ ':') (h2 : a ≠ '*') {all : Bool} {req : List Str} {b : List (Str × Str)}
    (hf : Follows stop ss all [] req b) (hreq : ∀ x ∈ req, x ≠ []) :
    ∃ x rest, req = (a :: x) :: rest := by
  have key : ∀ p, p = [] → Follows stop ss all p req b → ∃ x rest, req = (a :: x) :: rest := by
    intro p hp hf
    cases hf with
    | done => rw [hp] at hss; cases hss
    | @text _ _ x rest _ _ _ _ h4 =>
      subst hp
      obtain ⟨t, ht⟩ := h4.prefix
      rw [List.nil_append, hss] at ht
      cases x with
      | nil => exact absurd rfl (hreq [] (by simp))
      | cons c x => rw [(List.cons.inj ht).1]; exact ⟨x, rest, rfl⟩
    | @param _ _ y v rest _ h3 h4 =>
      subst hp
      obtain ⟨t, ht⟩ := h4.prefix
      rw [List.nil_append, hss] at ht
      exact absurd (List.cons.inj ht).1.symm h1
    | wild h3 =>
      subst hp
      rw [hss] at h3
      exact absurd (List.cons.inj h3).1 h2
    | @bare _ x _ _ _ h3 =>
      subst hp
      rw [List.nil_append, hss] at h3
      cases x with
      | nil => exact absurd rfl (hreq [] (by simp))
      | cons c x => rw [(List.cons.inj h3).1]; exact ⟨x, [], rfl⟩
  exact key [] rfl hf

/-- **C51, what holds** of requests that match no route, or a wildcard: if the paths of the further
registrations begin with a new character (as all the paths of a new section do), a request that does not
begin with this character is found, dispatched and given parameters as before. -/
theorem C51_other_section_partial {prog more : List (Reg M H)} (hc : CleanRegs prog)
    (hc' : CleanRegs (prog ++ more)) {r r' : Router M H} (hb : build prog = (r, none))
    (hb' : build (prog ++ more) = (r', none)) (hn : NoRootMount more) (hsm : NoStarMount (logOf prog))
    (hsm' : NoStarMount (logOf (prog ++ more))) {a : Char} (hf : Fresh (logOf prog) (logOf (prog ++ more)) a)
    {path : Str} (hp : ∀ x rest, segments path ≠ (a :: x) :: rest) :
    isFound r' path = isFound r path ∧ (∀ x, paramFor r' path x = paramFor r path x) ∧
    ∀ m, handlerFor r' m path = handlerFor r m path := by
  obtain ⟨h1, h2, h3, h4⟩ := hf
  refine unaffected hc hc' hb hb' hn hsm hsm' ?_ ?_
  · intro e he hin _ all b hfo
    obtain ⟨u, hu⟩ := h4 e he hin
    obtain ⟨x, rest, hx⟩ := follows_first hu h1 h2 hfo (segments_ne path)
    exact hp x rest hx
  · intro e he _ all b
    refine fun hfo => follows_stops (fun q hq hq0 hs => ?_) (segments_ne path) hfo
    have hqa : ∀ t, q ≠ a :: t := by
      intro t ht
      obtain ⟨v, hv⟩ := hq
      rw [ht] at hv
      exact h3 e he (by rw [← hv]; rfl)
    have hne : ∀ e' ∈ logOf (prog ++ more), q <+: flat e'.segs → e' ∈ logOf prog := by
      intro e' he' hpre
      by_cases hin : e' ∈ logOf prog
      · exact hin
      · obtain ⟨u, hu⟩ := h4 e' he' hin
        obtain ⟨t, ht⟩ := hpre
        cases q with
        | nil => exact absurd rfl hq0
        | cons c q =>
          rw [hu] at ht
          exact absurd (by rw [(List.cons.inj ht).1]) (hqa q)
    rcases hs with ⟨e', he', pre, post, h5, h6⟩ | ⟨e1, he1, e2, he2, c, d, u, v, h5, h6, h7⟩
    · refine .inl ⟨e', hne e' he' ?_, pre, post, h5, h6⟩
      rw [h5, flat_append, h6]; exact List.prefix_append _ _
    · exact .inr ⟨e1, hne e1 he1 ⟨_, h5.symm⟩, e2, hne e2 he2 ⟨_, h6.symm⟩, c, d, u, v, h5, h6, h7⟩

/-- A new section. -/
abbrev users : Prog := [.get (s "/users") 5, .get (s "/users/:id") 6]

theorem sections_log : logOf (nested ++ users) = logOf nested ++
    [⟨[s "users"], .route .get 5⟩, ⟨[s "users", s ":id"], .route .get 6⟩] := by decide +kernel

theorem sections_star : NoStarMount (logOf (nested ++ users)) := by
  refine noStarMount_of_noStar fun e he => ?_
  rw [sections_log, nested_log] at he
  simp only [List.cons_append, List.nil_append, List.mem_cons, List.not_mem_nil, or_false] at he
  rcases he with rfl | rfl | rfl | rfl | rfl | rfl
  · exact .inr ⟨[s "files"], rfl, by decide +kernel, by simp⟩
  · exact .inr ⟨[s "files", s "img"], rfl, by decide +kernel, by simp⟩
  all_goals exact .inl (by decide +kernel)

theorem sections_fresh : Fresh (logOf nested) (logOf (nested ++ users)) 'u' := by
  refine ⟨by decide, by decide, by rw [nested_log]; decide +kernel, fun e he hin => ?_⟩
  rw [sections_log] at he
  rcases List.mem_append.1 he with he | he
  · exact absurd he hin
  · simp only [List.mem_cons, List.not_mem_nil, or_false] at he
    rcases he with rfl | rfl
    · exact ⟨s "sers", by decide +kernel⟩
    · exact ⟨s "sers:id", by decide +kernel⟩

/-- The hypotheses are met, and the theorem speaks about a request that a wildcard serves. -/
example : ∃ r r', build nested = (r, none) ∧ build (nested ++ users) = (r', none) ∧
    handlerFor r .get (s "/files/img/a/b") = some 2 ∧ handlerFor r' .get (s "/files/img/a/b") = some 2 ∧
    handlerFor r' .get (s "/users/7") = some 6 ∧ handlerFor r .get (s "/users/7") = none := by
  have hok : (build (nested ++ users)).2 = none := by decide +kernel
  have hc : CleanRegs (nested ++ users) := by
    simp only [nested, users, List.cons_append, List.nil_append, CleanRegs, CleanReg]; decide +kernel
  refine ⟨_, _, build_eq nested_ok, build_eq hok, by decide +kernel, ?_, by decide +kernel, by decide +kernel⟩
  have h := (C51_other_section_partial nested_clean hc (build_eq nested_ok) (build_eq hok)
    (by intro c hm p sub hs; simp only [users, List.mem_cons, List.not_mem_nil, or_false] at hm
        rcases hm with rfl | rfl <;> simp at hs)
    nested_star sections_star sections_fresh (path := s "/files/img/a/b") (by
      intro x rest hx
      have h2 : (segments (s "/files/img/a/b")).head?.bind List.head? = some 'f' := by decide +kernel
      rw [hx] at h2; simp at h2)).2.2 .get
  rw [h]; decide +kernel

end Obsidian.Props
