import Verif.Spec.Calls
import Verif.Spec.Start
import Verif.Props.Config
import Verif.Props.Accept
import Verif.Props.Mount

/-
C94: which programs are accepted.
-/
namespace Obsidian.Props
open Obsidian Spec
variable {U : Univ} {σ M H : Type}

/-! ### The wildcard check -/

theorem starFault_from {path : Str} {total : Nat} {xs : List Str} {pos : Nat} (h : pos + xs.length = total) {e : Panic}
    (he : checkStarsFrom path total xs pos = some e) :
    ∃ pre x post, xs = pre ++ x :: post ∧ (∀ y ∈ pre, '*' ∉ y) ∧ '*' ∈ x ∧
      ((x ≠ ['*'] ∧ e = .starInName path) ∨ (x = ['*'] ∧ post ≠ [] ∧ e = .starNotLast path)) := by
  induction xs generalizing pos with
  | nil => cases he
  | cons x xs ih =>
    rw [checkStarsFrom] at he
    by_cases hx : '*' ∈ x
    · rw [if_pos hx] at he
      by_cases hb : byteLen x = 1
      · rw [if_neg (by simpa using hb)] at he
        by_cases hp : pos = total - 1
        · rw [if_neg (by simpa using hp)] at he
          have : xs = [] := by simp at h; exact List.length_eq_zero_iff.1 (by omega)
          subst this; cases he
        · rw [if_pos hp] at he
          refine ⟨[], x, xs, rfl, by simp, hx, .inr ⟨(byteLen_star hx).1 hb, ?_, by injection he with he; exact he.symm⟩⟩
          rintro rfl; simp at h; omega
      · rw [if_pos (by simpa using hb)] at he
        exact ⟨[], x, xs, rfl, by simp, hx, .inl ⟨fun h' => hb ((byteLen_star hx).2 h'), by injection he with he; exact he.symm⟩⟩
    · rw [if_neg hx] at he
      obtain ⟨pre, y, post, rfl, h1, h2⟩ := ih (pos := pos + 1) (by simp at h ⊢; omega) he
      refine ⟨x :: pre, y, post, rfl, ?_, h2⟩
      intro z hz
      rcases List.mem_cons.1 hz with rfl | hz
      · exact hx
      · exact h1 z hz

theorem starFault_of {path : Str} {e : Panic} (h : checkStars path = some e) : StarFault path e := by
  rw [checkStars, segs_eq] at h
  exact starFault_from (by simp) h

theorem starFault_not_ok {path : Str} {e : Panic} (h : StarFault path e) : ¬ StarsOK (segments path) := by
  obtain ⟨pre, x, post, h1, _, h3, h4⟩ := h
  intro hs
  obtain ⟨h5, h6⟩ := hs pre x post h1 h3
  rcases h4 with ⟨h, _⟩ | ⟨_, h, _⟩
  · exact h h5
  · exact h h6

theorem starFault_unique {path : Str} {e e' : Panic} (h : StarFault path e) (h' : StarFault path e') : e = e' := by
  obtain ⟨pre, x, post, h1, h2, h3, h4⟩ := h
  obtain ⟨pre', x', post', h1', h2', h3', h4'⟩ := h'
  have key : ∀ (pre pre' : List Str), pre ++ x :: post = pre' ++ x' :: post' → (∀ y ∈ pre, '*' ∉ y) → (∀ y ∈ pre', '*' ∉ y) →
      x = x' ∧ post = post' := by
    intro pre
    induction pre with
    | nil =>
      intro pre' he _ hn'
      cases pre' with
      | nil => exact ⟨(List.cons.inj he).1, (List.cons.inj he).2⟩
      | cons y pre' => exact absurd ((List.cons.inj he).1 ▸ h3) (hn' y (by simp))
    | cons z pre ih =>
      intro pre' he hn hn'
      cases pre' with
      | nil => exact absurd ((List.cons.inj he).1.symm ▸ h3') (hn z (by simp))
      | cons y pre' =>
        exact ih pre' (List.cons.inj he).2 (fun y hy => hn y (by simp [hy])) (fun y hy => hn' y (by simp [hy]))
  obtain ⟨rfl, rfl⟩ := key pre pre' (h1.symm.trans h1') h2 h2'
  rcases h4 with ⟨ha, rfl⟩ | ⟨ha, hb, rfl⟩ <;> rcases h4' with ⟨ha', rfl⟩ | ⟨ha', hb', rfl⟩
  · rfl
  · exact absurd ha' ha
  · exact absurd ha ha'
  · rfl

theorem pathFault_not_ok {L : Log M H} {path : Str} {e : Panic} (h : PathFault L path e) :
    ¬ (StarsOK (segments path) ∧ NoClash L (segments path)) := by
  rcases h with h | ⟨_, h, _⟩
  · exact fun h' => starFault_not_ok h h'.1
  · exact fun h' => h h'.2

theorem pathFault_unique {L : Log M H} {path : Str} {e e' : Panic} (h : PathFault L path e) (h' : PathFault L path e') :
    AlikePanic e e' := by
  rcases h with h | ⟨h1, h2, a, b, rfl⟩ <;> rcases h' with h' | ⟨h1', h2', a', b', rfl⟩
  · exact .inl (starFault_unique h h')
  · exact absurd h1' (starFault_not_ok h)
  · exact absurd h1 (starFault_not_ok h')
  · exact .inr ⟨a, b, a', b', path, rfl, rfl⟩

/-! ### Single calls -/

theorem route_fault {r : Router M H} {L : Log M H} (h : Rep r.routes.head L) {path : Str} (hc : CleanPath path) (v : Verb) (hd : H)
    {e : Panic} (he : (r.insertRoute v.method path hd).2 = some e) (cs : List (Reg M H)) : Stops (v.reg path hd :: cs) L e := by
  obtain ⟨h1, h2, h3⟩ := h.insertRoute hc v.method hd
  by_cases hs : StarsOK (segments path)
  · by_cases hn : NoClash L (segments path)
    · rw [(h3 hs hn).1] at he
      split at he
      · next hr =>
        injection he with he; subst he
        refine .twice hs hn ?_
        refine Classical.byContradiction fun hno => ?_
        rw [(routeAt_none_iff).2 (fun e he hf k hw => hno ⟨e, he, hf, k, hw⟩)] at hr
        cases hr
      · cases he
    · obtain ⟨⟨a, b, h4⟩, _⟩ := h2 hs hn
      rw [h4] at he; injection he with he; subst he
      exact .route (.inr ⟨hs, hn, a, b, rfl⟩)
  · refine .route (.inl (starFault_of ?_))
    obtain ⟨p, hp, _⟩ := checkStars_err hs
    rw [show (r.insertRoute v.method path hd).2 = some p by simp [Router.insertRoute, RouteTrie.insertRoute, hp]] at he
    rw [hp, he]

theorem middleware_fault {r : Router M H} {L : Log M H} (h : Rep r.routes.head L) {path : Str} (hc : CleanPath path) (m : M)
    {e : Panic} (he : (r.useServiceTo path m).2 = some e) : PathFault L path e := by
  obtain ⟨h1, h2, h3⟩ := h.useServiceTo hc m
  by_cases hs : StarsOK (segments path)
  · by_cases hn : NoClash L (segments path)
    · rw [(h3 hs hn).1] at he; cases he
    · obtain ⟨⟨a, b, h4⟩, _⟩ := h2 hs hn
      rw [h4] at he; injection he with he; subst he
      exact .inr ⟨hs, hn, a, b, rfl⟩
  · refine .inl (starFault_of ?_)
    obtain ⟨p, hp, _⟩ := checkStars_err hs
    rw [show (r.useServiceTo path m).2 = some p by simp [Router.useServiceTo, RouteTrie.insertMiddleware, hp]] at he
    rw [hp, he]

theorem mount_fault {r s : Router M H} {L S : Log M H} (h : Rep r.routes.head L) (h' : Rep s.routes.head S) {path : Str}
    (hc : CleanPath path) {e : Panic} (he : (r.useRouter path s).2 = some e) :
    PathFault L path e ∨ (StarsOK (segments path) ∧ segments path ≠ [] ∧ NoClash L (segments path) ∧
      ¬ Free L (flat (segments path)) ∧ e = .conflict path) := by
  obtain ⟨h1, h2, h3, h4, h5⟩ := h.useRouter h' hc
  by_cases hs : StarsOK (segments path)
  · by_cases h0 : segments path = []
    · rw [(h2 hs h0).1] at he; cases he
    · by_cases hn : NoClash L (segments path)
      · by_cases hf : Free L (flat (segments path))
        · rw [(h5 hs h0 hn hf).1] at he; cases he
        · rw [(h4 hs h0 hn hf).1] at he; injection he with he
          exact .inr ⟨hs, h0, hn, hf, he.symm⟩
      · obtain ⟨⟨a, b, h6⟩, _⟩ := h3 hs hn
        rw [h6] at he; injection he with he; subst he
        exact .inl (.inr ⟨hs, hn, a, b, rfl⟩)
  · refine .inl (.inl (starFault_of ?_))
    obtain ⟨p, hp, _⟩ := checkStars_err hs
    rw [show (r.useRouter path s).2 = some p by simp [Router.useRouter, RouteTrie.insertSubRoute, hp]] at he
    rw [hp, he]

/-! ### Programs -/

mutual
theorem call_stops : ∀ (c : Reg M H) (cs : List (Reg M H)) (r : Router M H) (L : Log M H), CleanReg c → Rep r.routes.head L →
    ∀ e, (c.run r).2 = some e → Stops (c :: cs) L e
  | .get p h, cs, r, L, hc, hr, e, he => by simp only [CleanReg] at hc; exact route_fault hr hc .get h he cs
  | .post p h, cs, r, L, hc, hr, e, he => by simp only [CleanReg] at hc; exact route_fault hr hc .post h he cs
  | .put p h, cs, r, L, hc, hr, e, he => by simp only [CleanReg] at hc; exact route_fault hr hc .put h he cs
  | .patch p h, cs, r, L, hc, hr, e, he => by simp only [CleanReg] at hc; exact route_fault hr hc .patch h he cs
  | .delete p h, cs, r, L, hc, hr, e, he => by simp only [CleanReg] at hc; exact route_fault hr hc .delete h he cs
  | .useService m, cs, r, L, hc, hr, e, he => by
    rw [Reg.run] at he; cases he
  | .useServiceTo p m, cs, r, L, hc, hr, e, he => by
    simp only [CleanReg] at hc
    exact .middleware (middleware_fault hr hc m he)
  | .useRouter p sub, cs, r, L, hc, hr, e, he => by
    simp only [CleanReg] at hc
    have hi := calls_stop sub Router.new [] hc.2 Rep.new
    obtain ⟨i1, i2⟩ := run_calls sub Router.new [] hc.2 Rep.new
    rw [Reg.run] at he
    cases hb : runRegs sub Router.new with
    | mk s o =>
      rw [hb] at i1 i2 hi he
      cases o with
      | none =>
        rcases mount_fault hr (i2 rfl) hc.1 he with h | ⟨h1, h2, h3, h4, rfl⟩
        · exact .mount .useRouter (i1.1 rfl) h
        · exact .taken .useRouter (i1.1 rfl) h1 h2 h3 h4
      | some e' =>
        injection he with he; subst he
        exact .inner .useRouter (hi _ rfl)
  | .scope p sub, cs, r, L, hc, hr, e, he => by
    simp only [CleanReg] at hc
    have hi := calls_stop sub Router.new [] hc.2 Rep.new
    obtain ⟨i1, i2⟩ := run_calls sub Router.new [] hc.2 Rep.new
    rw [Reg.run] at he
    cases hb : runRegs sub Router.new with
    | mk s o =>
      rw [hb] at i1 i2 hi he
      cases o with
      | none =>
        rcases mount_fault hr (i2 rfl) (cleanPath_slash hc.1) he with h | ⟨h1, h2, h3, h4, rfl⟩
        · exact .mount .scope (i1.1 rfl) h
        · exact .taken .scope (i1.1 rfl) h1 h2 h3 h4
      | some e' =>
        injection he with he; subst he
        exact .inner .scope (hi _ rfl)
theorem calls_stop : ∀ (cs : List (Reg M H)) (r : Router M H) (L : Log M H), CleanRegs cs → Rep r.routes.head L →
    ∀ e, (runRegs cs r).2 = some e → Stops cs L e
  | [], r, L, _, _, e, he => by rw [runRegs] at he; cases he
  | c :: cs, r, L, hc, hr, e, he => by
    simp only [CleanRegs] at hc
    obtain ⟨i1, i2⟩ := run_call c r L hc.1 hr
    have h0 := call_stops c cs r L hc.1 hr
    rw [runRegs] at he
    cases hb : c.run r with
    | mk r' o =>
      rw [hb] at i1 i2 he h0
      cases o with
      | none => exact .later (i1.1 rfl) (calls_stop cs r' (logReg c L) hc.2 (i2 rfl) e he)
      | some e' => injection he with he; subst he; exact h0 _ rfl
end

theorem regOK_verb {v : Verb} {p : Str} {h : H} {L : Log M H} : RegOK (v.reg p h) L ↔ RouteOK L v.method (segments p) := by
  cases v <;> rw [Verb.reg, RegOK] <;> rfl

theorem regOK_mount {c : Reg M H} {p : Str} {sub : List (Reg M H)} (h : Mounts c p sub) {L : Log M H} :
    RegOK c L ↔ RegsOK sub [] ∧ StarsOK (segments p) ∧ (segments p = [] ∨ (NoClash L (segments p) ∧ Free L (flat (segments p)))) := by
  cases h with
  | useRouter => rw [RegOK]
  | scope => rw [RegOK, segments_slash]

theorem stops_not_ok {cs : List (Reg M H)} {L : Log M H} {e : Panic} (h : Stops cs L e) : ¬ RegsOK cs L := by
  induction h with
  | later _ _ ih => rw [RegsOK]; exact fun h => ih h.2
  | route hp => rw [RegsOK, regOK_verb]; exact fun h => pathFault_not_ok hp ⟨h.1.1, h.1.2.1⟩
  | twice _ _ hd =>
    rw [RegsOK, regOK_verb]
    obtain ⟨old, ho, hf, h', hw⟩ := hd
    exact fun h => (routeAt_none_iff).1 h.1.2.2 old ho hf h' hw
  | middleware hp => rw [RegsOK, RegOK]; exact fun h => pathFault_not_ok hp h.1
  | inner hm _ ih => rw [RegsOK, regOK_mount hm]; exact fun h => ih h.1.1
  | @mount c p sub cs L e hm _ hp =>
    rw [RegsOK, regOK_mount hm]
    rintro ⟨⟨_, h2, h3⟩, _⟩
    rcases h3 with h3 | h3
    · refine pathFault_not_ok hp ⟨h2, ?_⟩
      rw [h3]; exact fun e _ => ⟨clash_nil, clash_nil'⟩
    · exact pathFault_not_ok hp ⟨h2, h3.1⟩
  | taken hm _ _ h0 _ hf =>
    rw [RegsOK, regOK_mount hm]
    rintro ⟨⟨_, _, h3⟩, _⟩
    rcases h3 with h3 | h3
    · exact h0 h3
    · exact hf h3.2

theorem stops_cons {c : Reg M H} {cs : List (Reg M H)} {L : Log M H} {e : Panic} (h : Stops (c :: cs) L e) :
    (RegOK c L ∧ Stops cs (logReg c L) e) ∨ (¬ RegOK c L ∧ CallFault c L e) := by
  by_cases hok : RegOK c L
  · refine .inl ⟨hok, ?_⟩
    generalize hl : c :: cs = l at h
    cases h with
    | later _ h => cases hl; exact h
    | route hp => cases hl; exact absurd ⟨(regOK_verb.1 hok).1, (regOK_verb.1 hok).2.1⟩ (pathFault_not_ok hp)
    | twice _ _ hd =>
      cases hl
      obtain ⟨old, ho, hf, h', hw⟩ := hd
      exact absurd hw ((routeAt_none_iff).1 (regOK_verb.1 hok).2.2 old ho hf h')
    | middleware hp => cases hl; rw [RegOK] at hok; exact absurd hok (pathFault_not_ok hp)
    | inner hm h => cases hl; exact absurd ((regOK_mount hm).1 hok).1 (stops_not_ok h)
    | mount hm hs hp => cases hl; exact absurd (by rw [RegsOK, RegsOK]; exact ⟨hok, trivial⟩) (stops_not_ok (Stops.mount (cs := []) hm hs hp))
    | taken hm hs h1 h2 h3 h4 => cases hl; exact absurd (by rw [RegsOK, RegsOK]; exact ⟨hok, trivial⟩) (stops_not_ok (Stops.taken (cs := []) hm hs h1 h2 h3 h4))
  · refine .inr ⟨hok, ?_⟩
    generalize hl : c :: cs = l at h
    cases h with
    | later h _ => cases hl; exact absurd h hok
    | @route v p h cs L e hp => cases hl; cases v <;> exact .inl hp
    | @twice v p h cs L h1 h2 hd => cases hl; cases v <;> exact .inr ⟨h1, h2, rfl⟩
    | middleware hp => cases hl; exact hp
    | inner hm h => cases hl; cases hm <;> exact .inl h
    | mount hm hs hp => cases hl; cases hm <;> exact .inr ⟨hs, .inl hp⟩
    | taken hm hs h1 h2 h3 h4 => cases hl; cases hm <;> exact .inr ⟨hs, .inr ⟨h1, h3, rfl⟩⟩

theorem stops_unique {cs : List (Reg M H)} {L : Log M H} {e : Panic} (h : Stops cs L e) :
    ∀ {e' : Panic}, Stops cs L e' → AlikePanic e e' := by
  have route : ∀ {v : Verb} {p : Str} {h : H} {L : Log M H} {e' : Panic}, CallFault (v.reg p h) L e' → CallFault.RouteFault L v.method p e' := by
    intro v p h L e' hh; cases v <;> exact hh
  have mount : ∀ {c : Reg M H} {p : Str} {sub : List (Reg M H)} {L : Log M H} {e' : Panic}, Mounts c p sub → CallFault c L e' →
      CallFault.MountFault L p sub e' := by
    intro c p sub L e' hm hh; cases hm <;> exact hh
  induction h with
  | later hok _ ih =>
    intro e' h'
    rcases stops_cons h' with ⟨_, h'⟩ | ⟨h', _⟩
    · exact ih h'
    · exact absurd hok h'
  | @route v p h cs L e hp =>
    intro e' h'
    rcases stops_cons h' with ⟨h', _⟩ | ⟨_, h'⟩
    · exact absurd ⟨(regOK_verb.1 h').1, (regOK_verb.1 h').2.1⟩ (pathFault_not_ok hp)
    · rcases route h' with h' | ⟨h1, h2, _⟩
      · exact pathFault_unique hp h'
      · exact absurd ⟨h1, h2⟩ (pathFault_not_ok hp)
  | @twice v p h cs L h1 h2 hd =>
    intro e' h'
    rcases stops_cons h' with ⟨h', _⟩ | ⟨_, h'⟩
    · obtain ⟨old, ho, hf, k, hw⟩ := hd
      exact absurd hw ((routeAt_none_iff).1 (regOK_verb.1 h').2.2 old ho hf k)
    · rcases route h' with h' | ⟨_, _, rfl⟩
      · exact absurd ⟨h1, h2⟩ (pathFault_not_ok h')
      · exact .inl rfl
  | middleware hp =>
    intro e' h'
    rcases stops_cons h' with ⟨h', _⟩ | ⟨_, h'⟩
    · rw [RegOK] at h'; exact absurd h' (pathFault_not_ok hp)
    · exact pathFault_unique hp h'
  | inner hm hs ih =>
    intro e' h'
    rcases stops_cons h' with ⟨h', _⟩ | ⟨_, h'⟩
    · exact absurd ((regOK_mount hm).1 h').1 (stops_not_ok hs)
    · rcases mount hm h' with h' | ⟨h', _⟩
      · exact ih h'
      · exact absurd h' (stops_not_ok hs)
  | @mount c p sub cs L e hm hs hp =>
    intro e' h'
    rcases stops_cons h' with ⟨h', _⟩ | ⟨_, h'⟩
    · exact absurd (by rw [RegsOK, RegsOK]; exact ⟨h', trivial⟩) (stops_not_ok (Stops.mount (cs := []) hm hs hp))
    · rcases mount hm h' with h' | ⟨_, h' | ⟨h1, h2, _⟩⟩
      · exact absurd hs (stops_not_ok h')
      · exact pathFault_unique hp h'
      · exact absurd ⟨h1, h2⟩ (pathFault_not_ok hp)
  | @taken c p sub cs L hm hs h1 h2 h3 h4 =>
    intro e' h'
    rcases stops_cons h' with ⟨h', _⟩ | ⟨_, h'⟩
    · exact absurd (by rw [RegsOK, RegsOK]; exact ⟨h', trivial⟩) (stops_not_ok (Stops.taken (cs := []) hm hs h1 h2 h3 h4))
    · rcases mount hm h' with h' | ⟨_, h' | ⟨_, _, rfl⟩⟩
      · exact absurd hs (stops_not_ok h')
      · exact absurd ⟨h1, h3⟩ (pathFault_not_ok h')
      · exact .inl rfl

/-- **C94**: a program of registrations is accepted exactly if each of its calls is acceptable after the ones
before, and every nested router is accepted itself; otherwise it stops with the panic of the first call that is not
(up to the keys that an ambiguity message names).  For paths in the documented syntax. -/
theorem C94_programs {prog : List (Reg M H)} (hc : CleanRegs prog) :
    ((build prog).2 = none ↔ RegsOK prog []) ∧
    (∀ e, (build prog).2 = some e → Stops prog [] e) ∧
    ∀ e, Stops prog [] e → ∃ e', (build prog).2 = some e' ∧ AlikePanic e e' := by
  have h1 := calls_stop prog Router.new [] hc Rep.new
  refine ⟨build_iff hc, h1, fun e h => ?_⟩
  cases he : (build prog).2 with
  | none => exact absurd ((build_iff hc).1 he) (stops_not_ok h)
  | some e' => exact ⟨e', rfl, stops_unique h (h1 e' he)⟩

/-- **C94** for applications: whether and with what panic the configuration of an application stops, for one that starts
empty and for one that starts with the logger. -/
theorem C94_applications {t : U.Ty} (cs : List (AppCall U σ t)) (hc : CleanRegs (registrations cs)) :
    (((App.calls cs App.new).2 = none ↔ RegsOK (registrations cs) []) ∧
      ∀ e, (App.calls cs App.new).2 = some e → Stops (registrations cs) [] e) ∧
    ((App.calls cs (App.default : App U σ)).2 = none ↔ RegsOK (.useService logger :: registrations cs) []) ∧
      ∀ e, (App.calls cs (App.default : App U σ)).2 = some e → Stops (.useService logger :: registrations cs) [] e := by
  have h := C79_registrations cs
  rw [h.1.1, h.2.1]
  have h1 := C94_programs hc
  have h2 := C94_programs (prog := .useService logger :: registrations cs) (by rw [CleanRegs]; exact ⟨trivial, hc⟩)
  exact ⟨⟨h1.1, h1.2.1⟩, h2.1, h2.2.1⟩

theorem runRegs_append (pre post : List (Reg M H)) (r : Router M H) (h : (runRegs pre r).2 = none) :
    runRegs (pre ++ post) r = runRegs post (runRegs pre r).1 := by
  induction pre generalizing r with
  | nil => rfl
  | cons c pre ih =>
    rw [List.cons_append, runRegs, runRegs]
    rw [runRegs] at h
    generalize c.run r = x at h ⊢
    obtain ⟨r', e⟩ := x
    cases e with
    | none => exact ih r' h
    | some e => cases h

/-- **C94** for paths of any form: the calls of a program are made in order up to the first that stops it, and what stops
a nested router stops the program it is mounted in, before anything is mounted. -/
theorem C94_nested {pre post sub : List (Reg M H)} {c : Reg M H} {p : Str} (hm : Mounts c p sub) {e : Panic}
    (hp : (build pre).2 = none) (hs : (build sub).2 = some e) :
    (build (pre ++ c :: post)).2 = some e ∧ (build (pre ++ c :: post)).1 = (build pre).1 := by
  have h : c.run (runRegs pre Router.new).1 = ((runRegs pre Router.new).1, some e) := by
    have hs' : (runRegs sub Router.new).2 = some e := hs
    cases hm <;> rw [Reg.run] <;> generalize runRegs sub Router.new = x at hs' ⊢ <;> obtain ⟨a, b⟩ := x <;> cases hs' <;> rfl
  rw [build, runRegs_append pre _ _ hp, runRegs, h]
  exact ⟨rfl, rfl⟩

/-- Programs over numbers: one that is accepted, and what stops five others; the last is stopped inside the router it
mounts, though the place it mounts it at is taken as well. -/
def demoStart : List (Reg Nat Nat) := [.get (s "/users/:id") 1, .useServiceTo (s "/users") 2, .scope (s "api") [.post (s "/users") 3]]

example : (build demoStart).2 = none ∧
    (build (demoStart ++ [.get (s "/users/:id") 4])).2 = some (.duplicated .get (s "/users/:id")) ∧
    (build (demoStart ++ [.useServiceTo (s "/users/:name") 4])).2 = some (.ambiguous (s ":name") (s ":id") (s "/users/:name")) ∧
    (build (demoStart ++ [.put (s "/files/*/x") 4])).2 = some (.starNotLast (s "/files/*/x")) ∧
    (build (demoStart ++ [.useRouter (s "/api") []])).2 = some (.conflict (s "/api")) ∧
    (build (demoStart ++ [.scope (s "api") [.get (s "/x*") 5], .get (s "/users/:id") 4])).2 = some (.starInName (s "/x*")) := by
  decide +kernel

example : CleanRegs demoStart ∧ RegsOK demoStart [] ∧
    Stops (demoStart ++ [.scope (s "api") [.get (s "/x*") 5], .get (s "/users/:id") 4]) [] (.starInName (s "/x*")) := by
  have hc : CleanRegs demoStart := by simp only [demoStart, CleanRegs, CleanReg]; decide +kernel
  refine ⟨hc, (C94_programs hc).1.1 (by decide +kernel), ?_⟩
  exact (C94_programs (by simp only [demoStart, List.cons_append, List.nil_append, CleanRegs, CleanReg]; decide +kernel)).2.1 _ (by decide +kernel)

end Obsidian.Props
