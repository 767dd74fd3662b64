import Verif.Spec.Calls
import Verif.Props.Mount

/-
C49: what a registration that panics leaves behind, when the panic is caught
(`std::panic::catch_unwind` around the registration call).
-/
namespace Obsidian.Props
open Obsidian Spec
variable {M H : Type}

/-- What a call leaves in the table, whether it panics or not. -/
def Leaves (c : Reg M H) (e : Entry M H) : Prop :=
  (∃ x ∈ callLog c, e.segs <+: x.segs) ∧
  ((¬ NotMount c ∧ e ∈ callLog c) ∨ NoStar e.segs ∨ (StarsOK e.segs ∧ e.what ≠ .nothing))

/-- What a call keeps, whether it panics or not. -/
def Keeps (L X : Log M H) (c : Reg M H) : Prop :=
  (∀ e ∈ L, e ∈ X) ∧ (∀ m q k, ¬ RegistersAt c m q → routeAt L q m = some k → routeAt X q m = some k) ∧
  ∀ e ∈ X, e ∈ L ∨ Leaves c e

theorem keeps_refl (L : Log M H) (c : Reg M H) : Keeps L L c :=
  ⟨fun _ h => h, fun _ _ _ _ h => h, fun _ h => .inl h⟩

theorem noStar_of_starsOK {ss pre post : List Str} {x : Str} (h : StarsOK ss) (hs : ss = pre ++ x :: post) : NoStar pre := by
  intro hm
  obtain ⟨a, b, rfl⟩ := List.append_of_mem hm
  have := (h a ['*'] (b ++ x :: post) (by rw [hs]; simp) (by simp)).2
  simp at this

/-- What an ambiguous registration leaves behind. -/
theorem leaves_pre {c : Reg M H} {x : Entry M H} (hx : x ∈ callLog c) (hs : StarsOK x.segs) {pre post : List Str} {y : Str}
    (h : x.segs = pre ++ y :: post) : Leaves c ⟨pre, .nothing⟩ :=
  ⟨⟨x, hx, ⟨y :: post, h.symm⟩⟩, .inr (.inl (noStar_of_starsOK hs h))⟩

theorem keeps_add {L : Log M H} {c : Reg M H} {e : Entry M H} (he : ∀ m h, e.what ≠ .route m h) (hl : Leaves c e) :
    Keeps L (L ++ [e]) c := by
  refine ⟨fun _ h => List.mem_append_left _ h, fun m q k _ h => ?_, fun e' h => by
    rcases List.mem_append.1 h with h | h
    · exact .inl h
    · rw [List.mem_singleton] at h; subst h; exact .inr hl⟩
  rw [routeAt_append, routeAt_one]
  split
  · split
    · next hw => exact absurd hw (he _ _)
    · simpa using h
  · simpa using h

theorem callLog_verb (v : Verb) (p : Str) (hd : H) :
    callLog (v.reg p hd : Reg M H) = [⟨segments p, .route v.method hd⟩] := by
  cases v <;> rfl

theorem keeps_route {L : Log M H} (v : Verb) (p : Str) (hd : H) (hs : StarsOK (segments p)) :
    Keeps L (L ++ [⟨segments p, .route v.method hd⟩]) (v.reg p hd) := by
  refine ⟨fun _ h => List.mem_append_left _ h, fun m q k hn h => ?_, fun e' h => by
    rcases List.mem_append.1 h with h | h
    · exact .inl h
    · rw [List.mem_singleton] at h; subst h
      exact .inr ⟨⟨_, by rw [callLog_verb]; exact List.mem_singleton.2 rfl, List.prefix_rfl⟩, .inr (.inr ⟨hs, by simp⟩)⟩⟩
  rw [routeAt_append, routeAt_one]
  split
  · next hq =>
    simp only
    split
    · next hm => exact absurd ⟨v, p, hd, rfl, hm, hq⟩ hn
    · simpa using h
  · simpa using h

theorem keeps_mount {L S : Log M H} {c : Reg M H} {ss : List Str} (h0 : ss ≠ []) (hf : Free L (flat ss))
    (hm : ¬ NotMount c) (hcl : callLog c = mountLog ss [] S) :
    Keeps L (mountLog ss L S) c := by
  rw [mountLog, if_neg h0]
  rw [mountLog, if_neg h0] at hcl
  refine ⟨fun _ h => List.mem_append_left _ h, fun m q k _ h => ?_, fun e' h => by
    rcases List.mem_append.1 h with h | h
    · exact .inl h
    · have hin : e' ∈ callLog c := by rw [hcl]; exact List.mem_append_right _ h
      exact .inr ⟨⟨e', hin, List.prefix_rfl⟩, .inl ⟨hm, hin⟩⟩⟩
  rw [routeAt_append]
  have : routeAt (⟨ss, .nothing⟩ :: S.map (Entry.under ss)) q m = none := by
    rw [routeAt_none_iff]
    intro e he hq h' hw
    rcases List.mem_cons.1 he with rfl | he
    · simp at hw
    · obtain ⟨x, _, rfl⟩ := List.mem_map.1 he
      rw [Entry.under, flat_append] at hq
      rw [← hq, free_routeAt hf] at h
      simp at h
  rw [this]; simpa using h

theorem step_route {r : Router M H} {L : Log M H} (h : Rep r.routes.head L) (v : Verb) {p : Str}
    (hc : CleanPath p) (hd : H) :
    ∃ X, Rep (r.insertRoute v.method p hd).1.routes.head X ∧ Keeps L X (v.reg p hd) := by
  obtain ⟨h1, h2, h3⟩ := h.insertRoute hc v.method hd
  by_cases hs : StarsOK (segments p)
  · by_cases hn : NoClash L (segments p)
    · exact ⟨_, (h3 hs hn).2, keeps_route v p hd hs⟩
    · obtain ⟨_, pre, x, post, hp, hr⟩ := h2 hs hn
      exact ⟨_, hr, keeps_add (by simp) (leaves_pre (by rw [callLog_verb]; exact List.mem_singleton.2 rfl) hs hp)⟩
  · obtain ⟨e, he, _⟩ := h1 hs
    rw [he]; exact ⟨L, h, keeps_refl _ _⟩

theorem step_mount {r s : Router M H} {L S : Log M H} (h : Rep r.routes.head L)
    (h' : Rep s.routes.head S) {p : Str} (hc : CleanPath p) (h0 : segments p ≠ []) (c : Reg M H)
    (hm : ¬ NotMount c) (hcl : callLog c = mountLog (segments p) [] S) :
    ∃ X, Rep (r.useRouter p s).1.routes.head X ∧ Keeps L X c := by
  obtain ⟨h1, _, h3, h4, h5⟩ := h.useRouter h' hc
  have hin : (⟨segments p, .nothing⟩ : Entry M H) ∈ callLog c := by rw [hcl, mountLog, if_neg h0]; simp
  by_cases hs : StarsOK (segments p)
  · by_cases hn : NoClash L (segments p)
    · by_cases hf : Free L (flat (segments p))
      · exact ⟨_, (h5 hs h0 hn hf).2, keeps_mount h0 hf hm hcl⟩
      · exact ⟨_, (h4 hs h0 hn hf).2, keeps_add (by simp) ⟨⟨_, hin, List.prefix_rfl⟩, .inl ⟨hm, hin⟩⟩⟩
    · obtain ⟨_, pre, x, post, hp, hr⟩ := h3 hs hn
      exact ⟨_, hr, keeps_add (by simp) (leaves_pre hin hs hp)⟩
  · obtain ⟨e, he, _⟩ := h1 hs
    rw [he]; exact ⟨L, h, keeps_refl _ _⟩

theorem step {r : Router M H} {L : Log M H} (h : Rep r.routes.head L) {c : Reg M H} (hc : CleanReg c)
    (hn : ∀ p sub, (c = .useRouter p sub ∨ c = .scope p sub) → segments p ≠ []) :
    ∃ X, Rep (c.run r).1.routes.head X ∧ Keeps L X c := by
  cases c with
  | get p k => exact step_route h .get (by simpa only [CleanReg] using hc) k
  | post p k => exact step_route h .post (by simpa only [CleanReg] using hc) k
  | put p k => exact step_route h .put (by simpa only [CleanReg] using hc) k
  | patch p k => exact step_route h .patch (by simpa only [CleanReg] using hc) k
  | delete p k => exact step_route h .delete (by simpa only [CleanReg] using hc) k
  | useService m => exact ⟨_, by simpa [Reg.run] using h.useService m, keeps_add (by simp)
      ⟨⟨⟨[], .middleware m⟩, by simp [callLog, logReg], List.prefix_rfl⟩, .inr (.inl (by simp [NoStar]))⟩⟩
  | useServiceTo p m =>
    obtain ⟨h1, h2, h3⟩ := h.useServiceTo (by simpa only [CleanReg] using hc) m
    rw [Reg.run]
    by_cases hs : StarsOK (segments p)
    · by_cases hn : NoClash L (segments p)
      · refine ⟨_, (h3 hs hn).2, ?_⟩
        split
        · exact keeps_refl _ _
        · next h0 =>
          exact keeps_add (by simp) ⟨⟨⟨segments p, .middleware m⟩, by simp [callLog, logReg, h0], List.prefix_rfl⟩,
            .inr (.inr ⟨hs, by simp⟩)⟩
      · obtain ⟨_, pre, x, post, hp, hr⟩ := h2 hs hn
        have h0 : segments p ≠ [] := by rw [hp]; simp
        exact ⟨_, hr, keeps_add (by simp)
          (leaves_pre (x := ⟨segments p, .middleware m⟩) (by simp [callLog, logReg, h0]) hs hp)⟩
    · obtain ⟨e, he, _⟩ := h1 hs
      rw [he]; exact ⟨L, h, keeps_refl _ _⟩
  | useRouter p sub =>
    simp only [CleanReg] at hc
    rw [Reg.run]
    have hs := (run_calls sub Router.new [] hc.2 Rep.new).2
    cases hb : runRegs sub Router.new with
    | mk s e =>
      cases e with
      | none =>
        rw [hb] at hs
        exact step_mount h (hs rfl) hc.1 (hn p sub (Or.inl rfl)) _ (by simp [NotMount])
          (by simp [callLog, logReg])
      | some e => exact ⟨L, h, keeps_refl _ _⟩
  | scope p sub =>
    simp only [CleanReg] at hc
    rw [Reg.run]
    have hs := (run_calls sub Router.new [] hc.2 Rep.new).2
    cases hb : runRegs sub Router.new with
    | mk s e =>
      cases e with
      | none =>
        rw [hb] at hs
        exact step_mount h (hs rfl) (cleanPath_slash hc.1)
          (by rw [segments_slash]; exact hn p sub (Or.inr rfl)) _
          (by simp [NotMount]) (by rw [segments_slash]; simp [callLog, logReg])
      | some e => exact ⟨L, h, keeps_refl _ _⟩

theorem caught_rep {cs : List (Reg M H)} (hc : CleanRegs cs) (hn : NoRootMount cs) {r : Router M H}
    {L : Log M H} (h : Rep r.routes.head L) : ∃ X, Rep (runCaught cs r).routes.head X ∧
      (∀ e ∈ L, e ∈ X) ∧
      (∀ m q k, (∀ c ∈ cs, ¬ RegistersAt c m q) → routeAt L q m = some k → routeAt X q m = some k) ∧
      ∀ e ∈ X, e ∈ L ∨ ∃ c ∈ cs, Leaves c e := by
  induction cs generalizing r L with
  | nil => exact ⟨L, h, fun _ h => h, fun _ _ _ _ h => h, fun _ h => .inl h⟩
  | cons c cs ih =>
    rw [CleanRegs] at hc
    obtain ⟨X, hX, hk⟩ := step h hc.1 (hn c (by simp))
    obtain ⟨Y, hY, h1, h2, h3⟩ := ih hc.2 (fun c' h' => hn c' (by simp [h'])) hX
    exact ⟨Y, hY, fun e he => h1 e (hk.1 e he), fun m q k hno hr =>
      h2 m q k (fun c' h' => hno c' (by simp [h'])) (hk.2.1 m q k (hno c (by simp)) hr), fun e he => by
      rcases h3 e he with h | ⟨c', h', hl⟩
      · exact (hk.2.2 e h).imp id fun hl => ⟨c, by simp, hl⟩
      · exact .inr ⟨c', by simp [h'], hl⟩⟩

/-- **C49 is false**: a rejected duplicate has already replaced the old handler. -/
theorem C49_false : ∃ (prog : Prog) (r : Router Nat Nat) (c : Reg Nat Nat),
    prog = [.get (s "/a") 1] ∧ build prog = (r, none) ∧ c = .get (s "/a") 2 ∧
    (c.run r).2 = some (.duplicated .get (s "/a")) ∧
    handlerFor r .get (s "/a") = some 1 ∧ handlerFor (c.run r).1 .get (s "/a") = some 2 :=
  ⟨_, _, _, rfl, build_eq (by decide +kernel), rfl, by decide +kernel, by decide +kernel,
    by decide +kernel⟩

/-- **C49, what holds**: after a completed program, make any further registrations, catching panics,
none of them a mount at the root.  A wildcard-free route of the program still serves the requests that
match it, with the same parameters, unless one of the further calls was for the same method and the
same characters.  Missing: those calls, for which the claim is false (the rejected handler wins), and routes with a wildcard,
see `C49_only_wildcards_partial`. -/
theorem C49_routes_survive_panics_partial {prog more : List (Reg M H)} (hc : CleanRegs prog)
    {r : Router M H} (hb : build prog = (r, none)) (hc' : CleanRegs more) (hn : NoRootMount more)
    {ss : List Str} {m : Method} {h : H} (he : ⟨ss, .route m h⟩ ∈ logOf prog) (hs : NoStar ss)
    (hno : ∀ c ∈ more, ¬ RegistersAt c m (flat ss)) {path : Str} {b : List (Str × Str)}
    (hm : Matches ss (segments path) b) :
    handlerFor r m path = some h ∧ handlerFor (runCaught more r) m path = some h ∧
    ∀ x, paramFor (runCaught more r) path x = b.lookup x := by
  have hr := build_rep hc hb
  have hg := build_good hc hb
  refine ⟨(C02_parameter_routes_reachable hb he hs hm).2.1, ?_⟩
  obtain ⟨X, hX, h1, h2, _⟩ := caught_rep hc' hn hr
  have hl := hX.tidy.lookup_match (h1 _ he) (by simp) hm hs
  obtain ⟨_, a2, _, a4⟩ := hX.obs_some hl
  exact ⟨by rw [a2]; exact h2 m _ h hno (hg.uniq _ he m h rfl), a4⟩

/-- Ambiguous, conflicting and malformed registrations between others. -/
example : let more : Prog := [.get (s "/users/:id") 50, .scope (s "users") [], .get (s "/x*") 51,
      .post (s "/users/all/") 52, .get (s "/user") 53]
    (more.map fun c => ((c.run (build demo).1).2 = none : Bool)) = [false, false, false, false, true] ∧
    handlerFor (runCaught more (build demo).1) .get (s "/users/all") = some 2 ∧
    handlerFor (runCaught more (build demo).1) .post (s "/users/all") = some 52 ∧
    handlerFor (runCaught more (build demo).1) .get (s "/user") = some 53 := by
  decide +kernel

end Obsidian.Props
