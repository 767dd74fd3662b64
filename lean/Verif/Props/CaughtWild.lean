import Verif.Props.Caught
import Verif.Props.Further

/-
C49, for requests that are served by a wildcard.
-/
namespace Obsidian.Props
open Obsidian Spec
variable {M H : Type}

/-- **C49 is false for wildcards, without any duplicate**: the registration of `/ab/c/x` is rejected, but it has
split the path `/abc/:id`, so that a request for `/ab/c/5` goes there and no longer to the wildcard. -/
theorem C49_false_wildcard : ∃ (prog : Prog) (r : Router Nat Nat) (c : Reg Nat Nat), CleanRegs prog ∧
    prog = [.get (s "/*") 1, .get (s "/abc/:id") 2] ∧ build prog = (r, none) ∧ c = .get (s "/ab/c/x") 3 ∧
    (c.run r).2 = some (.ambiguous (s "x") (s ":id") (s "/ab/c/x")) ∧
    handlerFor r .get (s "/ab/c/5") = some 1 ∧ handlerFor (c.run r).1 .get (s "/ab/c/5") = some 2 :=
  ⟨_, _, _, by simp only [CleanRegs, CleanReg]; decide +kernel, rfl, build_eq (by decide +kernel), rfl,
    by decide +kernel, by decide +kernel, by decide +kernel⟩

/-- **C49, what holds** of every request: after further registrations (none of them a mount at the root), any
number of which panicked and were caught, whoever was found is found.  Whoever was served keeps handler and
parameters, unless one of the calls was for the same method and the same characters, or a wildcard served
the request and a path in one of the calls begins with the characters before the wildcard.  Missing: these
requests, for which the claim is false (`C49_false`, `C49_false_wildcard`). -/
theorem C49_only_wildcards_partial {prog more : List (Reg M H)} (hc : CleanRegs prog) {r : Router M H}
    (hb : build prog = (r, none)) (hsm : NoStarMount (logOf prog)) (hc' : CleanRegs more) (hn : NoRootMount more)
    (hms : ∀ c ∈ more, ¬ NotMount c → NoStarMount (callLog c)) (path : Str) :
    (isFound r path = true → isFound (runCaught more r) path = true) ∧
    ∀ m h, handlerFor r m path = some h →
      (handlerFor (runCaught more r) m path = some h ∧ ∀ x, paramFor (runCaught more r) path x = paramFor r path x) ∨
      (∃ e ∈ logOf prog, e.what = .route m h ∧ ∃ c ∈ more, RegistersAt c m (flat e.segs)) ∨
      ∃ pre, ⟨pre ++ [['*']], .route m h⟩ ∈ logOf prog ∧ ∃ c ∈ more, ∃ e ∈ callLog c, flat pre <+: flat e.segs := by
  have hr := build_rep hc hb
  have hg := build_good hc hb
  obtain ⟨X, hX, hsub, hroute, hnew⟩ := caught_rep hc' hn hr
  have hsm' : NoStarMount X := by
    intro e he pre post hs
    rcases hnew e he with h | ⟨c, hcm, _, ⟨hm, hin⟩ | hns | ⟨hok, hw⟩⟩
    · exact hsm e h pre post hs
    · exact hms c hcm hm e hin pre post hs
    · exact absurd (by rw [hs]; simp) hns
    · exact ⟨(hok pre ['*'] post hs (by simp)).2, hw⟩
  refine ⟨fun hf => ?_, fun m h hh => ?_⟩
  · obtain ⟨q, b, hl⟩ := hr.found hf
    obtain ⟨e, he, rfl, hw⟩ := hasEntry_iff.1 (lookup_entry hl)
    obtain ⟨e', _, _, b', hl', _⟩ := lookup_further hr.tidy hX.tidy hsub hsm hsm' he hw hl
    exact (hX.obs_some hl').1
  · obtain ⟨q, b, hl, hq⟩ := hr.handler hh
    obtain ⟨e, he, rfl, hw⟩ := routeAt_mem hq
    obtain ⟨e', he', hw', b', hl', hcase⟩ := lookup_further hr.tidy hX.tidy hsub hsm hsm' he (by rw [hw]; simp) hl
    obtain ⟨_, a2, _, a4⟩ := hX.obs_some hl'
    rcases hcase with ⟨hfl, rfl⟩ | ⟨pre, hpre, ⟨e2, h2, h3, h4⟩, _⟩
    · by_cases hreg : ∃ c ∈ more, RegistersAt c m (flat e.segs)
      · exact .inr (.inl ⟨e, he, hw, hreg⟩)
      · refine .inl ⟨?_, fun x => by rw [a4, (hr.obs_some hl).2.2.2]⟩
        rw [a2, hfl]
        exact hroute m _ h (fun c hcm hra => hreg ⟨c, hcm, hra⟩) hq
    · rcases hnew e2 h2 with h | ⟨c, hcm, ⟨x, hx, w, hp⟩, _⟩
      · exact absurd h h3
      · refine .inr (.inr ⟨pre, by rw [← hpre, ← hw]; exact he, c, hcm, x, hx, h4.trans ?_⟩)
        rw [← hp, flat_append]
        exact List.prefix_append _ _

/-- Three rejected calls, none of them below `/files/img/`: by the theorem, the wildcard still serves its
requests. -/
example : let more : Prog := [.get (s "/files/doc/x") 7, .get (s "/x*") 8, .post (s "/files/doc/:n") 9]
    (more.map fun c => ((c.run (build nested).1).2 = none : Bool)) = [false, false, false] ∧
    handlerFor (runCaught more (build nested).1) .get (s "/files/img/a/b") = some 2 := by
  refine ⟨by decide +kernel, ?_⟩
  have hc : CleanRegs ([.get (s "/files/doc/x") 7, .get (s "/x*") 8, .post (s "/files/doc/:n") 9] : Prog) := by
    simp only [CleanRegs, CleanReg]; decide +kernel
  have hn : NoRootMount ([.get (s "/files/doc/x") 7, .get (s "/x*") 8, .post (s "/files/doc/:n") 9] : Prog) := by
    intro c hm p sub hs
    simp only [List.mem_cons, List.not_mem_nil, or_false] at hm
    rcases hm with rfl | rfl | rfl <;> simp at hs
  rcases (C49_only_wildcards_partial nested_clean (build_eq nested_ok) nested_star hc hn (by
      intro c hm h
      simp only [List.mem_cons, List.not_mem_nil, or_false] at hm
      rcases hm with rfl | rfl | rfl <;> simp [NotMount] at h) (s "/files/img/a/b")).2 .get 2 (by decide +kernel)
    with h | ⟨e, he, hw, c, hm, v, p, k, h1, h2, h3⟩ | ⟨pre, h1, c, hm, e, he, hp⟩
  · exact h.1
  · rw [nested_log] at he
    simp only [List.mem_cons, List.not_mem_nil, or_false] at he hm
    rcases he with rfl | rfl | rfl | rfl <;> simp at hw
    rcases hm with rfl | rfl | rfl <;> cases v <;> simp [Verb.reg] at h1 <;> rw [← h1.1] at h3 <;>
      exact absurd h3 (by decide +kernel)
  · rw [nested_log] at h1
    simp only [List.mem_cons, List.not_mem_nil, or_false, Entry.mk.injEq, What.route.injEq] at h1 hm
    rcases h1 with ⟨_, _, h⟩ | ⟨h, _⟩ | ⟨_, _, h⟩ | ⟨_, _, h⟩
    · cases h
    · rw [List.append_cancel_right h] at hp
      rcases hm with rfl | rfl | rfl <;> rw [callLog, logReg, List.nil_append, List.mem_singleton] at he <;> subst he <;>
        exact absurd hp (by decide +kernel)
    · cases h
    · cases h

end Obsidian.Props
