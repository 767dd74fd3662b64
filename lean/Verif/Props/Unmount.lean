import Verif.Spec.Unmount
import Verif.Props.Mount
import Verif.Props.Order
import Verif.Props.Answers

/-
C18, C07: programs with nested routers and programs without.
-/
namespace Obsidian.Props
open Obsidian Spec
variable {M H : Type}

theorem mount_or (c : Reg M H) : NotMount c ∨ ∃ p sub, IsMount c p sub := by
  cases c with
  | useRouter p sub => exact Or.inr ⟨p, sub, Or.inl rfl⟩
  | scope p sub => exact Or.inr ⟨p, sub, Or.inr rfl⟩
  | _ => exact Or.inl trivial

theorem unmountReg_plain {c : Reg M H} (h : NotMount c) : unmountReg c = [c] := by
  cases c <;> first | exact absurd h id | simp only [unmountReg]

theorem unmountReg_mount {c : Reg M H} {p : Str} {sub : List (Reg M H)} (h : IsMount c p sub) :
    unmountReg c = (unmount sub).map (prefixReg p) := by
  rcases h with rfl | rfl <;> rw [unmountReg]

theorem tameReg_mount {c : Reg M H} {p : Str} {sub : List (Reg M H)} (h : IsMount c p sub) (ht : TameReg c) :
    segments p ≠ [] ∧ NoStar (segments p) ∧ sub ≠ [] ∧ NoRootMw sub ∧ Tame sub := by
  rcases h with rfl | rfl <;> simpa only [TameReg] using ht

theorem prefixReg_plain {p : Str} {c : Reg M H} (h : NotMount c) : NotMount (prefixReg p c) := by
  cases c <;> first | exact absurd h id | trivial

mutual
theorem unmountReg_notMount : ∀ (c : Reg M H), ∀ d ∈ unmountReg c, NotMount d
  | .useRouter p sub, d, h => by
    rw [unmountReg] at h
    obtain ⟨e, he, rfl⟩ := List.mem_map.1 h
    exact prefixReg_plain (unmount_notMount sub e he)
  | .scope p sub, d, h => by
    rw [unmountReg] at h
    obtain ⟨e, he, rfl⟩ := List.mem_map.1 h
    exact prefixReg_plain (unmount_notMount sub e he)
  | .get p x, d, h => by simp only [unmountReg] at h; cases List.mem_singleton.1 h; trivial
  | .post p x, d, h => by simp only [unmountReg] at h; cases List.mem_singleton.1 h; trivial
  | .put p x, d, h => by simp only [unmountReg] at h; cases List.mem_singleton.1 h; trivial
  | .patch p x, d, h => by simp only [unmountReg] at h; cases List.mem_singleton.1 h; trivial
  | .delete p x, d, h => by simp only [unmountReg] at h; cases List.mem_singleton.1 h; trivial
  | .useService x, d, h => by simp only [unmountReg] at h; cases List.mem_singleton.1 h; trivial
  | .useServiceTo p x, d, h => by simp only [unmountReg] at h; cases List.mem_singleton.1 h; trivial
theorem unmount_notMount : ∀ (cs : List (Reg M H)), ∀ d ∈ unmount cs, NotMount d
  | [], d, h => by rw [unmount] at h; cases h
  | c :: cs, d, h => by
    rw [unmount, List.mem_append] at h
    exact h.elim (unmountReg_notMount c d) (unmount_notMount cs d)
end

theorem noRootMount_of {cs : List (Reg M H)} (h : ∀ c ∈ cs, NotMount c) : NoRootMount cs := by
  intro c hc p sub hm
  have := h c hc
  rcases hm with rfl | rfl <;> exact absurd this id

theorem noRootMw_prefix {p : Str} (h0 : segments p ≠ []) (cs : List (Reg M H)) : NoRootMw (cs.map (prefixReg p)) := by
  intro q m h
  obtain ⟨c, _, hc⟩ := List.mem_map.1 h
  cases c <;> simp only [prefixReg, Reg.useServiceTo.injEq, reduceCtorEq] at hc
  · rw [← hc.1]; exact h0
  · rw [← hc.1, segments_join]; simp [h0]

theorem noRootMw_append {a b : List (Reg M H)} (ha : NoRootMw a) (hb : NoRootMw b) : NoRootMw (a ++ b) := by
  intro q m h
  exact (List.mem_append.1 h).elim (ha q m) (hb q m)

theorem unmount_noRootMw : ∀ (cs : List (Reg M H)), Tame cs → NoRootMw cs → NoRootMw (unmount cs)
  | [], _, _ => by intro q m h; rw [unmount] at h; cases h
  | c :: cs, ht, hn => by
    rw [Tame] at ht
    rw [unmount]
    refine noRootMw_append ?_ (unmount_noRootMw cs ht.2 fun q m h => hn q m (List.mem_cons_of_mem _ h))
    rcases mount_or c with hc | ⟨p, sub, hm⟩
    · rw [unmountReg_plain hc]
      intro q m h
      exact hn q m (by rw [List.mem_singleton.1 h]; exact List.mem_cons_self)
    · rw [unmountReg_mount hm]
      exact noRootMw_prefix (tameReg_mount hm ht.1).1 _

mutual
theorem unmountReg_ne : ∀ (c : Reg M H), TameReg c → unmountReg c ≠ []
  | .useRouter p sub, h => by
    rw [TameReg] at h; rw [unmountReg]
    simpa using unmount_ne sub h.2.2.2.2 h.2.2.1
  | .scope p sub, h => by
    rw [TameReg] at h; rw [unmountReg]
    simpa using unmount_ne sub h.2.2.2.2 h.2.2.1
  | .get p x, _ => by simp only [unmountReg]; simp
  | .post p x, _ => by simp only [unmountReg]; simp
  | .put p x, _ => by simp only [unmountReg]; simp
  | .patch p x, _ => by simp only [unmountReg]; simp
  | .delete p x, _ => by simp only [unmountReg]; simp
  | .useService x, _ => by simp only [unmountReg]; simp
  | .useServiceTo p x, _ => by simp only [unmountReg]; simp
theorem unmount_ne : ∀ (cs : List (Reg M H)), Tame cs → cs ≠ [] → unmount cs ≠ []
  | [], _, h => absurd rfl h
  | c :: cs, ht, _ => by
    rw [Tame] at ht
    rw [unmount]
    simp [unmountReg_ne c ht.1]
end

mutual
theorem unmountReg_run : ∀ (c : Reg M H), TameReg c → ∀ {r r' : Router M H}, c.run r = (r', none) →
    runRegs (unmountReg c) r = (r', none)
  | .useRouter p sub, ht, r, r', h => by
    rw [TameReg] at ht
    rw [Reg.run] at h
    rw [unmountReg]
    cases hs : runRegs sub Router.new with
    | mk rs e =>
      rw [hs] at h
      cases e with
      | some e => cases h
      | none =>
        exact graft_prefix ht.1 ht.2.1 (unmount_ne sub ht.2.2.2.2 ht.2.2.1) (noRootMount_of (unmount_notMount sub))
          (unmount_noRootMw sub ht.2.2.2.2 ht.2.2.2.1) rfl (unmount_run sub ht.2.2.2.2 hs) h
  | .scope p sub, ht, r, r', h => by
    rw [TameReg] at ht
    rw [Reg.run] at h
    rw [unmountReg]
    cases hs : runRegs sub Router.new with
    | mk rs e =>
      rw [hs] at h
      cases e with
      | some e => cases h
      | none =>
        exact graft_prefix ht.1 ht.2.1 (unmount_ne sub ht.2.2.2.2 ht.2.2.1) (noRootMount_of (unmount_notMount sub))
          (unmount_noRootMw sub ht.2.2.2.2 ht.2.2.2.1) (segments_slash p) (unmount_run sub ht.2.2.2.2 hs) h
  | .get p x, _, r, r', h => by simp only [unmountReg]; rw [runRegs_single]; exact h
  | .post p x, _, r, r', h => by simp only [unmountReg]; rw [runRegs_single]; exact h
  | .put p x, _, r, r', h => by simp only [unmountReg]; rw [runRegs_single]; exact h
  | .patch p x, _, r, r', h => by simp only [unmountReg]; rw [runRegs_single]; exact h
  | .delete p x, _, r, r', h => by simp only [unmountReg]; rw [runRegs_single]; exact h
  | .useService x, _, r, r', h => by simp only [unmountReg]; rw [runRegs_single]; exact h
  | .useServiceTo p x, _, r, r', h => by simp only [unmountReg]; rw [runRegs_single]; exact h
theorem unmount_run : ∀ (cs : List (Reg M H)), Tame cs → ∀ {r r' : Router M H}, runRegs cs r = (r', none) →
    runRegs (unmount cs) r = (r', none)
  | [], _, r, r', h => by rw [unmount]; exact h
  | c :: cs, ht, r, r', h => by
    rw [Tame] at ht
    obtain ⟨s, h1, h2⟩ := runRegs_none_cons h
    rw [unmount, runRegs_two, unmountReg_run c ht.1 h1, if_pos rfl]
    exact unmount_run cs ht.2 h2
end

/-- **C18, to any depth**: an accepted program with nested routers leaves the very same router as the
program without them, in which the calls of the nested routers are made with the paths in front. -/
theorem C18_nothing_nested {prog : List (Reg M H)} (ht : Tame prog) {r : Router M H} (hb : build prog = (r, none)) :
    build (unmount prog) = (r, none) ∧ ∀ c ∈ unmount prog, NotMount c :=
  ⟨unmount_run prog ht hb, unmount_notMount prog⟩

theorem cleanReg_prefix {p : Str} (hp : CleanPath p) {c : Reg M H} (hc : CleanReg c) :
    CleanReg (prefixReg p c) := by
  cases c with
  | useService m => simpa [prefixReg, CleanReg] using hp
  | useRouter q sub => simp only [prefixReg, CleanReg] at hc ⊢; exact ⟨cleanPath_join hp hc.1, hc.2⟩
  | scope q sub => simp only [prefixReg, CleanReg] at hc ⊢; exact ⟨cleanPath_join hp hc.1, hc.2⟩
  | _ => simp only [prefixReg, CleanReg] at hc ⊢; exact cleanPath_join hp hc

mutual
theorem unmountReg_clean : ∀ (c : Reg M H), CleanReg c → CleanRegs (unmountReg c)
  | .useRouter p sub, h => by
    rw [CleanReg] at h; rw [unmountReg]
    exact cleanRegs_iff.2 fun d hd => by
      obtain ⟨e, he, rfl⟩ := List.mem_map.1 hd
      exact cleanReg_prefix h.1 (cleanRegs_iff.1 (unmount_clean sub h.2) e he)
  | .scope p sub, h => by
    rw [CleanReg] at h; rw [unmountReg]
    exact cleanRegs_iff.2 fun d hd => by
      obtain ⟨e, he, rfl⟩ := List.mem_map.1 hd
      exact cleanReg_prefix h.1 (cleanRegs_iff.1 (unmount_clean sub h.2) e he)
  | .get p x, h => by simp only [unmountReg]; rw [CleanRegs, CleanRegs]; exact ⟨h, trivial⟩
  | .post p x, h => by simp only [unmountReg]; rw [CleanRegs, CleanRegs]; exact ⟨h, trivial⟩
  | .put p x, h => by simp only [unmountReg]; rw [CleanRegs, CleanRegs]; exact ⟨h, trivial⟩
  | .patch p x, h => by simp only [unmountReg]; rw [CleanRegs, CleanRegs]; exact ⟨h, trivial⟩
  | .delete p x, h => by simp only [unmountReg]; rw [CleanRegs, CleanRegs]; exact ⟨h, trivial⟩
  | .useService x, h => by simp only [unmountReg]; rw [CleanRegs, CleanRegs]; exact ⟨h, trivial⟩
  | .useServiceTo p x, h => by simp only [unmountReg]; rw [CleanRegs, CleanRegs]; exact ⟨h, trivial⟩
theorem unmount_clean : ∀ (cs : List (Reg M H)), CleanRegs cs → CleanRegs (unmount cs)
  | [], h => by rw [unmount]; exact h
  | c :: cs, h => by
    rw [CleanRegs] at h
    rw [unmount, cleanRegs_append]
    exact ⟨unmountReg_clean c h.1, unmount_clean cs h.2⟩
end

/-- **C20, what is mounted does not matter**: whether a router can be mounted at a path (other than the
root) depends on the path and on what is registered already; all that is asked of the nested program is
that it can be run by itself.  Paths of any form. -/
theorem C20_any_router_partial {prog sub : List (Reg M H)} {c : Reg M H} {p : Str} (hm : IsMount c p sub)
    (h0 : segments p ≠ []) : (build (prog ++ [c])).2 = none ↔
      (build (prog ++ [.useRouter p []])).2 = none ∧ (build sub).2 = none := by
  obtain ⟨path, hpath, hrun⟩ := useRouter_run hm
  have hsame : ∀ r rs : Router M H, (r.useRouter path rs).2 = none ↔ (r.useRouter p Router.new).2 = none := by
    intro r rs
    rw [Router.useRouter, Router.useRouter, RouteTrie.insertSubRoute, RouteTrie.insertSubRoute]
    cases h1 : checkStars path with
    | some e =>
      cases h2 : checkStars p with
      | some e' => simp
      | none => rw [checkStars_iff, ← hpath, ← checkStars_iff, h1] at h2; cases h2
    | none =>
      rw [checkStars_iff, hpath, ← checkStars_iff] at h1
      rw [h1]
      dsimp only
      rw [segs_eq, segs_eq, hpath, if_neg h0, if_neg h0]
      rcases Node.focuses (segments p) h0 r.routes.head with ⟨t, C, hC⟩ | hC
      · rw [hC.first, hC.first, RouteTrie.graft, RouteTrie.graft]
        split <;> simp
      · exact iff_of_false (hC _ _) (hC _ _)
  rw [build, build, runRegs_two, runRegs_two]
  by_cases hpre : (runRegs prog Router.new).2 = none
  · rw [if_pos hpre, if_pos hpre, runRegs_single, runRegs_single, hrun, Reg.run, runRegs, build]
    cases hs : runRegs sub Router.new with
    | mk rs e =>
      cases e with
      | none => simpa using hsame _ rs
      | some e => simp
  · rw [if_neg hpre, if_neg hpre]
    exact iff_of_false hpre fun h => hpre h.1

/-- **C07** with nested routers: two accepted programs that consist of the same calls, whichever of them
are made through nested routers and in whichever order, cannot be told apart by any request, as long as
the middlewares are added in the same order. -/
theorem C07_with_mounts {prog prog' : List (Reg M H)} (hc : CleanRegs prog) (ht : Tame prog) (ht' : Tame prog')
    (hp : (unmount prog).Perm (unmount prog')) (hmw : (unmount prog).filter isMw = (unmount prog').filter isMw)
    {r r' : Router M H} (hb : build prog = (r, none)) (hb' : build prog' = (r', none)) (path : Str) :
    SameAt r r' path :=
  (C07_order_irrelevant (unmount_clean prog hc) (unmount_notMount prog) hp hmw).2 r r'
    (C18_nothing_nested ht hb).1 (C18_nothing_nested ht' hb').1 path

/-- **C07** for applications with nested routers. -/
theorem C07_answers_with_mounts {U : Univ} {σ : Type} {prog prog' : List (Reg (Middleware U σ) (Handler U σ))}
    (hc : CleanRegs prog) (ht : Tame prog) (ht' : Tame prog') (hp : (unmount prog).Perm (unmount prog'))
    (hmw : (unmount prog).filter isMw = (unmount prog').filter isMw) {a a' : App U σ}
    (hb : build prog = (a.router, none)) (hb' : build prog' = (a'.router, none)) (hs : a.appState = a'.appState)
    (req : Request U) : a.serve req = a'.serve req :=
  serve_congr (C07_with_mounts hc ht ht' hp hmw hb hb' req.path) hs

/-! ### Examples -/

/-- An application with nested routers. -/
def nestedCalls : Prog := [.useService 100, .get (s "/") 1,
  .scope (s "api") [.useService 101, .scope (s "v1") [.get (s "/:id") 2, .get (s ":id/*") 3], .post (s "v1/:id") 4],
  .get (s "/apx") 5]

/-- The same calls without nested routers, in another order. -/
def plainCalls : Prog := [.get (s "api/v1/:id/*") 3, .post (s "api/v1/:id") 4, .get (s "/apx") 5,
  .useService 100, .get (s "/") 1, .useServiceTo (s "api") 101, .get (s "api/v1//:id") 2]

theorem nestedCalls_tame : Tame nestedCalls := by
  simp only [nestedCalls, Tame, TameReg, and_true, true_and]
  refine ⟨by decide +kernel, by decide +kernel, by simp, ?_, by decide +kernel, by decide +kernel, by simp, ?_⟩ <;>
  · intro p m h; simp at h

theorem nestedCalls_unmount : unmount nestedCalls = plainCalls.drop 3 ++ plainCalls.take 3 := by
  simp only [nestedCalls, plainCalls, unmount, unmountReg]; rfl

example : build (unmount nestedCalls) = ((build nestedCalls).1, none) :=
  (C18_nothing_nested nestedCalls_tame (build_eq (by decide +kernel))).1

example (path : Str) : SameAt (build nestedCalls).1 (build plainCalls).1 path := by
  have hp : unmount plainCalls = plainCalls := by simp only [plainCalls, unmount, unmountReg]; rfl
  refine C07_with_mounts (prog := nestedCalls) (prog' := plainCalls) ?_ nestedCalls_tame ?_ ?_ ?_
    (build_eq (by decide +kernel)) (build_eq (by decide +kernel)) path
  · simp only [nestedCalls, CleanRegs, CleanReg, and_true, true_and]; decide +kernel
  · simp only [plainCalls, Tame, TameReg, and_true]
  · rw [hp, nestedCalls_unmount]
    exact List.perm_append_comm.trans (by rw [List.take_append_drop])
  · rw [hp, nestedCalls_unmount]; rfl

example : chainFor (build nestedCalls).1 (s "/api/v1/7") = some [100, 101] ∧
    chainFor (build plainCalls).1 (s "/api/v1/7") = some [100, 101] := by decide +kernel

example : (build [.get (s "/a:id") 1, .scope (s "b") [.get (s ":x") 2, .get (s ":x") 2]] : Out (Router Nat Nat)).2 ≠ none ∧
    (build [.get (s "/a:id") 1, .scope (s "b") [.get (s ":x") 2]] : Out (Router Nat Nat)).2 = none ∧
    (build [.get (s "/a:id") 1, .useRouter (s "b") []] : Out (Router Nat Nat)).2 = none ∧
    (build [.get (s "/a:id") 1, .useRouter (s "a") []] : Out (Router Nat Nat)).2 ≠ none := by decide +kernel

/-- That both programs are accepted has to be assumed: a mount is rejected where something is registered
already. -/
example : (build [.scope (s "a") [.get (s "/b") 1], .get (s "a/c") 2] : Out (Router Nat Nat)).2 = none ∧
    (build [.get (s "a/c") 2, .scope (s "a") [.get (s "/b") 1]] : Out (Router Nat Nat)).2 ≠ none := by decide +kernel

end Obsidian.Props
