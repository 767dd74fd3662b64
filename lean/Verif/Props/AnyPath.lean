import Verif.Proofs.Place
import Verif.Spec.Observe
import Verif.Props.Common

/-
C04, C14, C65 for paths of any form: from which requests a path can be read.
-/
namespace Obsidian.Props
open Obsidian Spec Proofs
variable {M H : Type}

theorem search_at {r : Router M H} {L : Log M H} (h : SourcedAt r L) {path : Str} {v : RouteValueResult M H}
    (hs : r.searchRoute path = .ok (some v)) :
    (∀ mw ∈ v.getMiddlewares, ∃ ss req, ⟨ss, .middleware mw⟩ ∈ L ∧ Thinned (segments path) req ∧ ReadOffStart (flat ss) req) ∧
    ∀ m rt, v.getRoute m = some rt → ∃ ss req, ⟨ss, .route m rt.handler⟩ ∈ L ∧ Thinned (segments path) req ∧ ReadOffAll (flat ss) req := by
  have hroot := mws_at h
  unfold Router.searchRoute RouteTrie.searchRoute at hs
  by_cases h0 : segs path = []
  · rw [if_pos h0] at hs
    have hp : segments path = [] := by rw [← segs_eq]; exact h0
    rw [hp]
    injection hs with hs
    unfold RouteTrie.finish at hs
    split at hs
    · next w hw =>
      injection hs with hs
      subst hs
      refine ⟨fun mw hm => ?_, fun m rt hr => ?_⟩
      · obtain ⟨ss, e1, e2⟩ := hroot mw hm
        exact ⟨ss, [], e2, ⟨List.Sublist.refl _, rfl⟩, by rw [e1]; exact .done trivial⟩
      · obtain ⟨ss, e1, e2⟩ := ((allAt_iff.1 h).1 w hw).2 m rt hr
        exact ⟨ss, [], e2, ⟨List.Sublist.refl _, rfl⟩, by rw [e1]; exact .done rfl⟩
    · cases hs
  · rw [if_neg h0] at hs
    cases hq : segs path with
    | nil => exact absurd hq h0
    | cons curr key =>
      have hp : segments path = curr :: key := by rw [← segs_eq]; exact hq
      rw [hp]
      rw [hq] at hs
      have hr := getNextNode_read r.routes.head [] curr key HMap.empty r.routes.head.mws false h
      revert hs hr
      cases r.routes.head.getNextNode (curr :: key) HMap.empty r.routes.head.mws false with
      | panic p => intro hs _; cases hs
      | notFound a b c => intro hs _; cases hs
      | found n ps mws =>
        intro hs hr
        obtain ⟨g1, w, key', g2, g3, g4⟩ := hr
        rw [List.nil_append] at g4
        injection hs with hs
        unfold RouteTrie.finish at hs
        split at hs
        · next x hx =>
          injection hs with hs
          subst hs
          refine ⟨fun mw hm => ?_, fun m rt hrt => ?_⟩
          · rcases g1 mw hm with hm | ⟨ss, w', k', e1, e2, e3, e4⟩
            · obtain ⟨ss, e1, e2⟩ := hroot mw hm
              exact ⟨ss, curr :: key, e2, ⟨List.Sublist.refl _, rfl⟩, by rw [e1]; exact .done trivial⟩
            · exact ⟨ss, curr :: k', e2, ⟨e3.cons_cons _, rfl⟩, by rw [e1]; exact e4⟩
          · obtain ⟨ss, e1, e2⟩ := ((allAt_iff.1 g4).1 x hx).2 m rt hrt
            exact ⟨ss, curr :: key', e2, ⟨g2.cons_cons _, rfl⟩, by rw [e1]; exact g3⟩
        · cases hs

theorem handler_at {r : Router M H} {L : Log M H} (h : SourcedAt r L) {m : Method} {path : Str} {k : H}
    (hh : handlerFor r m path = some k) :
    ∃ ss req, ⟨ss, .route m k⟩ ∈ L ∧ Thinned (segments path) req ∧ ReadOffAll (flat ss) req := by
  unfold handlerFor at hh
  split at hh
  · next v hs =>
    cases hr : v.getRoute m with
    | none => rw [hr] at hh; cases hh
    | some rt => rw [hr] at hh; injection hh with hh; subst hh; exact (search_at h hs).2 m rt hr
  · cases hh

theorem chain_at {r : Router M H} {L : Log M H} (h : SourcedAt r L) {path : Str} {c : List M}
    (hh : chainFor r path = some c) :
    ∀ mw ∈ c, ∃ ss req, ⟨ss, .middleware mw⟩ ∈ L ∧ Thinned (segments path) req ∧ ReadOffStart (flat ss) req := by
  unfold chainFor at hh
  split at hh
  · next v hs => injection hh with hh; subst hh; exact (search_at h hs).1
  · cases hh

theorem build_at {prog : List (Reg M H)} {r : Router M H} (hb : build prog = (r, none)) : SourcedAt r (logOf prog) := by
  have hs := runRegs_at prog (L := []) sourcedAt_new (by rw [show runRegs prog Router.new = (r, none) from hb])
  rwa [show runRegs prog Router.new = (r, none) from hb] at hs

/-- **C04, what holds for paths of any form** (colons anywhere in a segment): whoever serves a request was
registered for its method at a path that can be read off the request, if some of its segments after the first
one are left out.  Missing: in the documented syntax none are left out (`C04_served_by_matching_route_partial`);
otherwise the stronger claim is false (`C65_false_skipped`). -/
theorem C04_any_path_partial {prog : List (Reg M H)} {r : Router M H} (hb : build prog = (r, none)) {m : Method} {path : Str} {h : H}
    (hh : handlerFor r m path = some h) :
    ∃ ss req, ⟨ss, .route m h⟩ ∈ logOf prog ∧ Thinned (segments path) req ∧ ReadOffAll (flat ss) req :=
  handler_at (build_at hb) hh

/-- **C14, what holds for paths of any form**: a middleware in the chain of a request was added for a path that can
be read off the beginning of the request, if some of its segments after the first one are left out.
Missing: as for `C04_any_path_partial`. -/
theorem C14_any_path_partial {prog : List (Reg M H)} {r : Router M H} (hb : build prog = (r, none)) {path : Str} {c : List M}
    (hc : chainFor r path = some c) {mw : M} (hm : mw ∈ c) :
    ∃ ss req, ⟨ss, .middleware mw⟩ ∈ logOf prog ∧ Thinned (segments path) req ∧ ReadOffStart (flat ss) req :=
  chain_at (build_at hb) hc mw hm

/-- **C65 fails** also for the request: with `/ac/x` and `/a:b`, the request `/a/c/d/x` is served by `/ac/x` (the
segment `d` is left out), and the request `/a/c/x` is not. -/
theorem C65_false_skipped : ∃ (prog : Prog) (r : Router Nat Nat), prog = [.get (s "/ac/x") 1, .get (s "/a:b") 2] ∧
    build prog = (r, none) ∧ handlerFor r .get (s "/a/c/d/x") = some 1 ∧ handlerFor r .get (s "/a/c/x") = none :=
  ⟨_, _, rfl, build_eq (by decide +kernel), by decide +kernel, by decide +kernel⟩

/-- **C65, what holds** for any sequence of calls, with paths of any form, whether they panic or not: what serves a
request, and what runs before it, comes from calls whose paths can be read off the request, if some of its
segments after the first one are left out. -/
theorem C65_reading_partial (cs : List (Reg M H)) (path : Str) :
    (∀ m h, handlerFor (runCaught cs Router.new) m path = some h → ∃ x ∈ cs, ∃ ss req, ⟨ss, .route m h⟩ ∈ callLog x ∧
      Thinned (segments path) req ∧ ReadOffAll (flat ss) req) ∧
    ∀ c, chainFor (runCaught cs Router.new) path = some c → ∀ mw ∈ c, ∃ x ∈ cs, ∃ ss req, ⟨ss, .middleware mw⟩ ∈ callLog x ∧
      Thinned (segments path) req ∧ ReadOffStart (flat ss) req := by
  have h := caught_at (cs := cs) (L := cs.flatMap callLog) (fun x hx e he => List.mem_flatMap.2 ⟨x, hx, he⟩)
    (sourcedAt_mono (by simp) sourcedAt_new)
  refine ⟨fun m k hh => ?_, fun c hc mw hm => ?_⟩
  · obtain ⟨ss, req, h1, h2, h3⟩ := handler_at h hh
    obtain ⟨x, hx, he⟩ := List.mem_flatMap.1 h1
    exact ⟨x, hx, ss, req, he, h2, h3⟩
  · obtain ⟨ss, req, h1, h2, h3⟩ := chain_at h hc mw hm
    obtain ⟨x, hx, he⟩ := List.mem_flatMap.1 h1
    exact ⟨x, hx, ss, req, he, h2, h3⟩

/-- What can be read off a request begins with its first character, unless it begins with a parameter or a wildcard. -/
theorem reads_first {left : List Str → Prop} {c : Char} {q : Str} {req : List Str} (h : ReadOff left false (c :: q) req)
    (h1 : c ≠ ':') (h2 : c ≠ '*') : ∃ t rest, req = (c :: t) :: rest := by
  generalize hp : c :: q = p at h
  cases h with
  | done _ => cases hp
  | char h => injection hp with e1 e2; subst e1; exact ⟨_, _, rfl⟩
  | param h => injection hp with e1 e2; exact absurd e1 h1
  | star => injection hp with e1 e2; exact absurd e1 h2

/-- Two times of day, one with a colon inside the segment: requests that do not begin with `t` are not served. -/
example : ∀ path, (∀ t rest, segments path ≠ ('t' :: t) :: rest) → ∀ m,
    handlerFor (runCaught ([.get (s "/time/12") 1, .get (s "/time/12:30") 2] : Prog) Router.new) m path = none := by
  intro path hp m
  cases hh : handlerFor (runCaught ([.get (s "/time/12") 1, .get (s "/time/12:30") 2] : Prog) Router.new) m path with
  | none => rfl
  | some h =>
    exfalso
    obtain ⟨x, hx, ss, req, h1, h2, h3⟩ := (C65_reading_partial _ path).1 m h hh
    have key : ∃ q, flat ss = 't' :: q := by
      simp only [List.mem_cons, List.not_mem_nil, or_false] at hx
      rcases hx with rfl | rfl
      · simp only [callLog, logReg, List.nil_append, List.mem_singleton, Entry.mk.injEq] at h1
        exact ⟨s "ime12", by rw [h1.1]; decide +kernel⟩
      · simp only [callLog, logReg, List.nil_append, List.mem_singleton, Entry.mk.injEq] at h1
        exact ⟨s "ime12:30", by rw [h1.1]; decide +kernel⟩
    obtain ⟨q, hq⟩ := key
    rw [hq] at h3
    obtain ⟨t, rest, rfl⟩ := reads_first h3 (by decide) (by decide)
    have := h2.2
    cases hs : segments path with
    | nil => rw [hs] at this; cases this
    | cons a b =>
      rw [hs] at this
      injection this with this
      exact hp t b (by rw [hs, this])

/-- The request `/a/c/d/x` without `d` reads as `/ac/x`. -/
example : Thinned (segments (s "/a/c/d/x")) [s "a", s "c", s "x"] ∧ ReadOffAll (flat (segments (s "/ac/x"))) [s "a", s "c", s "x"] :=
  ⟨⟨by decide +kernel, by decide +kernel⟩, by
    rw [show flat (segments (s "/ac/x")) = ['a', 'c', 'x'] by decide +kernel]
    exact .char (.next (.char (.next (.char (.next (.done rfl))))))⟩

end Obsidian.Props
