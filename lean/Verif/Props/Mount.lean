import Verif.Spec.Calls
import Verif.Proofs.Shift
import Verif.Proofs.Prefix
import Verif.Props.Slashes
import Verif.Props.Middleware

/-
C18, C19: nested routers.
-/
namespace Obsidian.Props
open Obsidian Spec
variable {M H : Type}

theorem regsOK_append (a b : List (Reg M H)) (L : Log M H) :
    RegsOK (a ++ b) L ↔ RegsOK a L ∧ RegsOK b (logRegs a L) := by
  induction a generalizing L with
  | nil => simp [RegsOK, logRegs]
  | cons c a ih => simp [RegsOK, logRegs, ih, and_assoc]

theorem cleanRegs_append (a b : List (Reg M H)) : CleanRegs (a ++ b) ↔ CleanRegs a ∧ CleanRegs b := by
  induction a with
  | nil => simp [CleanRegs]
  | cons c a ih => simp [CleanRegs, ih, and_assoc]

theorem segments_join (p q : Str) : segments (p ++ '/' :: q) = segments p ++ segments q :=
  segmentsFrom_slash [] p q

theorem cleanPath_join {p q : Str} (hp : CleanPath p) (hq : CleanPath q) :
    CleanPath (p ++ '/' :: q) := by
  intro x hx
  rw [segments_join, List.mem_append] at hx
  exact hx.elim (hp x) (hq x)

/-! ### C18 -/

theorem useRouter_run {c : Reg M H} {p : Str} {sub : List (Reg M H)} (hm : IsMount c p sub) :
    ∃ path, segments path = segments p ∧ ∀ r, c.run r = match runRegs sub Router.new with
      | (s, none) => r.useRouter path s
      | (_, some e) => (r, some e) := by
  rcases hm with rfl | rfl
  · exact ⟨p, rfl, fun r => by rw [Reg.run]; cases runRegs sub Router.new with | mk s e => cases e <;> rfl⟩
  · exact ⟨'/' :: p, segments_slash p, fun r => by rw [Reg.run]; cases runRegs sub Router.new with | mk s e => cases e <;> rfl⟩

theorem runRegs_two (pre post : List (Reg M H)) (r : Router M H) : runRegs (pre ++ post) r =
    if (runRegs pre r).2 = none then runRegs post (runRegs pre r).1 else runRegs pre r := by
  induction pre generalizing r with
  | nil => simp [runRegs]
  | cons c pre ih =>
    rw [List.cons_append, runRegs, runRegs]
    split
    · exact ih _
    · simp

theorem runRegs_single (c : Reg M H) (r : Router M H) : runRegs [c] r = c.run r := by
  rw [runRegs]
  split
  · next e => rw [e, runRegs]
  · next e => rw [e]

/-- **C18**: mounting a (non-empty) router at a path other than the root and without wildcard is the
same as making all of its registrations with the path in front: the longer program is accepted too, and
leaves the very same router, whatever was registered before and after, and whatever the paths look like.
(The nested program may itself contain mounts, to which the theorem applies again.) -/
theorem C18_mount_is_prefixing {pre post sub : List (Reg M H)} {c : Reg M H} {p : Str}
    (hm : IsMount c p sub) {r : Router M H}
    (hb : build (pre ++ c :: post) = (r, none)) (h0 : segments p ≠ []) (hs : NoStar (segments p))
    (hsub : sub ≠ []) (hrm : NoRootMount sub) (hmw : NoRootMw sub) :
    build (pre ++ sub.map (prefixReg p) ++ post) = (r, none) := by
  obtain ⟨path, hpath, hrun⟩ := useRouter_run hm
  rw [build, runRegs_two] at hb
  rw [build, List.append_assoc, runRegs_two]
  split at hb
  · next hpre =>
    rw [if_pos hpre]
    obtain ⟨r₂, h1, h2⟩ := runRegs_none_cons hb
    rw [hrun] at h1
    cases hsr : runRegs sub Router.new with
    | mk rs e =>
      rw [hsr] at h1
      cases e with
      | some e => cases h1
      | none =>
        have := graft_prefix h0 hs hsub hrm hmw hpath hsr h1
        rw [runRegs_two, this]
        simpa using h2
  · next hpre => rw [hb] at hpre; exact absurd rfl hpre

/-- **C18, what is accepted**: where a router can be mounted at all (an empty one can be), the mount and
the registrations with the path in front are accepted in exactly the same cases. -/
theorem C18_same_cases {pre post sub : List (Reg M H)} {c : Reg M H} {p : Str} (hm : IsMount c p sub)
    (hfree : (build (pre ++ [.useRouter p []])).2 = none) (h0 : segments p ≠ []) (hs : NoStar (segments p))
    (hsub : sub ≠ []) (hrm : NoRootMount sub) (hmw : NoRootMw sub) :
    (build (pre ++ c :: post)).2 = none ↔ (build (pre ++ sub.map (prefixReg p) ++ post)).2 = none := by
  refine ⟨fun h => by rw [C18_mount_is_prefixing hm (Prod.ext rfl h) h0 hs hsub hrm hmw], fun h => ?_⟩
  obtain ⟨path, hpath, hrun⟩ := useRouter_run hm
  rw [build, runRegs_two] at hfree
  split at hfree
  · next hpre =>
    rw [runRegs_single, Reg.run, runRegs] at hfree
    have hb := h
    rw [build, List.append_assoc, runRegs_two, if_pos hpre, runRegs_two] at h
    split at h
    · next hall =>
      obtain ⟨h1, h2⟩ := prefix_graft (path := path) h0 hs hrm hmw hpath hfree hall
      have h3 := h2 (runRegs sub Router.new).1
      have h4 := graft_prefix h0 hs hsub hrm hmw hpath (Prod.ext rfl h1) (Prod.ext rfl h3)
      rw [h4] at h
      rw [build, runRegs_two, if_pos hpre, runRegs, hrun, show runRegs sub Router.new = ((runRegs sub Router.new).1, none) from Prod.ext rfl h1]
      dsimp only
      rw [show (runRegs pre Router.new).1.useRouter path (runRegs sub Router.new).1 = (((runRegs pre Router.new).1.useRouter path (runRegs sub Router.new).1).1, none) from Prod.ext rfl h3]
      exact h
    · next hall => exact absurd h hall
  · next hpre => exact absurd hfree hpre

/-- **C18, requests**: a request that matches the mount path followed by `x` finds what the nested
router finds for `x`: the same handlers; the parameters of the mount path (which win) and those of the
nested router; and the nested router's middlewares, between the outer global ones and the ones of the
mount path.  (The nested router's own global middlewares come after its path middlewares.) -/
theorem C18_requests_below {prog sub : List (Reg M H)} {c : Reg M H} {p : Str} (hm : IsMount c p sub)
    (hc : CleanRegs (prog ++ [c])) {r rs : Router M H} (hb : build (prog ++ [c]) = (r, none))
    (hbs : build sub = (rs, none)) (h0 : segments p ≠ []) (hs : NoStar (segments p)) {path x : Str}
    {req : List Str} {b : List (Str × Str)} (hreq : Matches (segments p) req b)
    (hpath : segments path = req ++ segments x) (hf : isFound rs x = true) :
    isFound r path = true ∧ (∀ m, handlerFor r m path = handlerFor rs m x) ∧
    (∀ y, paramFor r path y = (b.lookup y).or (paramFor rs x y)) ∧
    ∃ own outer, chainFor rs x = some (globalsFrom sub [] ++ own) ∧
      chainFor r path = some (globalsFrom prog [] ++ own ++ globalsFrom sub [] ++ outer) ∧
      ∀ m ∈ outer, ∃ e ∈ logOf prog, e.what = .middleware m := by
  have hcs := (cleanRegs_append _ _).1 hc
  simp only [CleanRegs, and_true] at hcs
  have hcc : CleanPath p ∧ CleanRegs sub := by
    rcases hm with rfl | rfl <;> simpa only [CleanReg] using hcs.2
  have hok := (build_iff hc).1 (by rw [hb])
  simp only [regsOK_append, RegsOK, and_true] at hok
  obtain ⟨hpre, hcall⟩ := hok
  have hcall : RegsOK sub [] ∧ StarsOK (segments p) ∧ (segments p = [] ∨
      (NoClash (logOf prog) (segments p) ∧ Free (logOf prog) (flat (segments p)))) := by
    rcases hm with rfl | rfl <;> simpa only [RegOK, logOf] using hcall
  have hlog : logOf (prog ++ [c]) = logOf prog ++ ⟨segments p, .nothing⟩ ::
      (logOf sub).map (Entry.under (segments p)) := by
    have : logOf (prog ++ [c]) = mountLog (segments p) (logOf prog) (logOf sub) := by
      rw [logOf, logRegs_append]
      rcases hm with rfl | rfl <;> simp [logRegs, logReg, logOf]
    rw [this, mountLog, if_neg h0]
  obtain ⟨hn, hfree⟩ := hcall.2.2.resolve_left h0
  have hr := build_rep hc hb
  have hg := build_good hc hb
  have hrs := build_rep hcc.2 hbs
  have hgs := build_good hcc.2 hbs
  rw [hlog] at hr hg
  have hne := segments_ne p
  have hreq0 : req ≠ [] := by
    intro h; subst h
    generalize segments p = ss at hreq h0
    cases hreq with
    | nil => exact h0 rfl
    | wild h => exact h rfl
  have hp0 : segments path ≠ [] := by rw [hpath]; simp [hreq0]
  obtain ⟨q, b', hl⟩ := hrs.found hf
  have hent : hasEntry (logOf sub) q = true := lookup_entry hl
  have hent' : hasEntry (logOf prog ++ ⟨segments p, .nothing⟩ ::
      (logOf sub).map (Entry.under (segments p))) (flat (segments p) ++ q) = true := by
    rw [below_hasEntry hfree]; exact hent
  have hl' : lookup (logOf prog ++ ⟨segments p, .nothing⟩ ::
      (logOf sub).map (Entry.under (segments p))) path = some (flat (segments p) ++ q, b ++ b') := by
    have hfind : find (logOf prog ++ ⟨segments p, .nothing⟩ ::
      (logOf sub).map (Entry.under (segments p))) [] (segments path) =
        some (flat (segments p) ++ q, b ++ b') := by
      by_cases hx : segments x = []
      · have hqb : q = [] ∧ b' = [] := by
          rw [lookup, if_pos hx] at hl
          simp only at hl
          split at hl
          · simp at hl; exact ⟨hl.1, hl.2⟩
          · simp at hl
        obtain ⟨rfl, rfl⟩ := hqb
        obtain ⟨e, he, hfe, hw⟩ := hasEntry_iff.1 hent
        have hse : e.segs = [] := by
          cases h : e.segs with
          | nil => rfl
          | cons a t =>
            rw [h] at hfe; simp at hfe
            exact absurd hfe.1 (hgs.ne he a (by rw [h]; simp))
        have hmem : (⟨segments p, e.what⟩ : Entry M H) ∈ logOf prog ++ ⟨segments p, .nothing⟩ ::
            (logOf sub).map (Entry.under (segments p)) := by
          have := below_under (L := logOf prog) (ss := segments p) he
          rw [Entry.under, hse, List.append_nil] at this
          exact this
        have := hg.find_match hmem (by simpa using hent') hreq [] rfl hs h0
        rw [hpath, hx, List.append_nil, List.append_nil, List.append_nil]
        exact this
      · have hfx : find (logOf sub) [] (segments x) = some (q, b') := by
          rw [lookup, if_neg hx] at hl
          cases hfx : find (logOf sub) [] (segments x) with
          | none => rw [hfx] at hl; simp at hl
          | some qb =>
            obtain ⟨q0, b0⟩ := qb
            rw [hfx] at hl; simp only at hl
            split at hl
            · exact hl
            · simp at hl
        have h1 := below_find hfree hne hgs hg (segments x) (segments_ne x) []
        rw [hfx] at h1
        simp only [List.append_nil, Option.map_some] at h1
        rw [hpath]
        exact hg.find_follow (e := ⟨segments p, .nothing⟩)
          (List.mem_append_right _ List.mem_cons_self) hreq hx (tl := []) [] (by simp) hs
          (by simpa using h1)
    rw [lookup, if_neg hp0, hfind]
    simp only
    rw [if_pos hent']
  obtain ⟨a1, a2, a3, a4⟩ := hr.obs_some hl'
  obtain ⟨s1, s2, s3, s4⟩ := hrs.obs_some hl
  refine ⟨a1, fun m => by rw [a2, s2, below_routeAt hfree], fun y => ?_,
    upTo (logOf sub) [] q, ?_⟩
  · rw [a4, s4, List.lookup_append]
  · obtain ⟨F, hF⟩ : ∃ F, flat (segments p) = F := ⟨_, rfl⟩
    have hF0 : flat (segments p) ≠ [] := flat_segs_ne hne h0
    have g1 : mwsAt (logOf sub) [] = globalsFrom sub [] := mwsAt_regs sub []
    have g2 : mwsAt (logOf prog ++ ⟨segments p, .nothing⟩ ::
        (logOf sub).map (Entry.under (segments p))) [] = globalsFrom prog [] := by
      have := mwsAt_mount hne h0 (logOf prog) (logOf sub)
      rw [mountLog, if_neg h0] at this
      rw [this]; exact mwsAt_regs prog []
    have g3 : mwsAt (logOf prog ++ ⟨segments p, .nothing⟩ ::
        (logOf sub).map (Entry.under (segments p))) (flat (segments p)) = globalsFrom sub [] := by
      have := below_mwsAt (S := logOf sub) hfree []
      rw [List.append_nil] at this
      rw [this]; exact g1
    have hlast : flat (segments p) = (flat (segments p)).dropLast ++ [(flat (segments p)).getLast hF0] :=
      (List.dropLast_concat_getLast hF0).symm
    refine ⟨upTo (logOf prog ++ ⟨segments p, .nothing⟩ ::
        (logOf sub).map (Entry.under (segments p))) [] (flat (segments p)).dropLast, ?_, ?_, ?_⟩
    · rw [s3, Spec.chain, g1]
    · have h1 := below_upTo (S := logOf sub) hfree [] q
      rw [List.append_nil] at h1
      have h2 : upTo (logOf prog ++ ⟨segments p, .nothing⟩ ::
          (logOf sub).map (Entry.under (segments p))) [] (flat (segments p)) = globalsFrom sub [] ++
          upTo (logOf prog ++ ⟨segments p, .nothing⟩ ::
          (logOf sub).map (Entry.under (segments p))) [] (flat (segments p)).dropLast := by
        have key : ∀ (K : Log M H) (F : Str) (hF : F ≠ []), upTo K [] F = mwsAt K F ++ upTo K [] F.dropLast := by
          intro K F hF
          have e : F = F.dropLast ++ [F.getLast hF] := (List.dropLast_concat_getLast hF).symm
          have h : upTo K [] F = upTo K [] (F.dropLast ++ [F.getLast hF]) := by rw [← e]
          rw [h, upTo_append]
          simp only [upTo, List.nil_append]
          rw [← e]
        rw [key _ _ hF0, g3]
      rw [a3, Spec.chain, upTo_append, List.nil_append, g2, h1, h2]
      simp
    · intro m hm
      obtain ⟨u, v, huv, hu, hm⟩ := mem_upTo.1 hm
      rw [List.nil_append] at hm
      obtain ⟨e, he, hfe, hw⟩ := mem_mwsAt.1 hm
      rcases List.mem_append.1 he with he | he
      · exact ⟨e, he, hw⟩
      · have hlen : u.length < (flat (segments p)).length := by
          have h1 := congrArg List.length huv
          have h2 := List.length_pos_iff.2 hF0
          simp at h1; omega
        rcases List.mem_cons.1 he with rfl | he
        · simp at hw
        · obtain ⟨e', _, rfl⟩ := List.mem_map.1 he
          rw [Entry.under, flat_append] at hfe
          rw [← hfe] at hlen; simp at hlen; omega

example : let sub : Prog := [.useService 102, .get (s "/ping") 6, .get (s "/echo/:word") 7,
      .useServiceTo (s "echo") 103, .scope (s "x") [.get (s "/") 8]]
    let c : Reg Nat Nat := .useRouter (s "/api/:v") sub
    let pre : Prog := [.get (s "/apx") 1, .useService 100, .useServiceTo (s "/api") 101]
    (build (pre ++ c :: [.put (s "/api/:v/ping") 9])).2 = none ∧
    (build (pre ++ sub.map (prefixReg (s "/api/:v")) ++ [.put (s "/api/:v/ping") 9])).2 = none ∧
    chainFor (build (pre ++ [c])).1 (s "/api/1/echo/hi") = some [100, 103, 102, 101] ∧
    paramFor (build (pre ++ [c])).1 (s "/api/1/echo/hi") (s "v") = some (s "1") ∧
    paramFor (build (pre ++ [c])).1 (s "/api/1/echo/hi") (s "word") = some (s "hi") := by
  decide +kernel

/-- The paths need not be in the documented syntax; both programs are accepted, or neither is. -/
example : let sub : Prog := [.get (s "b:x") 6, .useServiceTo (s "b") 7, .scope (s "c:y") [.get (s "*") 8]]
    let pre : Prog := [.get (s "/a:id") 1]
    (build (pre ++ .useRouter (s "b:") sub :: [.get (s "/c") 2])).2 = none ∧
    (build (pre ++ .useRouter (s "b:") sub :: [.get (s "/c") 2])).2 =
      (build (pre ++ sub.map (prefixReg (s "b:")) ++ [.get (s "/c") 2])).2 ∧
    (build (pre ++ .useRouter (s "c") (sub ++ sub) :: [])).2 ≠ none ∧
    (build (pre ++ (sub ++ sub).map (prefixReg (s "c")) ++ [])).2 ≠ none := by
  decide +kernel

/-- The condition that the nested router is not empty is needed: mounting an empty router at `/a` lets
`/a/b` find `/ab`. -/
example : ∃ (r r' : Router Nat Nat),
    build [.scope (s "a") [], .get (s "/ab") 1] = (r, none) ∧ build [.get (s "/ab") 1] = (r', none) ∧
    isFound r (s "/a/b") = true ∧ isFound r' (s "/a/b") = false :=
  ⟨_, _, build_eq (by decide +kernel), build_eq (by decide +kernel), by decide +kernel,
    by decide +kernel⟩

/-! ### C19 -/

/-- **C19 is false at the root**: `scope("", ..)` or `use_router("/", ..)` drops all routes registered
before. -/
theorem C19_false : ∃ (prog : Prog) (r r' : Router Nat Nat),
    prog = [.get (s "/a") 1] ∧ build prog = (r, none) ∧
    build (prog ++ [.scope (s "") [.get (s "/b") 2]]) = (r', none) ∧
    handlerFor r .get (s "/a") = some 1 ∧ isFound r' (s "/a") = false := by
  refine ⟨_, _, _, rfl, build_eq (by decide +kernel), build_eq ?_, ?_, ?_⟩ <;> decide +kernel

/-- **C19, what holds**: a mount at a path other than the root keeps every wildcard-free route
registered before: the requests that match it are served by it as before, with the same parameters.
Missing: the root, where the claim is false. -/
theorem C19_mount_keeps_routes_partial {prog sub : List (Reg M H)} {c : Reg M H} {p : Str}
    (hm : IsMount c p sub) (h0 : segments p ≠ [])
    {r r' : Router M H} (hb : build prog = (r, none)) (hb' : build (prog ++ [c]) = (r', none))
    {ss : List Str} {m : Method} {h : H} (he : ⟨ss, .route m h⟩ ∈ logOf prog) (hs : NoStar ss)
    {path : Str} {b : List (Str × Str)} (hreq : Matches ss (segments path) b) :
    handlerFor r m path = some h ∧ handlerFor r' m path = some h ∧
    ∀ x, paramFor r' path x = paramFor r path x := by
  have h1 := C02_parameter_routes_reachable hb he hs hreq
  have h2 := C51_further_registrations_partial hb hb' (more := [c]) (by
    intro c' hc' p' sub' h'
    simp at hc'; subst hc'
    rcases hm with rfl | rfl <;> simp at h' <;> rw [← h'.1] <;> exact h0) he hs hreq
  exact ⟨h1.2.1, by rw [h2.1]; exact h1.2.1, h2.2⟩

example : ∃ r', build (demo ++ [.scope (s "more") [.get (s "/x") 77]]) = (r', none) ∧
    ⟨[s "users", s "all"], .route .post 3⟩ ∈ logOf demo ∧
    handlerFor r' .post (s "/users/all") = some 3 :=
  ⟨_, build_eq (by decide +kernel), by decide +kernel, by decide +kernel⟩

/-! ### C52 (see `C52_false`) -/

/-- **C52, what holds**: if neither the mount path nor the path of the nested route has a wildcard, the
requests that the two paths together describe are served by the nested route, whatever was registered
before and after.  Missing: mount paths that end in `*`, where the claim is false; nested routes that
end in `*` are the subject of C03. -/
theorem C52_mounted_routes_partial {pre post sub : List (Reg M H)} {c : Reg M H} {p : Str}
    (hm : IsMount c p sub) {r : Router M H}
    (hb : build (pre ++ c :: post) = (r, none)) (hn : NoRootMount post) {t : List Str} {m : Method}
    {h : H} (he : ⟨t, .route m h⟩ ∈ logOf sub) (hs : NoStar (segments p ++ t)) {path : Str}
    {b : List (Str × Str)} (hreq : Matches (segments p ++ t) (segments path) b) :
    handlerFor r m path = some h ∧ ∀ x, paramFor r path x = b.lookup x := by
  refine (C02_parameter_routes_reachable hb (ss := segments p ++ t) ?_ hs hreq).2
  have hlog : logReg c (logRegs pre []) = mountLog (segments p) (logRegs pre []) (logOf sub) := by
    rcases hm with rfl | rfl <;> simp only [logReg, logOf]
  rw [logOf, logRegs_append, logRegs, hlog]
  refine mem_logRegs ?_ hn
  rw [mountLog]
  split
  · next h0 => rw [h0]; exact he
  · exact List.mem_append_right _ (List.mem_cons_of_mem _ (List.mem_map.2 ⟨_, he, rfl⟩))

example : ∃ r, build demo = (r, none) ∧ handlerFor r .get (s "/api/v1/echo/hi") = some 7 ∧
    paramFor r (s "/api/v1/echo/hi") (s "word") = some (s "hi") :=
  ⟨_, build_eq demo_ok, by decide +kernel, by decide +kernel⟩

end Obsidian.Props
