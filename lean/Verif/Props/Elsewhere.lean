import Verif.Proofs.Elsewhere
import Verif.Props.Reorder
import Verif.Props.Guard

/- C106: what is below a path matters only to requests that may lead there. -/
namespace Obsidian.Props
open Obsidian Spec
variable {M H : Type} {U : Univ} {σ : Type}

/-- **C106** for lookups: programs that register the same except at a path or below it cannot be told apart by
a request that matches no path beginning with it. -/
theorem C106_elsewhere {prog prog' : List (Reg M H)} {P : List Str}
    (hsame : SameElsewhere P (logOf prog) (logOf prog')) (hc : CleanRegs prog) (hc' : CleanRegs prog')
    {r r' : Router M H} (hb : build prog = (r, none)) (hb' : build prog' = (r', none)) {path : Str}
    (ho : Outside P (segments path)) : SameAt r r' path := by
  have hl := hsame.lookup (build_good hc hb).toTidy (build_good hc' hb').toTidy ho
  refine (build_rep hc hb).sameAt (build_rep hc' hb') hl.1 fun q b hq => ?_
  exact ⟨hsame.routeAt (hl.2 q b hq), hsame.chain (hl.2 q b hq)⟩

/-- **C106.** Applications that differ only in what is registered at a path or below it do the same for every
request that matches no path beginning with it: the answer, the output and the effects on the state are equal. -/
theorem C106_elsewhere_served {prog prog' : List (Reg (Middleware U σ) (Handler U σ))} {P : List Str}
    (hsame : SameElsewhere P (logOf prog) (logOf prog')) (hc : CleanRegs prog) (hc' : CleanRegs prog')
    {a a' : App U σ} (hb : build prog = (a.router, none)) (hb' : build prog' = (a'.router, none))
    (hst : a.appState = a'.appState) {req : Request U} (ho : Outside P (segments req.path)) :
    a.serve req = a'.serve req :=
  serve_congr (C106_elsewhere hsame hc hc' hb hb' ho) hst

theorem mount_filter {pre P : List Str} {L S S' : Log M H}
    (h : S.filter (fun e => ! P.isPrefixOf e.segs) = S'.filter (fun e => ! P.isPrefixOf e.segs)) :
    (mountLog pre L S).filter (fun e => ! (pre ++ P).isPrefixOf e.segs) =
      (mountLog pre L S').filter (fun e => ! (pre ++ P).isPrefixOf e.segs) := by
  have hu : ∀ S : Log M H, (S.map (Entry.under pre)).filter (fun e => ! (pre ++ P).isPrefixOf e.segs) =
      (S.filter (fun e => ! P.isPrefixOf e.segs)).map (Entry.under pre) := by
    intro S
    rw [List.filter_map]
    congr 1
    refine List.filter_congr fun e _ => ?_
    simp only [Function.comp, Entry.under]
    congr 1
    rw [Bool.eq_iff_iff, List.isPrefixOf_iff_prefix, List.isPrefixOf_iff_prefix]
    exact List.prefix_append_right_inj pre
  rw [mountLog, mountLog]
  split
  · next h0 => subst h0; simpa using h
  · rw [List.filter_append, List.filter_append, List.filter_cons, List.filter_cons, hu, hu, h]

theorem mount_filter_all {pre : List Str} (h0 : pre ≠ []) {L S S' : Log M H} :
    (mountLog pre L S).filter (fun e => ! pre.isPrefixOf e.segs) =
      (mountLog pre L S').filter (fun e => ! pre.isPrefixOf e.segs) := by
  have := mount_filter (pre := pre) (P := []) (L := L) (S := S) (S' := S') (by
    rw [List.filter_eq_nil_iff.2, List.filter_eq_nil_iff.2] <;> simp [List.isPrefixOf])
  simpa using this

theorem log_around {cs ds : List (Reg M H)} {c : Reg M H} (hd : ∀ c ∈ ds, NotRootMount c) :
    logOf (cs ++ c :: ds) = logReg c (logOf cs) ++ ds.flatMap callLog := by
  rw [logOf, logRegs_append, logRegs, logRegs_calls hd]; rfl

theorem below_mount {pre P : List Str} {L S : Log M H} (h : ∃ e ∈ S, P <+: e.segs) :
    ∃ e ∈ mountLog pre L S, pre ++ P <+: e.segs := by
  obtain ⟨e, he, hp⟩ := h
  rw [mountLog]
  split
  · next h0 => exact ⟨e, he, by rw [h0]; exact hp⟩
  · exact ⟨e.under pre, by simp [List.mem_map]; exact .inr (.inr ⟨e, he, rfl⟩),
      (List.prefix_append_right_inj pre).2 hp⟩

theorem at_mount {pre : List Str} (h0 : pre ≠ []) {L S : Log M H} : ∃ e ∈ mountLog pre L S, pre <+: e.segs :=
  ⟨⟨pre, .nothing⟩, by rw [mountLog, if_neg h0]; simp, List.prefix_rfl⟩

theorem same_around {P : List Str} {cs ds : List (Reg M H)} {c c' : Reg M H} (hd : ∀ c ∈ ds, NotRootMount c)
    (h : SameElsewhere P (logReg c (logOf cs)) (logReg c' (logOf cs))) :
    SameElsewhere P (logOf (cs ++ c :: ds)) (logOf (cs ++ c' :: ds)) := by
  obtain ⟨h1, ⟨e, he, h2⟩, e', he', h3⟩ := h
  rw [log_around hd, log_around hd]
  exact ⟨by rw [List.filter_append, List.filter_append, h1], ⟨e, by simp [he], h2⟩, e', by simp [he'], h3⟩

/-- Programs that differ in the contents of a nested router register the same elsewhere. -/
theorem swap_same {P : List Str} {prog prog' : List (Reg M H)} (h : Swap P prog prog') :
    SameElsewhere P (logOf prog) (logOf prog') := by
  induction h with
  | router h0 hd => exact same_around hd ⟨mount_filter_all h0, at_mount h0, at_mount h0⟩
  | scope h0 hd => exact same_around hd ⟨mount_filter_all h0, at_mount h0, at_mount h0⟩
  | inRouter _ hd ih => exact same_around hd ⟨mount_filter ih.1, below_mount ih.2.1, below_mount ih.2.2⟩
  | inScope _ hd ih => exact same_around hd ⟨mount_filter ih.1, below_mount ih.2.1, below_mount ih.2.2⟩

/-- **C106** for nested routers: the contents of a router that is mounted at a path, at any depth, make no
difference to requests that match no path beginning with this one. -/
theorem C106_nested_router {prog prog' : List (Reg (Middleware U σ) (Handler U σ))} {P : List Str}
    (hs : Swap P prog prog') (hc : CleanRegs prog) (hc' : CleanRegs prog')
    {a a' : App U σ} (hb : build prog = (a.router, none)) (hb' : build prog' = (a'.router, none))
    (hst : a.appState = a'.appState) {req : Request U} (ho : Outside P (segments req.path)) :
    a.serve req = a'.serve req :=
  C106_elsewhere_served (swap_same hs) hc hc' hb hb' hst ho

/-- Which requests match no path beginning with a path without parameters: those that do not begin with its
characters. -/
theorem C106_outside_static {P req : List Str} (hP : Static P) (h : ¬ flat P <+: flat req) : Outside P req := by
  intro more b hm
  apply h
  clear h
  generalize hx : P ++ more = pat at hm
  induction hm generalizing P more with
  | nil =>
    have : P = [] := (List.append_eq_nil_iff.1 hx).1
    subst this; exact List.nil_prefix
  | @text ps ps' rs rs' b h1 h2 ih =>
    rw [flat_append, ← h1]
    rcases List.append_eq_append_iff.1 hx with ⟨g, h3, _⟩ | ⟨g, h3, h4⟩
    · rw [h3, flat_append, List.append_assoc]; exact List.prefix_append _ _
    · rw [h3, flat_append]
      exact (List.prefix_append_right_inj _).2 (ih (P := g) (fun s hs => hP s (by rw [h3]; simp [hs])) more h4.symm)
  | param _ _ =>
    cases P with
    | nil => exact List.nil_prefix
    | cons s P =>
      rw [List.cons_append] at hx
      injection hx with hx _
      have := (hP s (by simp)).1
      rw [hx] at this; simp at this
  | wild =>
    cases P with
    | nil => exact List.nil_prefix
    | cons s P =>
      rw [List.cons_append] at hx
      injection hx with hx _
      exact absurd hx (hP s (by simp)).2

theorem outside_longer {P Q req : List Str} (h : Outside P req) : Outside (P ++ Q) req := fun more b hm =>
  h (Q ++ more) b (by rw [← List.append_assoc]; exact hm)

/-- **C51, what also holds** (partial): further registrations at or below a path where something is registered already
change nothing for requests that match no path beginning with it.  Nothing is assumed about the route that serves them,
which may be a wildcard, or whether there is one.  Missing: further registrations elsewhere, for which it is false
(`C51_false`, `C51_false_unknown`: there is nothing yet at or below `/ac`). -/
theorem C51_below_partial {prog more : List (Reg M H)} {P : List Str} (hc : CleanRegs prog)
    (hc' : CleanRegs (prog ++ more)) {r r' : Router M H} (hb : build prog = (r, none))
    (hb' : build (prog ++ more) = (r', none)) (hn : ∀ c ∈ more, NotRootMount c)
    (hmore : ∀ c ∈ more, ∀ e ∈ callLog c, P <+: e.segs) (hin : ∃ e ∈ logOf prog, P <+: e.segs) {path : Str}
    (ho : Outside P (segments path)) : SameAt r r' path := by
  obtain ⟨e, he, hp⟩ := hin
  have hl : logOf (prog ++ more) = logOf prog ++ more.flatMap callLog := by
    rw [logOf, logRegs_append, logRegs_calls hn]; rfl
  refine C106_elsewhere ⟨?_, ⟨e, he, hp⟩, e, by rw [hl]; simp [he], hp⟩ hc hc' hb hb' ho
  have hnil : (more.flatMap callLog).filter (fun e => ! P.isPrefixOf e.segs) = [] := by
    refine List.filter_eq_nil_iff.2 fun d hd => ?_
    obtain ⟨c, h1, h2⟩ := List.mem_flatMap.1 hd
    simpa using hmore c h1 d h2
  rw [hl, List.filter_append, hnil, List.append_nil]

/-- Further registrations below `/api`, and a request that is answered by the wildcard in both. -/
example : ∃ r r' : Router Nat Nat, build [.get (s "/*") 1, .get (s "/api/me") 2] = (r, none) ∧
    build ([.get (s "/*") 1, .get (s "/api/me") 2] ++ [.get (s "/api/m") 3, .scope (s "/api/users") [.get (s "/:id") 4]]) = (r', none) ∧
    SameAt r r' (s "/ap/x") ∧ handlerFor r .get (s "/ap/x") = some 1 := by
  refine ⟨_, _, build_eq (by decide +kernel), build_eq (by decide +kernel), C51_below_partial (P := [s "api"]) ?_ ?_
    (build_eq (by decide +kernel)) (build_eq (by decide +kernel)) ?_ ?_ ?_
    (C106_outside_static (by decide +kernel) (by decide +kernel)), by decide +kernel⟩
  · simp only [CleanRegs, CleanReg, and_true]; decide +kernel
  · simp only [List.cons_append, List.nil_append, CleanRegs, CleanReg, and_true]; decide +kernel
  · have h : segments (s "/api/users") ≠ [] := by decide +kernel
    simp [NotRootMount, h]
  · have h1 : segments (s "/api/m") = [s "api", s "m"] := by decide +kernel
    have h2 : segments (s "/api/users") = [s "api", s "users"] := by decide +kernel
    simp [callLog, logReg, logRegs, mountLog, h1, h2, Entry.under]
  · exact ⟨⟨[s "api", s "me"], .route .get 2⟩, by decide +kernel, by decide +kernel⟩

/-- An application with a nested router for `/api` inside the one for `/v1`, a middleware for `/v1` and a wildcard. -/
abbrev nestedApi (api : Prog) : Prog :=
  [.useService 1, .get (s "/*") 10, .scope (s "/v1") [.useService 2, .get (s "/me") 11, .useRouter (s "/api") api,
    .get (s "/all/:x") 12], .get (s "/about") 13]

abbrev apiOld : Prog := [.get (s "/") 20, .get (s "/:id") 21]
abbrev apiNew : Prog := [.useService 3, .get (s "/list/*") 22, .post (s "/list") 23]

theorem nestedApi_swap : Swap [s "v1", s "api"] (nestedApi apiOld) (nestedApi apiNew) := by
  have h1 : segments (s "/v1") = [s "v1"] := by decide +kernel
  have h2 : segments (s "/api") = [s "api"] := by decide +kernel
  have h : Swap (segments (s "/v1") ++ segments (s "/api")) (nestedApi apiOld) (nestedApi apiNew) :=
    .inScope (cs := [.useService 1, .get (s "/*") 10]) (ds := [.get (s "/about") 13])
      (.router (cs := [.useService 2, .get (s "/me") 11]) (ds := [.get (s "/all/:x") 12]) (by rw [h2]; simp)
        (by simp [NotRootMount])) (by simp [NotRootMount])
  rw [h1, h2] at h
  exact h

/-- What the theorem says about them: the requests `/v1/all/7`, `/about` and `/v1/ap/x` (which goes to the wildcard)
are looked up in the same way, whatever is in the inner router; `/v1/api/5` is not. -/
example : ∃ r r' : Router Nat Nat, build (nestedApi apiOld) = (r, none) ∧ build (nestedApi apiNew) = (r', none) ∧
    (SameAt r r' (s "/v1/all/7") ∧ handlerFor r .get (s "/v1/all/7") = some 12 ∧
      chainFor r (s "/v1/all/7") = some [1, 2]) ∧
    (SameAt r r' (s "/about") ∧ handlerFor r .get (s "/about") = some 13) ∧
    (SameAt r r' (s "/v1/ap/x") ∧ handlerFor r .get (s "/v1/ap/x") = some 10) ∧
    handlerFor r .get (s "/v1/api/5") = some 21 ∧ handlerFor r' .get (s "/v1/api/5") = some 10 := by
  have hc : CleanRegs (nestedApi apiOld) := by
    simp only [nestedApi, apiOld, CleanRegs, CleanReg, and_true, true_and]; decide +kernel
  have hc' : CleanRegs (nestedApi apiNew) := by
    simp only [nestedApi, apiNew, CleanRegs, CleanReg, and_true, true_and]; decide +kernel
  have hb : build (nestedApi apiOld) = ((build (nestedApi apiOld)).1, none) := build_eq (by decide +kernel)
  have hb' : build (nestedApi apiNew) = ((build (nestedApi apiNew)).1, none) := build_eq (by decide +kernel)
  have key : ∀ path, ¬ s "v1api" <+: flat (segments path) → SameAt (build (nestedApi apiOld)).1 (build (nestedApi apiNew)).1 path :=
    fun path h => C106_elsewhere (swap_same nestedApi_swap) hc hc' hb hb'
      (C106_outside_static (by decide +kernel) h)
  exact ⟨_, _, hb, hb', ⟨key _ (by decide +kernel), by decide +kernel, by decide +kernel⟩,
    ⟨key _ (by decide +kernel), by decide +kernel⟩, ⟨key _ (by decide +kernel), by decide +kernel⟩,
    by decide +kernel, by decide +kernel⟩

/-- That the slashes do not count has to be said: with a nested router at `/ab` and a route `/ac`, the request `/a/b`,
which does not begin with the segment `ab`, depends on what is in the router. -/
theorem C106_slashes_needed : ∃ (prog prog' : Prog) (r r' : Router Nat Nat), CleanRegs prog ∧ CleanRegs prog' ∧
    Swap [s "ab"] prog prog' ∧ build prog = (r, none) ∧ build prog' = (r', none) ∧
    segments (s "/a/b") = [s "a", s "b"] ∧ handlerFor r .get (s "/a/b") = some 1 ∧
    handlerFor r' .get (s "/a/b") = none := by
  have h1 : segments (s "/ab") = [s "ab"] := by decide +kernel
  refine ⟨[.scope (s "/ab") [.get (s "/") 1], .get (s "/ac") 2], [.scope (s "/ab") [.get (s "/x") 1], .get (s "/ac") 2],
    _, _, ?_, ?_, ?_, build_eq (by decide +kernel), build_eq (by decide +kernel), by decide +kernel, by decide +kernel,
    by decide +kernel⟩
  · simp only [CleanRegs, CleanReg, and_true]; decide +kernel
  · simp only [CleanRegs, CleanReg, and_true]; decide +kernel
  · exact h1 ▸ Swap.scope (cs := []) (ds := [.get (s "/ac") 2]) (by rw [h1]; simp) (by simp [NotRootMount])

/-- A path with a parameter: a request that does not begin with what comes before it. -/
example : Outside [s "users", s ":id"] (segments (s "/user/7")) :=
  outside_longer (C106_outside_static (P := [s "users"]) (by decide +kernel) (by decide +kernel))

end Obsidian.Props
