import Verif.Spec.Calls
import Verif.Props.Total
import Verif.Props.Reach
import Verif.Proofs.LogEq
import Verif.Proofs.Twice

/-
C08, C09, C10, C11, C20: which registrations are rejected.
-/
namespace Obsidian.Props
open Obsidian Spec
variable {M H : Type}

/-! ### C10 -/

theorem starPanic_not_ambiguous {path a b c : Str} : ¬ StarPanic path (.ambiguous a b c) := by
  rintro (h | h) <;> simp at h
theorem starPanic_not_duplicated {path c : Str} {m : Method} : ¬ StarPanic path (.duplicated m c) := by
  rintro (h | h) <;> simp at h
theorem starPanic_not_conflict {path c : Str} : ¬ StarPanic path (.conflict c) := by
  rintro (h | h) <;> simp at h

/-- **C10** for routes, on every router: the wildcard error exactly for misplaced wildcards, and then
nothing has changed. -/
theorem C10_route (r : Router M H) (m : Method) (path : Str) (hd : H) :
    ((∃ p, (r.insertRoute m path hd).2 = some p ∧ StarPanic path p) ↔ ¬ StarsOK (segments path)) ∧
    (¬ StarsOK (segments path) → (r.insertRoute m path hd).1 = r) := by
  have key : ¬ StarsOK (segments path) → ∃ p, r.insertRoute m path hd = (r, some p) ∧
      StarPanic path p := by
    intro hs
    obtain ⟨p, hp, hp'⟩ := checkStars_err hs
    exact ⟨p, by simp [Router.insertRoute, RouteTrie.insertRoute, hp], hp'⟩
  refine ⟨⟨?_, ?_⟩, ?_⟩
  · rintro ⟨p, hp, hst⟩
    rcases route_panics r m path hd p hp with ⟨h, _⟩ | ⟨_, ⟨a, b, rfl⟩ | ⟨m', rfl⟩⟩
    · exact h
    · exact absurd hst starPanic_not_ambiguous
    · exact absurd hst starPanic_not_duplicated
  · intro hs; obtain ⟨p, hp, hp'⟩ := key hs; exact ⟨p, by rw [hp], hp'⟩
  · intro hs; obtain ⟨p, hp, hp'⟩ := key hs; rw [hp]

/-- **C10** for middlewares. -/
theorem C10_middleware (r : Router M H) (path : Str) (m : M) :
    ((∃ p, (r.useServiceTo path m).2 = some p ∧ StarPanic path p) ↔ ¬ StarsOK (segments path)) ∧
    (¬ StarsOK (segments path) → (r.useServiceTo path m).1 = r) := by
  have key : ¬ StarsOK (segments path) → ∃ p, r.useServiceTo path m = (r, some p) ∧
      StarPanic path p := by
    intro hs
    obtain ⟨p, hp, hp'⟩ := checkStars_err hs
    exact ⟨p, by simp [Router.useServiceTo, RouteTrie.insertMiddleware, hp], hp'⟩
  refine ⟨⟨?_, ?_⟩, ?_⟩
  · rintro ⟨p, hp, hst⟩
    rcases middleware_panics r path m p hp with ⟨h, _⟩ | ⟨_, a, b, rfl⟩
    · exact h
    · exact absurd hst starPanic_not_ambiguous
  · intro hs; obtain ⟨p, hp, hp'⟩ := key hs; exact ⟨p, by rw [hp], hp'⟩
  · intro hs; obtain ⟨p, hp, hp'⟩ := key hs; rw [hp]

/-- **C10** for mounts. -/
theorem C10_mount (r sub : Router M H) (path : Str) :
    ((∃ p, (r.useRouter path sub).2 = some p ∧ StarPanic path p) ↔ ¬ StarsOK (segments path)) ∧
    (¬ StarsOK (segments path) → (r.useRouter path sub).1 = r) := by
  have key : ¬ StarsOK (segments path) → ∃ p, r.useRouter path sub = (r, some p) ∧
      StarPanic path p := by
    intro hs
    obtain ⟨p, hp, hp'⟩ := checkStars_err hs
    exact ⟨p, by simp [Router.useRouter, RouteTrie.insertSubRoute, hp], hp'⟩
  refine ⟨⟨?_, ?_⟩, ?_⟩
  · rintro ⟨p, hp, hst⟩
    rcases mount_panics r sub path p hp with ⟨h, _⟩ | ⟨_, ⟨a, b, rfl⟩ | rfl⟩
    · exact h
    · exact absurd hst starPanic_not_ambiguous
    · exact absurd hst starPanic_not_conflict
  · intro hs; obtain ⟨p, hp, hp'⟩ := key hs; exact ⟨p, by rw [hp], hp'⟩
  · intro hs; obtain ⟨p, hp, hp'⟩ := key hs; rw [hp]

example : StarsOK (segments (s "/files/*")) ∧ ¬ StarsOK (segments (s "/files/*.css")) ∧
    ¬ StarsOK (segments (s "/*/x")) := by
  rw [show segments (s "/files/*") = [s "files", ['*']] by decide +kernel,
    show segments (s "/files/*.css") = [s "files", s "*.css"] by decide +kernel,
    show segments (s "/*/x") = [['*'], s "x"] by decide +kernel]
  refine ⟨?_, fun h => ?_, fun h => ?_⟩
  · rw [starsOK_cons, starsOK_cons]
    refine ⟨fun h => absurd h (by decide +kernel), fun _ => ⟨rfl, rfl⟩, ?_⟩
    intro pre x post hx; simp at hx
  · exact absurd (h [s "files"] (s "*.css") [] rfl (by decide +kernel)).1 (by decide +kernel)
  · exact absurd (h [] ['*'] [s "x"] rfl (by decide +kernel)).2 (by decide +kernel)

/-! ### C09 -/

/-- **C09** for routes: in the router of any accepted program, a path with well placed wildcards is
rejected as ambiguous exactly when it clashes with a registered path; otherwise it is accepted, unless
the method is already registered at its place. -/
theorem C09_route {prog : List (Reg M H)} (hc : CleanRegs prog) {r : Router M H}
    (hb : build prog = (r, none)) {path : Str} (hp : CleanPath path) (hs : StarsOK (segments path))
    (m : Method) (hd : H) :
    ((∃ a b, (r.insertRoute m path hd).2 = some (.ambiguous a b path)) ↔
      ∃ e ∈ logOf prog, Clash e.segs (segments path) ∨ Clash (segments path) e.segs) ∧
    ((r.insertRoute m path hd).2 = none ↔
      (¬ ∃ e ∈ logOf prog, Clash e.segs (segments path) ∨ Clash (segments path) e.segs) ∧
      ¬ ∃ e ∈ logOf prog, flat e.segs = flat (segments path) ∧ ∃ h, e.what = .route m h) := by
  obtain ⟨_, h2, h3⟩ := (build_rep hc hb).insertRoute hp m hd
  have hdup : (routeAt (logOf prog) (flat (segments path)) m).isSome ↔
      ∃ e ∈ logOf prog, flat e.segs = flat (segments path) ∧ ∃ h, e.what = .route m h := by
    rw [Option.isSome_iff_ne_none, Ne, routeAt_none_iff]
    constructor
    · intro h
      refine Classical.byContradiction fun hn => h fun e he hf k hw => hn ⟨e, he, hf, k, hw⟩
    · rintro ⟨e, he, hf, k, hw⟩ h; exact h e he hf k hw
  by_cases hn : NoClash (logOf prog) (segments path)
  · have h3' := (h3 hs hn).1
    rw [noClash_iff] at hn
    rw [h3']
    refine ⟨⟨?_, fun h => absurd h hn⟩, ?_⟩
    · rintro ⟨a, b, h⟩; split at h <;> simp at h
    · rw [← hdup]; simp [hn]
  · obtain ⟨a, b, h⟩ := (h2 hs hn).1
    have hn' : ∃ e ∈ logOf prog, Clash e.segs (segments path) ∨ Clash (segments path) e.segs :=
      Classical.byContradiction fun h' => hn (noClash_iff.2 h')
    refine ⟨⟨fun _ => hn', fun _ => ⟨a, b, h⟩⟩, ?_⟩
    rw [h]; simp [hn']

/-- **C09** for middlewares: the ambiguity error exactly on a clash, otherwise accepted. -/
theorem C09_middleware {prog : List (Reg M H)} (hc : CleanRegs prog) {r : Router M H}
    (hb : build prog = (r, none)) {path : Str} (hp : CleanPath path) (hs : StarsOK (segments path))
    (m : M) :
    ((∃ a b, (r.useServiceTo path m).2 = some (.ambiguous a b path)) ↔
      ∃ e ∈ logOf prog, Clash e.segs (segments path) ∨ Clash (segments path) e.segs) ∧
    ((r.useServiceTo path m).2 = none ↔
      ¬ ∃ e ∈ logOf prog, Clash e.segs (segments path) ∨ Clash (segments path) e.segs) := by
  have h1 := (mw_call (build_rep hc hb) hp m).1
  have h2 := middleware_panics r path m
  rw [← noClash_iff]
  have h1' : (r.useServiceTo path m).2 = none ↔ NoClash (logOf prog) (segments path) :=
    h1.trans ⟨fun h => h.2, fun h => ⟨hs, h⟩⟩
  refine ⟨⟨?_, fun h => ?_⟩, h1'⟩
  · rintro ⟨a, b, h⟩
    refine Classical.byContradiction fun hn => ?_
    rw [h1'.2 (noClash_iff.2 hn)] at h; simp at h
  · have hn : ¬ NoClash (logOf prog) (segments path) := fun hn => (noClash_iff.1 hn) h
    cases hp' : (r.useServiceTo path m).2 with
    | none => exact absurd (h1'.1 hp') hn
    | some p =>
      rcases h2 p hp' with ⟨h, _⟩ | ⟨_, a, b, rfl⟩
      · exact absurd hs h
      · exact ⟨a, b, rfl⟩

/-- **C09** for mounts: the ambiguity error exactly on a clash. -/
theorem C09_mount {prog sub : List (Reg M H)} (hc : CleanRegs prog) (hc' : CleanRegs sub)
    {r t : Router M H} (hb : build prog = (r, none)) (hb' : build sub = (t, none)) {path : Str}
    (hp : CleanPath path) (hs : StarsOK (segments path)) :
    (∃ a b, (r.useRouter path t).2 = some (.ambiguous a b path)) ↔
      ∃ e ∈ logOf prog, Clash e.segs (segments path) ∨ Clash (segments path) e.segs := by
  obtain ⟨_, h0, h2, h3, h4⟩ := (build_rep hc hb).useRouter (build_rep hc' hb') hp
  constructor
  · rintro ⟨a, b, h⟩
    refine Classical.byContradiction fun hn => ?_
    by_cases hss : segments path = []
    · rw [(h0 hs hss).1] at h; simp at h
    · by_cases hf : Free (logOf prog) (flat (segments path))
      · rw [(h4 hs hss (noClash_iff.2 hn) hf).1] at h; simp at h
      · rw [(h3 hs hss (noClash_iff.2 hn) hf).1] at h; simp at h
  · intro h
    exact (h2 hs (fun hn => (noClash_iff.1 hn) h)).1

/-- `/user/:id` clashes with `/user/list`, and not with `/items/:id`. -/
example : (∃ r, build ([.get (s "/user/:id") 1] : Prog) = (r, none) ∧
    (r.insertRoute .get (s "/user/list") 2).2 = some (.ambiguous (s "list") (s ":id") (s "/user/list")) ∧
    (r.insertRoute .get (s "/items/:id") 2).2 = none) :=
  ⟨_, build_eq (by decide +kernel), by decide +kernel, by decide +kernel⟩

/-! ### C08 -/

/-- **C08**, same method: a second registration of a method at the same path always panics; with the
duplicate message, unless the path itself breaks the wildcard rules. -/
theorem C08_same_method {prog : List (Reg M H)} (hc : CleanRegs prog) {r : Router M H}
    (hb : build prog = (r, none)) {e : Entry M H} (he : e ∈ logOf prog) {m : Method} {h h' : H}
    (hw : e.what = .route m h) {path : Str} (hp : segments path = e.segs) (hcp : CleanPath path) :
    (r.insertRoute m path h').2 ≠ none ∧
    (StarsOK (segments path) → (r.insertRoute m path h').2 = some (.duplicated m (dupPath path))) := by
  have hg := build_good hc hb
  obtain ⟨h1, _, h3⟩ := (build_rep hc hb).insertRoute hcp m h'
  have hn : NoClash (logOf prog) (segments path) := by
    intro e' he'; rw [hp]; exact ⟨hg.noClash e' he' e he, hg.noClash e he e' he'⟩
  have hr : routeAt (logOf prog) (flat (segments path)) m = some h := by
    rw [hp]; exact hg.uniq e he m h hw
  have hdup : StarsOK (segments path) →
      (r.insertRoute m path h').2 = some (.duplicated m (dupPath path)) := by
    intro hs; rw [(h3 hs hn).1, hr]; simp
  refine ⟨?_, hdup⟩
  by_cases hs : StarsOK (segments path)
  · rw [hdup hs]; simp
  · obtain ⟨p, hx, _⟩ := h1 hs; rw [hx]; simp

/-- **C08** for paths of any form (without wildcard): a second registration of a method at the same path
always panics. -/
theorem C08_same_method_any {prog : List (Reg M H)} {r : Router M H}
    (hb : build prog = (r, none)) {e : Entry M H} (he : e ∈ logOf prog) {m : Method} {h h' : H}
    (hw : e.what = .route m h) {path : Str} (hp : segments path = e.segs) (hs : NoStar e.segs) :
    (r.insertRoute m path h').2 ≠ none := by
  obtain ⟨ss, w⟩ := e
  subst hw hp
  exact (Node.build_tracks hb).twice he hs

example : ∃ r, build clock = (r, none) ∧ (r.insertRoute .get (s "meet/12:30/") 9).2 ≠ none :=
  ⟨_, build_eq clock_ok, C08_same_method_any (build_eq clock_ok)
    (e := ⟨[s "meet", s "12:30"], .route .get 2⟩) (by decide +kernel) rfl (by decide +kernel) (by decide +kernel)⟩

/-- **C08** in terms of calls: a program that registers the same verb twice at the same path panics,
whatever comes in between (except a root mount): for paths of any form without wildcard, and, if all paths are in
the documented syntax, for paths with a wildcard too. -/
theorem C08_same_method_calls {pre mid post : List (Reg M H)} {v : Verb} {p p' : Str} {h h' : H}
    (hn : NoRootMount mid) (hp : segments p' = segments p)
    (hs : NoStar (segments p) ∨ CleanRegs (pre ++ v.reg p h :: mid) ∧ CleanPath p') :
    (build (pre ++ v.reg p h :: mid ++ v.reg p' h' :: post)).2 ≠ none := by
  have happ : ∀ (a b : List (Reg M H)) (r : Router M H), runRegs (a ++ b) r =
      match runRegs a r with | (r', none) => runRegs b r' | (r', some e) => (r', some e) := by
    intro a b
    induction a with
    | nil => intro r; simp [runRegs]
    | cons c a ih =>
      intro r
      simp only [List.cons_append, runRegs]
      cases c.run r with
      | mk x y => cases y with
        | none => exact ih x
        | some y => rfl
  rw [build, happ]
  cases hb : runRegs (pre ++ v.reg p h :: mid) (Router.new : Router M H) with
  | mk r e =>
    cases e with
    | some e => simp
    | none =>
      have he : (⟨segments p, .route v.method h⟩ : Entry M H) ∈ logOf (pre ++ v.reg p h :: mid) := by
        rw [logOf, logRegs_append, logRegs]
        exact mem_logRegs (by rw [logReg_verb]; simp) hn
      have : (r.insertRoute v.method p' h').2 ≠ none := by
        rcases hs with hs | ⟨hc, hcp⟩
        · exact C08_same_method_any hb he rfl hp hs
        · exact (C08_same_method hc hb he rfl hp hcp (h' := h')).1
      have hrun : (v.reg p' h' : Reg M H).run r = r.insertRoute v.method p' h' := by
        cases v <;> rfl
      simp only [runRegs, hrun]
      cases hx : r.insertRoute v.method p' h' with
      | mk x y =>
        rw [hx] at this
        cases y with
        | none => simp at this
        | some y => simp

theorem routeAt_add {L : Log M H} {ss : List Str} {m m' : Method} {h : H} {q : Str} (hm : m' ≠ m) :
    routeAt (L ++ [⟨ss, .route m h⟩]) q m' = routeAt L q m' := by
  rw [routeAt_append, routeAt_one]; split <;> simp [hm.symm]

theorem known_add_same {L : Log M H} {e e' : Entry M H} (he : e ∈ L) (hs : e'.segs = e.segs) (q : Str) :
    known (L ++ [e']) q = known L q := by
  have back : ∀ x ∈ L ++ [e'], ∃ y ∈ L, y.segs = x.segs := by
    intro x hx
    rcases List.mem_append.1 hx with hx | hx
    · exact ⟨x, hx, rfl⟩
    · simp at hx; exact ⟨e, he, by rw [hx, hs]⟩
  rw [Bool.eq_iff_iff, known_iff, known_iff]
  constructor
  · rintro (⟨x, hx, h⟩ | ⟨x, hx, y, hy, a, b, u, v, h1, h2, h3⟩)
    · obtain ⟨z, hz, hzs⟩ := back x hx
      exact Or.inl ⟨z, hz, by rw [hzs]; exact h⟩
    · obtain ⟨z, hz, hzs⟩ := back x hx
      obtain ⟨w, hw, hws⟩ := back y hy
      exact Or.inr ⟨z, hz, w, hw, a, b, u, v, by rw [hzs]; exact h1, by rw [hws]; exact h2, h3⟩
  · rintro (⟨x, hx, h⟩ | ⟨x, hx, y, hy, h⟩)
    · exact Or.inl ⟨x, by simp [hx], h⟩
    · exact Or.inr ⟨x, by simp [hx], y, by simp [hy], h⟩

theorem paramAt_add_same {L : Log M H} {e e' : Entry M H} (hg : Good L) (hg' : Good (L ++ [e']))
    (he : e ∈ L) (hs : e'.segs = e.segs) (q : Str) : paramAt (L ++ [e']) q = paramAt L q := by
  refine opt_eq fun x => ?_
  rw [hg.paramAt_iff, hg'.paramAt_iff]
  constructor
  · rintro ⟨y, hy, h⟩
    rcases List.mem_append.1 hy with hy | hy
    · exact ⟨y, hy, h⟩
    · simp at hy; exact ⟨e, he, by rw [← hs, ← hy]; exact h⟩
  · rintro ⟨y, hy, h⟩; exact ⟨y, by simp [hy], h⟩

theorem hasEntry_add_same {L : Log M H} {e e' : Entry M H} (he : e ∈ L) (hw : e.what ≠ .nothing)
    (hs : e'.segs = e.segs) (q : Str) : hasEntry (L ++ [e']) q = hasEntry L q := by
  rw [hasEntry_append]
  by_cases hq : flat e.segs = q
  · rw [hasEntry_iff.2 ⟨e, he, hq, hw⟩]; simp
  · have : hasEntry [e'] q = false := by
      rw [← Bool.not_eq_true, hasEntry_iff]
      rintro ⟨x, hx, h, _⟩; simp at hx; subst hx; rw [hs] at h; exact hq h
    rw [this]; simp

/-- **C08**, different method: another method at a registered path is accepted, serves its own
requests, and everything else is as before. -/
theorem C08_other_method {prog : List (Reg M H)} (hc : CleanRegs prog) {r : Router M H}
    (hb : build prog = (r, none)) {e : Entry M H} (he : e ∈ logOf prog) (hw : e.what ≠ .nothing)
    {path : Str} (hp : segments path = e.segs) (hcp : CleanPath path) (hs : StarsOK (segments path))
    {m : Method} (hno : ∀ e' ∈ logOf prog, flat e'.segs = flat e.segs → ∀ h, e'.what ≠ .route m h)
    (h' : H) :
    ∃ r', r.insertRoute m path h' = (r', none) ∧
      ∀ req, isFound r' req = isFound r req ∧ chainFor r' req = chainFor r req ∧
        (∀ x, paramFor r' req x = paramFor r req x) ∧
        (∀ m', m' ≠ m → handlerFor r' m' req = handlerFor r m' req) ∧
        (handlerFor r' m req = some h' ∨ handlerFor r' m req = handlerFor r m req) ∧
        ∀ m₀ h₀, e.what = .route m₀ h₀ → handlerFor r m₀ req = some h₀ →
          (∀ e' ∈ logOf prog, e'.what = .route m₀ h₀ → flat e'.segs = flat e.segs) →
          handlerFor r' m req = some h' := by
  have hg := build_good hc hb
  have hr := build_rep hc hb
  have hn : NoClash (logOf prog) (segments path) := by
    intro e' he'; rw [hp]; exact ⟨hg.noClash e' he' e he, hg.noClash e he e' he'⟩
  have hrn : routeAt (logOf prog) (flat (segments path)) m = none := by
    rw [routeAt_none_iff, hp]; exact hno
  have h3 := (hr.insertRoute hcp m h').2.2 hs hn
  rw [hrn] at h3
  refine ⟨_, Prod.ext rfl h3.1, fun req => ?_⟩
  have hr' := h3.2
  have hg' := hr'.good (hg.uniq.route hrn)
  have hlk : lookup (logOf prog ++ [⟨segments path, .route m h'⟩]) req = lookup (logOf prog) req :=
    lookup_congr (paramAt_add_same hg hg' he hp) (known_add_same he hp)
      (hasEntry_add_same he hw hp) req
  have hmw : ∀ q, mwsAt (logOf prog ++ [⟨segments path, .route m h'⟩]) q = mwsAt (logOf prog) q := by
    intro q; rw [mwsAt_append]; simp [mwsAt]
  cases hl : lookup (logOf prog) req with
  | none =>
    rw [hl] at hlk
    obtain ⟨a1, a2, a3, a4⟩ := hr.obs_none hl
    obtain ⟨b1, b2, b3, b4⟩ := hr'.obs_none hlk
    exact ⟨by rw [a1, b1], by rw [a3, b3], fun x => by rw [a4, b4], fun m' _ => by rw [a2, b2],
      .inr (by rw [a2, b2]), fun m₀ h₀ _ hh => by rw [a2] at hh; simp at hh⟩
  | some qb =>
    obtain ⟨q, b⟩ := qb
    rw [hl] at hlk
    obtain ⟨a1, a2, a3, a4⟩ := hr.obs_some hl
    obtain ⟨b1, b2, b3, b4⟩ := hr'.obs_some hlk
    refine ⟨by rw [a1, b1], by rw [a3, b3, chain_congr hmw], fun x => by rw [a4, b4], fun m' hm => ?_, ?_,
      fun m₀ h₀ hw₀ hh hu => ?_⟩
    · rw [a2, b2, routeAt_add hm]
    · rw [a2, b2, routeAt_append]
      by_cases hq : flat (segments path) = q
      · exact .inl (by simp [routeAt, Entry.isAt, hq])
      · exact .inr (by simp [routeAt, Entry.isAt, hq])
    · rw [a2] at hh
      obtain ⟨e', he', rfl, hw'⟩ := routeAt_mem hh
      rw [b2, routeAt_append, hu e' he' hw', ← hp]
      simp [routeAt, Entry.isAt]

example : ∃ r, build demo = (r, none) ∧ (r.insertRoute .put (s "users//all") 77).2 = none ∧
    (r.insertRoute .post (s "users//all") 77).2 = some (.duplicated .post (s "users//all")) ∧
    handlerFor (r.insertRoute .put (s "users//all") 77).1 .put (s "/users/all") = some 77 ∧
    handlerFor (r.insertRoute .put (s "users//all") 77).1 .get (s "/users/all") = some 2 :=
  ⟨_, build_eq demo_ok, by decide +kernel, by decide +kernel, by decide +kernel, by decide +kernel⟩

/-! ### C11 -/

/-- **C11 is false**: no request matches both `/user/:id` and `/users`, but they cannot be registered
together. -/
theorem C11_false : ∃ (prog : Prog), CleanRegs prog ∧
    prog = [.get (s "/user/:id") 1, .get (s "/users") 2] ∧
    (∀ req b b', ¬ (Matches (segments (s "/user/:id")) req b ∧ Matches (segments (s "/users")) req b')) ∧
    (build prog).2 ≠ none := by
  refine ⟨_, ?_, rfl, ?_, by decide +kernel⟩
  · simp only [CleanRegs, CleanReg]; decide +kernel
  · rw [show segments (s "/user/:id") = [s "user", s ":id"] by decide +kernel,
      show segments (s "/users") = [s "users"] by decide +kernel]
    rintro req b b' ⟨h1, h2⟩
    have len : ∀ {p q : List Str} {c}, Matches p q c → ['*'] ∉ p → p.length = q.length := by
      intro p q c h
      induction h with
      | nil => simp
      | static _ _ _ ih => intro hn; simp at hn; simp [ih hn.2]
      | param _ ih => intro hn; simp at hn; simp [ih hn]
      | wild => simp
    have e1 := len h1 (by decide +kernel)
    have e2 := len h2 (by decide +kernel)
    simp at e1 e2; omega

theorem _root_.Obsidian.Spec.PartEarly.symm {a b : List Str} (h : PartEarly a b) : PartEarly b a := by
  obtain ⟨p, c, d, u, v, h1, h2, h3, h4, h5⟩ := h
  exact ⟨p, d, c, v, u, h2, h1, h3.symm, h5, h4⟩

theorem _root_.Obsidian.Spec.PartEarly.not_clash {a b : List Str} (h : PartEarly a b) : ¬ Clash a b := by
  obtain ⟨p, c, d, u, v, h1, h2, h3, h4, _⟩ := h
  rintro ⟨q, x, hq, hpre, _, _⟩
  have hl := h4 q x hq
  have hqa : q <+: flat a := hq.segEnd.prefix
  rw [h1] at hqa
  rw [h2] at hpre
  have k1 : p ++ [c] <+: q := List.prefix_of_prefix_length_le (l₃ := p ++ c :: u)
    (by exact ⟨u, by simp⟩) hqa (by simp; omega)
  have k2 : p ++ [d] <+: q := List.prefix_of_prefix_length_le (l₃ := p ++ d :: v)
    (by exact ⟨v, by simp⟩) hpre (by simp; omega)
  have := List.prefix_of_prefix_length_le k1 k2 (by simp)
  have := this.eq_of_length (by simp)
  simp at this
  exact h3 this

theorem _root_.Obsidian.Spec.NoParam.not_clash {a b : List Str} (h : NoParam a) : ¬ Clash a b := by
  rintro ⟨q, x, hq, _⟩; exact absurd rfl (h _ hq.mem)

/-- **C11, what holds**: in any table, a route is accepted if it and every registered path either have
no parameters or differ in a character before their first parameter, and its method is not yet
registered at its place (its characters without slashes).  Missing: paths with parameters that part
only at or after the parameter, and paths that differ in slashes only, where the claim is false. -/
theorem C11_compatible_routes_partial {prog : List (Reg M H)} (hc : CleanRegs prog) {r : Router M H}
    (hb : build prog = (r, none)) {path : Str} (hp : CleanPath path) (hs : StarsOK (segments path))
    {m : Method} {hd : H}
    (hcompat : ∀ e ∈ logOf prog, (NoParam e.segs ∧ NoParam (segments path)) ∨
      PartEarly e.segs (segments path))
    (hno : ∀ e ∈ logOf prog, flat e.segs = flat (segments path) → ∀ h, e.what ≠ .route m h) :
    (r.insertRoute m path hd).2 = none := by
  refine (C09_route hc hb hp hs m hd).2.2 ⟨?_, ?_⟩
  · rintro ⟨e, he, h⟩
    rcases hcompat e he with ⟨h1, h2⟩ | h1
    · exact h.elim h1.not_clash h2.not_clash
    · exact h.elim h1.not_clash h1.symm.not_clash
  · rintro ⟨e, he, hf, h, hw⟩; exact hno e he hf h hw

example : PartEarly (segments (s "/users/:id")) (segments (s "/items/:id/parts")) := by
  refine ⟨[], 'u', 'i', s "sers:id", s "tems:idparts", by decide +kernel, by decide +kernel, by decide, ?_, ?_⟩
  · intro q x h
    rw [show segments (s "/users/:id") = [s "users", s ":id"] by decide +kernel] at h
    obtain ⟨pre, post, h1, rfl⟩ := h
    cases pre with
    | nil => simp at h1; exact absurd h1.1 (by rw [show s "users" = 'u' :: s "sers" by decide +kernel]; simp)
    | cons a pre =>
      simp at h1; rw [flat_cons, ← h1.1, List.length_append]
      exact Nat.lt_of_lt_of_le (show 0 < (s "users").length by decide +kernel) (Nat.le_add_right _ _)
  · intro q x h
    rw [show segments (s "/items/:id/parts") = [s "items", s ":id", s "parts"] by decide +kernel] at h
    obtain ⟨pre, post, h1, rfl⟩ := h
    cases pre with
    | nil => simp at h1; exact absurd h1.1 (by rw [show s "items" = 'i' :: s "tems" by decide +kernel]; simp)
    | cons a pre =>
      simp at h1; rw [flat_cons, ← h1.1, List.length_append]
      exact Nat.lt_of_lt_of_le (show 0 < (s "items").length by decide +kernel) (Nat.le_add_right _ _)

/-! ### C20 -/

/-- **C20 is false for paths that share characters**: `/apix` is not below `/api`, but mounting a
router at `/api` is rejected because of it. -/
theorem C20_false : ∃ (prog : Prog) (r t : Router Nat Nat), CleanRegs prog ∧
    build prog = (r, none) ∧ build ([.get (s "/x") 2] : Prog) = (t, none) ∧
    (∀ e ∈ logOf prog, ¬ segments (s "/api") <+: e.segs) ∧
    (r.useRouter (s "/api") t).2 = some (.conflict (s "/api")) := by
  refine ⟨[.get (s "/apix") 1], _, _, ?_, build_eq (by decide +kernel), build_eq (by decide +kernel), ?_,
    by decide +kernel⟩
  · simp only [CleanRegs, CleanReg]; decide +kernel
  · have : logOf ([.get (s "/apix") 1] : Prog) = [⟨[s "apix"], .route .get 1⟩] := by decide +kernel
    rw [this]; intro e he; simp at he; subst he
    decide +kernel

/-- **C20, what holds**: a mount that passes the other checks is rejected as a conflict exactly when
something is registered at its place, or the characters of some registered path properly extend the
ones of the mount path.  In particular it is rejected whenever a registered path extends the mount
path by segments.  Missing: "only if" at the level of segments, which is false. -/
theorem C20_conflict_partial {prog sub : List (Reg M H)} (hc : CleanRegs prog) (hc' : CleanRegs sub)
    {r t : Router M H} (hb : build prog = (r, none)) (hb' : build sub = (t, none)) {path : Str}
    (hp : CleanPath path) (hs : StarsOK (segments path)) (hne : segments path ≠ [])
    (hn : NoClash (logOf prog) (segments path)) :
    ((r.useRouter path t).2 = some (.conflict path) ↔
      ∃ e ∈ logOf prog, (flat e.segs = flat (segments path) ∧ e.what ≠ .nothing) ∨
        (flat (segments path) <+: flat e.segs ∧ flat e.segs ≠ flat (segments path))) ∧
    ((r.useRouter path t).2 = some (.conflict path) ∨ (r.useRouter path t).2 = none) ∧
    ((∃ e ∈ logOf prog, e.what ≠ .nothing ∧ segments path <+: e.segs) →
      (r.useRouter path t).2 = some (.conflict path)) := by
  obtain ⟨_, _, _, h3, h4⟩ := (build_rep hc hb).useRouter (build_rep hc' hb') hp
  have hfree : ¬ Free (logOf prog) (flat (segments path)) ↔
      ∃ e ∈ logOf prog, (flat e.segs = flat (segments path) ∧ e.what ≠ .nothing) ∨
        (flat (segments path) <+: flat e.segs ∧ flat e.segs ≠ flat (segments path)) := by
    rw [Free, ← Bool.not_eq_true, hasEntry_iff]
    constructor
    · intro h
      refine Classical.byContradiction fun hx => h ⟨?_, ?_⟩
      · rintro ⟨e, he, h1, h2⟩; exact hx ⟨e, he, Or.inl ⟨h1, h2⟩⟩
      · intro e he hpre
        exact Classical.byContradiction fun hne => hx ⟨e, he, Or.inr ⟨hpre, hne⟩⟩
    · rintro ⟨e, he, h1 | h1⟩ ⟨h2, h3⟩
      · exact h2 ⟨e, he, h1⟩
      · exact h1.2 (h3 e he h1.1)
  have hiff : (r.useRouter path t).2 = some (.conflict path) ↔
      ¬ Free (logOf prog) (flat (segments path)) := by
    constructor
    · intro h hf; rw [(h4 hs hne hn hf).1] at h; simp at h
    · intro hf; exact (h3 hs hne hn hf).1
  refine ⟨hiff.trans hfree, ?_, ?_⟩
  · by_cases hf : Free (logOf prog) (flat (segments path))
    · exact Or.inr (h4 hs hne hn hf).1
    · exact Or.inl (h3 hs hne hn hf).1
  · rintro ⟨e, he, hw, post, hpost⟩
    rw [hiff, hfree]
    refine ⟨e, he, ?_⟩
    by_cases hq : flat e.segs = flat (segments path)
    · exact Or.inl ⟨hq, hw⟩
    · exact Or.inr ⟨by rw [← hpost, flat_append]; simp, hq⟩

example : ∃ r t, build demo = (r, none) ∧ build ([.get (s "/x") 2] : Prog) = (t, none) ∧
    (r.useRouter (s "/users") t).2 = some (.conflict (s "/users")) ∧
    (r.useRouter (s "/shop") t).2 = none :=
  ⟨_, _, build_eq demo_ok, build_eq (by decide +kernel), by decide +kernel, by decide +kernel⟩

end Obsidian.Props
