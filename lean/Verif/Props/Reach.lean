import Verif.Spec.Calls
import Verif.Props.Common
import Verif.Proofs.WayProg

/-
C01, C02, C03, C47, C51, C52: registered routes are reachable.
-/
namespace Obsidian.Props
open Obsidian Spec
variable {M H : Type}

/-! ### C01, C02 -/

theorem mem_logReg {c : Reg M H} {L : Log M H} {e : Entry M H} (he : e ∈ L)
    (hn : ∀ p sub, (c = .useRouter p sub ∨ c = .scope p sub) → segments p ≠ []) :
    e ∈ logReg c L := by
  cases c with
  | useServiceTo p m => rw [logReg]; split <;> simp [he]
  | useRouter p sub => rw [logReg, mountLog, if_neg (hn p sub (Or.inl rfl))]; simp [he]
  | scope p sub => rw [logReg, mountLog, if_neg (hn p sub (Or.inr rfl))]; simp [he]
  | _ => simp [logReg, he]

theorem mem_logRegs {cs : List (Reg M H)} {L : Log M H} {e : Entry M H} (he : e ∈ L)
    (hn : NoRootMount cs) : e ∈ logRegs cs L := by
  induction cs generalizing L with
  | nil => simpa [logRegs] using he
  | cons c cs ih =>
    rw [logRegs]
    exact ih (mem_logReg he (hn c (by simp))) (fun c' h' => hn c' (by simp [h']))

theorem logRegs_append (a b : List (Reg M H)) (L : Log M H) :
    logRegs (a ++ b) L = logRegs b (logRegs a L) := by
  induction a generalizing L with
  | nil => simp [logRegs]
  | cons c a ih => simp [logRegs, ih]

theorem logReg_verb (v : Verb) (p : Str) (h : H) (L : Log M H) :
    logReg (v.reg p h) L = L ++ [⟨segments p, .route v.method h⟩] := by
  cases v <;> simp [Verb.reg, Verb.method, logReg]

/-- **C02**: a registered route without wildcard serves every request that matches it segment by
segment, for its method, with each parameter bound to its segment (the leftmost one when a name is
used twice), whatever else was registered. -/
theorem C02_parameter_routes_reachable {prog : List (Reg M H)} {r : Router M H}
    (hb : build prog = (r, none)) {ss : List Str} {m : Method} {h : H}
    (he : ⟨ss, .route m h⟩ ∈ logOf prog) (hs : NoStar ss) {path : Str} {b : List (Str × Str)}
    (hm : Matches ss (segments path) b) :
    isFound r path = true ∧ handlerFor r m path = some h ∧ ∀ x, paramFor r path x = b.lookup x := by
  obtain ⟨t, ms, hat, rv, hv, hr⟩ := (Node.build_tracks hb).has _ he hs
  obtain ⟨ps, e, hps⟩ := hat.found hv hm
  refine ⟨by rw [isFound, e], ?_, fun x => by rw [paramFor, e]; exact hps x⟩
  rw [handlerFor, e]
  simp [RouteValueResult.getRoute, hr]

example : ∃ r, build demo = (r, none) ∧ handlerFor r .get (s "/items/7/parts/wheel") = some 4 ∧
    paramFor r (s "/items/7/parts/wheel") (s "part") = some (s "wheel") := by
  refine ⟨_, build_eq demo_ok, ?_⟩
  have := C02_parameter_routes_reachable (build_eq demo_ok)
    (ss := segments (s "/items/:id/parts/:part")) (m := .get) (h := 4)
    (by decide +kernel) (by decide +kernel)
    (path := s "/items/7/parts/wheel") (b := [(s "id", s "7"), (s "part", s "wheel")])
    (.static (by decide +kernel) (by decide +kernel) (.param (.static (by decide +kernel)
      (by decide +kernel) (.param .nil))))
  exact ⟨this.2.1, by rw [this.2.2]; decide +kernel⟩

theorem matches_static {ss : List Str} (h : Static ss) : Matches ss ss [] := by
  induction ss with
  | nil => exact .nil
  | cons a ss ih =>
    exact .static (h a (by simp)).1 (h a (by simp)).2 (ih (fun x hx => h x (by simp [hx])))

theorem noStar_static {ss : List Str} (h : Static ss) : NoStar ss := fun hx => (h _ hx).2 rfl

/-- **C01**: a registered static route serves every request with its segments. -/
theorem C01_static_routes_reachable {prog : List (Reg M H)} {r : Router M H}
    (hb : build prog = (r, none)) {ss : List Str} {m : Method} {h : H}
    (he : ⟨ss, .route m h⟩ ∈ logOf prog) (hs : Static ss) {path : Str} (hp : segments path = ss) :
    isFound r path = true ∧ handlerFor r m path = some h := by
  have := C02_parameter_routes_reachable hb he (noStar_static hs) (path := path)
    (by rw [hp]; exact matches_static hs)
  exact ⟨this.1, this.2.1⟩

/-- **C01** for a direct call: whatever was registered before and after, except root mounts after. -/
theorem C01_direct {pre post : List (Reg M H)} {v : Verb} {p : Str} {h : H}
    {r : Router M H}
    (hb : build (pre ++ v.reg p h :: post) = (r, none)) (hn : NoRootMount post)
    (hs : Static (segments p)) {path : Str} (hp : segments path = segments p) :
    handlerFor r v.method path = some h := by
  refine (C01_static_routes_reachable hb (ss := segments p) ?_ hs hp).2
  rw [logOf, logRegs_append, logRegs]
  exact mem_logRegs (by rw [logReg_verb]; simp) hn

example : ∃ r, build demo = (r, none) ∧ handlerFor r .post (s "users//all/") = some 3 := by
  refine ⟨_, build_eq demo_ok, ?_⟩
  exact C01_direct (pre := demo.take 3) (post := demo.drop 4) (v := .post) (p := s "/users/all") (h := 3)
    (build_eq demo_ok) (by
      intro c hcm p sub h
      simp [demo] at hcm
      rcases hcm with rfl | rfl | rfl | rfl | rfl <;> simp at h
      · obtain ⟨rfl, _⟩ := h; decide +kernel
      · obtain ⟨rfl, _⟩ := h; decide +kernel) (by decide +kernel) (by decide +kernel)

/-- They are served like any other (see C65 for what else they serve). -/
example : ∃ r, build clock = (r, none) ∧ handlerFor r .get (s "/meet/12:30") = some 2 := by
  refine ⟨_, build_eq clock_ok, ?_⟩
  exact (C01_static_routes_reachable (build_eq clock_ok) (ss := [s "meet", s "12:30"]) (m := .get) (h := 2) (by decide +kernel)
      (by decide +kernel) (path := s "/meet/12:30") (by decide +kernel)).2

/-! ### C03 -/

/-- **C03**: below a registered wildcard every longer request finds an entry: the wildcard's own one,
or the one of another registered path that spells out the first segment below the prefix. -/
theorem C03_wildcard_catches {prog : List (Reg M H)} (hc : CleanRegs prog) {r : Router M H}
    (hb : build prog = (r, none)) (hsm : NoStarMount (logOf prog)) {pre : List Str} {m : Method} {h : H}
    (he : ⟨pre ++ [['*']], .route m h⟩ ∈ logOf prog) {path : Str} {req : List Str} {x : Str}
    {xs : List Str} {b : List (Str × Str)} (hm : Matches pre req b) (hns : NoStar pre)
    (hp : segments path = req ++ x :: xs) :
    isFound r path = true ∧
    ((handlerFor r m path = some h ∧ ∀ y, paramFor r path y = b.lookup y) ∨
     ∃ e ∈ logOf prog, e.what ≠ .nothing ∧ flat (pre ++ [x]) <+: flat e.segs ∧
       (∃ b', FlatMatch e.segs (segments path) b') ∧
       ∀ m', handlerFor r m' path = routeAt (logOf prog) (flat e.segs) m') := by
  have hg := build_good hc hb
  have hr := build_rep hc hb
  have hne : ∀ s ∈ x :: xs, s ≠ [] := fun s hs => segments_ne path s (by rw [hp]; simp at hs ⊢; exact Or.inr hs)
  obtain ⟨q, b', hf, hcase⟩ := hg.find_wild he rfl hne
  have hf2 := hg.find_follow he hm (more := x :: xs) (tl := [['*']]) (by simp) [] rfl hns
    (by simpa using hf)
  have hent := hg.find_entry hsm hf
  have h0 : segments path ≠ [] := by rw [hp]; simp
  have hl : lookup (logOf prog) path = some (q, b ++ b') := by
    rw [lookup]; simp only [h0, if_false]
    rw [hp]; simp only [flat_nil] at hf2; rw [hf2]; simp [hent]
  obtain ⟨h1, h2, _, h4⟩ := hr.obs_some hl
  refine ⟨h1, ?_⟩
  rcases hcase with ⟨rfl, rfl⟩ | ⟨_, hpre⟩
  · left
    refine ⟨?_, by simpa using h4⟩
    rw [h2]
    have := hg.uniq _ he m h rfl
    simpa [flat_append] using this
  · right
    obtain ⟨e, hem, hq, hw⟩ := hasEntry_iff.1 hent
    refine ⟨e, hem, hw, ?_, ⟨_, hg.lookup_sound hl hem hq⟩, fun m' => by rw [h2, hq]⟩
    rw [hq]; simpa [flat_append] using hpre

example : ∃ r, build demo = (r, none) ∧ handlerFor r .get (s "/files/css/site.css") = some 5 :=
  ⟨_, build_eq demo_ok, by decide +kernel⟩

/-- The hypotheses of C03 are met by a program with overlapping wildcards. -/
example : let prog : Prog := [.get (s "/files/*") 1, .get (s "/files/css/*") 2, .get (s "/:lang/*") 3]
    (build prog).2 ≠ none := by decide +kernel

example : let prog : Prog := [.get (s "/files/*") 1, .get (s "/files/css/*") 2]
    NoStarMount (logOf prog) ∧ (build prog).2 = none ∧
    handlerFor (build prog).1 .get (s "/files/js/x") = some 1 ∧
    handlerFor (build prog).1 .get (s "/files/css/x") = some 2 := by
  refine ⟨?_, by decide +kernel, by decide +kernel, by decide +kernel⟩
  intro e he pre post hpre
  simp only [logOf, logRegs, logReg, List.nil_append, List.cons_append, List.mem_cons,
    List.not_mem_nil, or_false] at he
  have key : ∀ a : List Str, ['*'] ∉ a → a ++ [['*']] = pre ++ ['*'] :: post → post = [] := by
    intro a ha hx
    rcases List.append_eq_append_iff.1 hx with ⟨c, h1, h2⟩ | ⟨c, h1, h2⟩
    · cases c with
      | nil => simpa using h2.symm
      | cons d c => simp at h2
    · cases c with
      | nil => simpa using h2
      | cons d c => exact absurd (by rw [h1]; simp at h2; simp [h2.1]) ha
  rcases he with rfl | rfl
  · exact ⟨key [s "files"] (by decide +kernel) hpre, by simp⟩
  · exact ⟨key [s "files", s "css"] (by decide +kernel) hpre, by simp⟩

/-! ### C47 -/

/-- **C47 fails at the root**: `/*` does not serve `/`. -/
theorem C47_false_root : ∃ (prog : Prog) (r : Router Nat Nat), CleanRegs prog ∧
    build prog = (r, none) ∧ ⟨[['*']], .route .get 1⟩ ∈ logOf prog ∧
    hasEntry (logOf prog) [] = false ∧ isFound r (s "/") = false := by
  refine ⟨[.get (s "/*") 1], _, ?_, build_eq (by decide +kernel), ?_, by decide +kernel,
    by decide +kernel⟩
  · simp only [CleanRegs, CleanReg]; decide +kernel
  · decide +kernel

/-- **C47 fails after a parameter**: `/u/:id/*` does not serve `/u/5`. -/
theorem C47_false_param : ∃ (prog : Prog) (r : Router Nat Nat), CleanRegs prog ∧
    build prog = (r, none) ∧ ⟨[s "u", s ":id", ['*']], .route .get 1⟩ ∈ logOf prog ∧
    hasEntry (logOf prog) (s "u:id") = false ∧ isFound r (s "/u/5") = false := by
  refine ⟨[.get (s "/u/:id/*") 1], _, ?_, build_eq (by decide +kernel), ?_, by decide +kernel,
    by decide +kernel⟩
  · simp only [CleanRegs, CleanReg]; decide +kernel
  · decide +kernel

/-- **C47, what holds**: if the last segment of the prefix is static, and nothing is registered at the
prefix, the wildcard also serves the bare prefix.  Missing from the full claim: the root and prefixes
that end in a parameter, where it is false. -/
theorem C47_bare_prefix_partial {prog : List (Reg M H)} (hc : CleanRegs prog) {r : Router M H}
    (hb : build prog = (r, none)) {pre : List Str} {x : Str} {m : Method} {h : H}
    (he : ⟨pre ++ [x, ['*']], .route m h⟩ ∈ logOf prog) (hx : x.head? ≠ some ':') (hx' : x ≠ ['*'])
    (hns : NoStar pre) (hno : hasEntry (logOf prog) (flat (pre ++ [x])) = false) {path : Str}
    {req : List Str} {b : List (Str × Str)} (hm : Matches pre req b)
    (hp : segments path = req ++ [x]) :
    isFound r path = true ∧ handlerFor r m path = some h ∧ ∀ y, paramFor r path y = b.lookup y := by
  have hg := build_good hc hb
  have hr := build_rep hc hb
  obtain ⟨_, hpar, hk⟩ := hg.seg he (pre := pre) (s := x) (post := [['*']]) rfl
  have hstar : hasEntry (logOf prog) (flat pre ++ x ++ ['*']) = true :=
    hasEntry_iff.2 ⟨_, he, by simp [flat_append], by simp⟩
  have hno' : hasEntry (logOf prog) (flat pre ++ x) = false := by simpa [flat_append] using hno
  have hf : find (logOf prog) (flat pre) [x] = some (flat pre ++ x ++ ['*'], []) := by
    have hh := head_star_of (hg.clean _ he x (by simp)) hx'
    rw [List.append_assoc] at hstar
    rw [find, hpar hx]; simp [hh, hk, hno', hstar]
  have hf2 := hg.find_follow he hm (more := [x]) (tl := [x, ['*']]) (by simp) [] rfl hns
    (by simpa using hf)
  have hl : lookup (logOf prog) path = some (flat pre ++ x ++ ['*'], b) := by
    rw [lookup]
    have h0 : segments path ≠ [] := by rw [hp]; simp
    simp only [h0, if_false]
    rw [hp]; simp only [flat_nil, List.append_nil] at hf2; rw [hf2]
    simp only
    rw [List.append_assoc] at hstar
    rw [if_pos hstar, List.append_assoc]
  obtain ⟨h1, h2, _, h4⟩ := hr.obs_some hl
  refine ⟨h1, ?_, h4⟩
  rw [h2]
  have := hg.uniq _ he m h rfl
  simpa [flat_append] using this

example : ∃ r, build demo = (r, none) ∧ hasEntry (logOf demo) (s "files") = false ∧
    handlerFor r .get (s "/files") = some 5 :=
  ⟨_, build_eq demo_ok, by decide +kernel, by decide +kernel⟩

/-! ### C51 -/

/-- **C51 is false**: with `/*` and `/ab`, the request `/a/b` goes to `/*`; registering `/ac`, which
does not match that request, makes it go to `/ab`. -/
theorem C51_false : ∃ (prog : Prog) (c : Reg Nat Nat) (r r' : Router Nat Nat) (path : Str),
    CleanRegs (prog ++ [c]) ∧ build prog = (r, none) ∧ build (prog ++ [c]) = (r', none) ∧
    c = .get (s "/ac") 3 ∧ (∀ b, ¬ FlatMatch [s "ac"] (segments path) b) ∧
    handlerFor r .get path = some 1 ∧ handlerFor r' .get path = some 2 := by
  refine ⟨[.get (s "/*") 1, .get (s "/ab") 2], .get (s "/ac") 3, _, _, s "/a/b", ?_,
    build_eq (by decide +kernel), build_eq (by decide +kernel), rfl, ?_, by decide +kernel,
    by decide +kernel⟩
  · simp only [List.cons_append, List.nil_append, CleanRegs, CleanReg]; decide +kernel
  · have key : ∀ pat req b, FlatMatch pat req b → (∀ s ∈ pat, s.head? ≠ some ':' ∧ s ≠ ['*']) →
        flat pat = flat req := by
      intro pat req b h
      induction h with
      | nil => simp
      | text h1 h2 ih =>
        intro hp
        rw [flat_append, flat_append, h1, ih (fun s hs => hp s (by simp [hs]))]
      | param h ih => intro hp; have := (hp _ (List.mem_cons_self)).1; simp at this
      | wild => intro hp; have := (hp _ (List.mem_cons_self)).2; simp at this
    intro b h
    exact absurd (key _ _ _ h (by decide +kernel)) (by decide +kernel)

/-- **C51 is false** also for requests that are not found: with `/ab`, the request `/a/b` is answered with 404;
registering `/ac` makes it go to `/ab`. -/
theorem C51_false_unknown : ∃ (prog : Prog) (c : Reg Nat Nat) (r r' : Router Nat Nat), CleanRegs (prog ++ [c]) ∧
    prog = [.get (s "/ab") 2] ∧ c = .get (s "/ac") 3 ∧ build prog = (r, none) ∧ build (prog ++ [c]) = (r', none) ∧
    isFound r (s "/a/b") = false ∧ handlerFor r' .get (s "/a/b") = some 2 :=
  ⟨_, _, _, _, by simp only [List.cons_append, List.nil_append, CleanRegs, CleanReg]; decide +kernel, rfl, rfl,
    build_eq (by decide +kernel), build_eq (by decide +kernel), by decide +kernel, by decide +kernel⟩

/-- **C51, what holds**: a request that matches a wildcard-free route segment by segment is served by
that route before and after any further (non-root-mount) registrations. -/
theorem C51_further_registrations_partial {prog more : List (Reg M H)} {r r' : Router M H}
    (hb : build prog = (r, none)) (hb' : build (prog ++ more) = (r', none)) (hn : NoRootMount more)
    {ss : List Str} {m : Method} {h : H} (he : ⟨ss, .route m h⟩ ∈ logOf prog) (hs : NoStar ss)
    {path : Str} {b : List (Str × Str)} (hm : Matches ss (segments path) b) :
    handlerFor r' m path = handlerFor r m path ∧ ∀ x, paramFor r' path x = paramFor r path x := by
  have h1 := C02_parameter_routes_reachable hb he hs hm
  have he' : ⟨ss, .route m h⟩ ∈ logOf (prog ++ more) := by
    rw [logOf, logRegs_append]; exact mem_logRegs he hn
  have h2 := C02_parameter_routes_reachable hb' he' hs hm
  exact ⟨by rw [h1.2.1, h2.2.1], fun x => by rw [h1.2.2, h2.2.2]⟩

/-! ### C52 -/

/-- **C52 is false**: the routes of a router mounted at a path that ends in `*` are not found by the
requests that the path describes, and they even hide an outer wildcard. -/
theorem C52_false : ∃ (prog : Prog) (r : Router Nat Nat), CleanRegs prog ∧ build prog = (r, none) ∧
    prog = [.get (s "/a/*") 1, .useRouter (s "/a/b/*") [.get (s "/x") 2]] ∧
    isFound r (s "/a/b/c/x") = false ∧ isFound r (s "/a/b/x") = false := by
  refine ⟨_, _, ?_, build_eq (by decide +kernel), rfl, by decide +kernel, by decide +kernel⟩
  simp only [CleanRegs, CleanReg]; decide +kernel

end Obsidian.Props
