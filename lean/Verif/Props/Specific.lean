import Verif.Props.Reach
import Verif.Props.Sound
import Verif.Props.Static

/-
C72, C73, C74: which of several matching routes serves a request, whether a matching route serves it
at all, and whether all its parameters can be read.
-/
namespace Obsidian.Props
open Obsidian Spec
variable {M H : Type}

/-! ### C72 -/

/-- **C72**: the route that serves a request is the most specific one that matches it.  If some route
without wildcard (of any method) matches the request, the serving route has the characters of that
route, and it is that route if the methods agree; and the serving route begins with the prefix of
every wildcard that matches the request. -/
theorem C72_most_specific {prog : List (Reg M H)} (hc : CleanRegs prog) {r : Router M H}
    (hb : build prog = (r, none)) {m : Method} {path : Str} {h : H}
    (hh : handlerFor r m path = some h) :
    ∃ e ∈ logOf prog, e.what = .route m h ∧ (∃ b, FlatMatch e.segs (segments path) b) ∧
      ∀ ss' m' h' b', ⟨ss', .route m' h'⟩ ∈ logOf prog → Matches ss' (segments path) b' →
        (NoStar ss' → flat ss' = flat e.segs ∧ (m' = m → h' = h)) ∧
        (∀ pre, NoStar pre → ss' = pre ++ [['*']] → flat pre <+: flat e.segs) := by
  have hg := build_good hc hb
  obtain ⟨q, b, hl, hq⟩ := (build_rep hc hb).handler hh
  obtain ⟨e, he, hf, hw⟩ := routeAt_mem hq
  refine ⟨e, he, hw, ⟨b, hg.lookup_sound hl he hf⟩, fun ss' m' h' b' he' hm' => ⟨?_, ?_⟩⟩
  · intro hs
    have h1 := hg.lookup_match he' (by simp) hm' hs
    rw [hl] at h1
    simp only [Option.some.injEq, Prod.mk.injEq] at h1
    refine ⟨by rw [hf]; exact h1.1.symm, ?_⟩
    rintro rfl
    have h2 := hg.uniq _ he' m' h' rfl
    rw [show flat (Entry.segs ⟨ss', What.route (M := M) m' h'⟩) = q from h1.1.symm, hq] at h2
    exact (Option.some.inj h2).symm
  · rintro pre hs rfl
    obtain ⟨req, x, xs, b1, hp, hm1⟩ : ∃ req x xs b1, segments path = req ++ x :: xs ∧
        Matches pre req b1 := by
      generalize segments path = rs at hm'
      clear he' hl
      induction pre generalizing rs b' with
      | nil =>
        cases hm' with
        | static _ h2 _ => exact absurd rfl h2
        | wild hne =>
          cases rs with
          | nil => exact absurd rfl hne
          | cons x xs => exact ⟨[], x, xs, [], rfl, .nil⟩
      | cons a pre ih =>
        have hs' : NoStar pre := fun hx => hs (by simp [hx])
        generalize hpat : a :: pre ++ [['*']] = pat at hm'
        cases hm' with
        | nil => simp at hpat
        | static h1 h2 h3 =>
          simp only [List.cons_append, List.cons.injEq] at hpat
          obtain ⟨rfl, rfl⟩ := hpat
          obtain ⟨req, x, xs, b1, hp, hm1⟩ := ih _ hs' _ h3
          exact ⟨a :: req, x, xs, b1, by rw [hp]; rfl, .static h1 h2 hm1⟩
        | param h3 =>
          simp only [List.cons_append, List.cons.injEq] at hpat
          obtain ⟨rfl, rfl⟩ := hpat
          obtain ⟨req, x, xs, b1, hp, hm1⟩ := ih _ hs' _ h3
          exact ⟨_ :: req, x, xs, _, by rw [hp]; rfl, .param hm1⟩
        | wild _ => simp at hpat
    have hne : ∀ s ∈ x :: xs, s ≠ [] :=
      fun s hs => segments_ne path s (by rw [hp]; simp at hs ⊢; exact Or.inr hs)
    obtain ⟨q', b2, hfw, hcase⟩ := hg.find_wild he' rfl hne
    have hf2 := hg.find_follow he' hm1 (more := x :: xs) (tl := [['*']]) (by simp) [] rfl hs
      (by simpa using hfw)
    have h0 : segments path ≠ [] := by rw [hp]; simp
    rw [lookup] at hl
    simp only [h0, if_false] at hl
    rw [hp] at hl
    simp only [flat_nil] at hf2
    rw [hf2] at hl
    simp only at hl
    split at hl
    · simp only [Option.some.injEq, Prod.mk.injEq] at hl
      rw [hf, ← hl.1]
      rcases hcase with ⟨rfl, _⟩ | ⟨_, hpre⟩
      · exact List.prefix_append _ _
      · exact (List.prefix_append _ _).trans hpre
    · simp at hl

/-- Overlapping routes. -/
def overlap : Prog :=
  [.get (s "/files/*") 1, .get (s "/files/css/*") 2, .get (s "/files/css/main") 3,
   .get (s "/files/js/:name") 4, .post (s "/files/js/:name") 5]

theorem overlap_ok : (build overlap).2 = none := by decide +kernel

theorem overlap_clean : CleanRegs overlap := by
  simp only [overlap, CleanRegs, CleanReg, and_true]; decide +kernel

/-- The request `/files/css/main` matches three of the routes; the one without wildcard serves it. -/
example : ∃ r, build overlap = (r, none) ∧ handlerFor r .get (s "/files/css/main") = some 3 ∧
    handlerFor r .get (s "/files/css/x/y") = some 2 ∧ handlerFor r .get (s "/files/x") = some 1 ∧
    ∃ e ∈ logOf overlap, e.what = .route .get 3 ∧ flat [s "files", s "css", s "main"] = flat e.segs ∧
      flat [s "files", s "css"] <+: flat e.segs ∧ flat [s "files"] <+: flat e.segs := by
  refine ⟨_, build_eq overlap_ok, by decide +kernel, by decide +kernel, by decide +kernel, ?_⟩
  obtain ⟨e, he, hw, _, hall⟩ := C72_most_specific overlap_clean (build_eq overlap_ok)
    (m := .get) (path := s "/files/css/main") (h := 3) (by decide +kernel)
  have hp : segments (s "/files/css/main") = [s "files", s "css", s "main"] := by decide +kernel
  rw [hp] at hall
  refine ⟨e, he, hw, ((hall [s "files", s "css", s "main"] .get 3 [] (by decide +kernel)
      (matches_static (by decide +kernel))).1 (by decide +kernel)).1,
    (hall [s "files", s "css", ['*']] .get 2 [] (by decide +kernel) ?_).2 _ (by decide +kernel) rfl,
    (hall [s "files", ['*']] .get 1 [] (by decide +kernel) ?_).2 _ (by decide +kernel) rfl⟩
  · exact .static (by decide +kernel) (by decide +kernel) (.static (by decide +kernel) (by decide +kernel)
      (.wild (by simp)))
  · exact .static (by decide +kernel) (by decide +kernel) (.wild (by simp))

/-! ### C73 -/

/-- **C73 is false**: a POST route hides the GET wildcard that matches the request. -/
theorem C73_false_method : ∃ (prog : Prog) (r : Router Nat Nat) (ss : List Str) (path : Str),
    CleanRegs prog ∧ build prog = (r, none) ∧
    prog = [.get (s "/a/*") 1, .post (s "/a/b") 2] ∧
    ⟨ss, .route .get 1⟩ ∈ logOf prog ∧ Matches ss (segments path) [] ∧
    handlerFor r .get path = none := by
  refine ⟨_, _, [s "a", ['*']], s "/a/b", ?_, build_eq (by decide +kernel), rfl, by decide +kernel, ?_,
    by decide +kernel⟩
  · simp only [CleanRegs, CleanReg]; decide +kernel
  · rw [show segments (s "/a/b") = [s "a", s "b"] by decide +kernel]
    exact .static (by decide +kernel) (by decide +kernel) (.wild (by simp))

/-- **C73 is false**: a middleware hides the wildcard that matches the request. -/
theorem C73_false_middleware : ∃ (prog : Prog) (r : Router Nat Nat) (ss : List Str) (path : Str),
    CleanRegs prog ∧ build prog = (r, none) ∧
    prog = [.get (s "/a/*") 1, .useServiceTo (s "/a/b") 2] ∧
    ⟨ss, .route .get 1⟩ ∈ logOf prog ∧ Matches ss (segments path) [] ∧
    handlerFor r .get path = none := by
  refine ⟨_, _, [s "a", ['*']], s "/a/b", ?_, build_eq (by decide +kernel), rfl, by decide +kernel, ?_,
    by decide +kernel⟩
  · simp only [CleanRegs, CleanReg]; decide +kernel
  · rw [show segments (s "/a/b") = [s "a", s "b"] by decide +kernel]
    exact .static (by decide +kernel) (by decide +kernel) (.wild (by simp))

/-- **C73, what holds** for wildcard routes: the request is served if no other registered path spells
out the first segment below the prefix of the wildcard.  Missing: the case that another path does, where
the claim is false. -/
theorem C73_wildcard_partial {prog : List (Reg M H)} (hc : CleanRegs prog) {r : Router M H}
    (hb : build prog = (r, none)) (hsm : NoStarMount (logOf prog)) {pre : List Str} {m : Method} {h : H}
    (he : ⟨pre ++ [['*']], .route m h⟩ ∈ logOf prog) {path : Str} {req : List Str} {x : Str}
    {xs : List Str} {b : List (Str × Str)} (hm : Matches pre req b) (hns : NoStar pre)
    (hp : segments path = req ++ x :: xs)
    (hno : ∀ e ∈ logOf prog, ¬ flat (pre ++ [x]) <+: flat e.segs) :
    handlerFor r m path = some h ∧ ∀ y, paramFor r path y = b.lookup y := by
  rcases (C03_wildcard_catches hc hb hsm he hm hns hp).2 with h1 | ⟨e, he', _, hpre, _⟩
  · exact h1
  · exact absurd hpre (hno e he')

example : ∃ r, build overlap = (r, none) ∧ handlerFor r .get (s "/files/x/y") = some 1 := by
  refine ⟨_, build_eq overlap_ok, ?_⟩
  have hlog : logOf overlap = [⟨[s "files"] ++ [['*']], .route .get 1⟩,
    ⟨[s "files", s "css"] ++ [['*']], .route .get 2⟩, ⟨[s "files", s "css", s "main"], .route .get 3⟩,
    ⟨[s "files", s "js", s ":name"], .route .get 4⟩,
    ⟨[s "files", s "js", s ":name"], .route .post 5⟩] := by decide +kernel
  refine (C73_wildcard_partial overlap_clean (build_eq overlap_ok) ?_ (pre := [s "files"]) (m := .get)
    (h := 1) (by decide +kernel) (path := s "/files/x/y") (req := [s "files"]) (x := s "x") (xs := [s "y"])
    (matches_static (by decide +kernel)) (by decide +kernel) (by decide +kernel) (by
      rw [hlog]; decide +kernel)).1
  refine noStarMount_of_noStar fun e he => ?_
  rw [hlog] at he
  simp only [List.mem_cons, List.not_mem_nil, or_false] at he
  rcases he with rfl | rfl | rfl | rfl | rfl
  · exact .inr ⟨_, rfl, by decide +kernel, by simp⟩
  · exact .inr ⟨_, rfl, by decide +kernel, by simp⟩
  · exact .inl (by decide +kernel)
  · exact .inl (by decide +kernel)
  · exact .inl (by decide +kernel)

/-- **C73, what holds** for routes without wildcard: every request that matches is served. -/
theorem C73_no_wildcard_partial {prog : List (Reg M H)} {r : Router M H}
    (hb : build prog = (r, none)) {ss : List Str} {m : Method} {h : H}
    (he : ⟨ss, .route m h⟩ ∈ logOf prog) (hs : NoStar ss) {path : Str} {b : List (Str × Str)}
    (hm : Matches ss (segments path) b) : handlerFor r m path = some h :=
  (C02_parameter_routes_reachable hb he hs hm).2.1

/-! ### C74 -/

/-- **C74 is false** for a name used twice: only the leftmost value can be read. -/
theorem C74_false : ∃ (prog : Prog) (r : Router Nat Nat) (ss : List Str) (path : Str)
    (b : List (Str × Str)), CleanRegs prog ∧ build prog = (r, none) ∧
    prog = [.useRouter (s "/users/:id") [.get (s "/posts/:id") 1]] ∧
    ⟨ss, .route .get 1⟩ ∈ logOf prog ∧ Matches ss (segments path) b ∧
    path = s "/users/7/posts/9" ∧ (s "id", s "9") ∈ b ∧ handlerFor r .get path = some 1 ∧
    ∀ x, paramFor r path x ≠ some (s "9") := by
  refine ⟨_, _, [s "users", s ":id", s "posts", s ":id"], _, [(s "id", s "7"), (s "id", s "9")], ?_,
    build_eq (by decide +kernel), rfl, by decide +kernel, ?_, rfl, by decide +kernel, by decide +kernel, ?_⟩
  · simp only [CleanRegs, CleanReg]; decide +kernel
  · rw [show segments (s "/users/7/posts/9") = [s "users", s "7", s "posts", s "9"] by decide +kernel]
    exact .static (by decide +kernel) (by decide +kernel) (.param (.static (by decide +kernel)
      (by decide +kernel) (.param .nil)))
  · intro x
    rw [(C02_parameter_routes_reachable (build_eq (by decide +kernel))
      (ss := [s "users", s ":id", s "posts", s ":id"]) (m := .get) (h := 1) (by decide +kernel)
      (by decide +kernel) (b := [(s "id", s "7"), (s "id", s "9")]) ?_).2.2]
    · rw [List.lookup, List.lookup, List.lookup]
      by_cases hx : x = s "id"
      · subst hx; decide +kernel
      · have hx' : (x == s "id") = false := by simpa using hx
        simp [hx']
    · rw [show segments (s "/users/7/posts/9") = [s "users", s "7", s "posts", s "9"] by decide +kernel]
      exact .static (by decide +kernel) (by decide +kernel) (.param (.static (by decide +kernel)
        (by decide +kernel) (.param .nil)))

theorem matches_names {ss req : List Str} {b : List (Str × Str)} (hm : Matches ss req b) :
    b.map Prod.fst = paramNames ss := by
  induction hm with
  | nil => rfl
  | static h1 h2 _ ih => rw [paramNames]; exact ih; intro x hx; subst hx; simp at h1
  | param _ ih => rw [paramNames, List.map_cons, ih]
  | wild _ => rfl

theorem lookup_of_nodup {b : List (Str × Str)} (h : (b.map Prod.fst).Nodup) {x v : Str}
    (hm : (x, v) ∈ b) : b.lookup x = some v := by
  induction b with
  | nil => simp at hm
  | cons a b ih =>
    obtain ⟨k, w⟩ := a
    simp only [List.map_cons, List.nodup_cons, List.mem_map] at h
    rw [List.lookup]
    by_cases hk : x = k
    · subst hk
      rcases List.mem_cons.1 hm with he | hm
      · simp at he; simp [he]
      · exact absurd ⟨(x, v), hm, rfl⟩ h.1
    · have hk' : (x == k) = false := by simpa using hk
      rcases List.mem_cons.1 hm with he | hm
      · simp at he; exact absurd he.1 hk
      · simp [hk', ih h.2 hm]

/-- **C74, what holds**: if the parameters of the route have different names, each of them is found
under its name, for every matching request and whatever else is registered; so are those of a
wildcard route when no other registered path spells out the first segment below its prefix.  Missing:
names used twice, where the claim is false, and wildcard routes that do not serve the request (C73). -/
theorem C74_all_parameters_partial {prog : List (Reg M H)} {r : Router M H}
    (hb : build prog = (r, none)) {ss : List Str} {m : Method} {h : H}
    (he : ⟨ss, .route m h⟩ ∈ logOf prog) (hs : NoStar ss) (hd : (paramNames ss).Nodup) {path : Str}
    {b : List (Str × Str)} (hm : Matches ss (segments path) b) :
    b.map Prod.fst = paramNames ss ∧ ∀ x v, (x, v) ∈ b → paramFor r path x = some v := by
  refine ⟨matches_names hm, fun x v hx => ?_⟩
  rw [(C02_parameter_routes_reachable hb he hs hm).2.2]
  exact lookup_of_nodup (by rw [matches_names hm]; exact hd) hx

example : ∃ r, build demo = (r, none) ∧
    paramFor r (s "/items/7/parts/wheel") (s "id") = some (s "7") ∧
    paramFor r (s "/items/7/parts/wheel") (s "part") = some (s "wheel") := by
  refine ⟨_, build_eq demo_ok, ?_⟩
  have := (C74_all_parameters_partial (build_eq demo_ok)
    (ss := segments (s "/items/:id/parts/:part")) (m := .get) (h := 4)
    (by decide +kernel) (by decide +kernel) (by decide +kernel)
    (path := s "/items/7/parts/wheel") (b := [(s "id", s "7"), (s "part", s "wheel")])
    (.static (by decide +kernel) (by decide +kernel) (.param (.static (by decide +kernel)
      (by decide +kernel) (.param .nil))))).2
  exact ⟨this _ _ (by simp), this _ _ (by simp)⟩

/-- **C74** for wildcard routes. -/
theorem C74_wildcard_parameters_partial {prog : List (Reg M H)} (hc : CleanRegs prog) {r : Router M H}
    (hb : build prog = (r, none)) (hsm : NoStarMount (logOf prog)) {pre : List Str} {m : Method} {h : H}
    (he : ⟨pre ++ [['*']], .route m h⟩ ∈ logOf prog) (hd : (paramNames pre).Nodup) {path : Str}
    {req : List Str} {x : Str} {xs : List Str} {b : List (Str × Str)} (hm : Matches pre req b)
    (hns : NoStar pre) (hp : segments path = req ++ x :: xs)
    (hno : ∀ e ∈ logOf prog, ¬ flat (pre ++ [x]) <+: flat e.segs) :
    ∀ y v, (y, v) ∈ b → paramFor r path y = some v := by
  intro y v hy
  rw [(C73_wildcard_partial hc hb hsm he hm hns hp hno).2]
  exact lookup_of_nodup (by rw [matches_names hm]; exact hd) hy

example : ∃ r : Router Nat Nat, build [.get (s "/u/:id/*") 1] = (r, none) ∧
    paramFor r (s "/u/5/a/b") (s "id") = some (s "5") := by
  have hb : (build [(Reg.get (s "/u/:id/*") 1 : Reg Nat Nat)]).2 = none := by decide +kernel
  have hlog : logOf [(Reg.get (s "/u/:id/*") 1 : Reg Nat Nat)] =
      [⟨[s "u", s ":id"] ++ [['*']], .route .get 1⟩] := by decide +kernel
  refine ⟨_, build_eq hb, ?_⟩
  refine C74_wildcard_parameters_partial (by simp only [CleanRegs, CleanReg]; decide +kernel) (build_eq hb) ?_
    (pre := [s "u", s ":id"]) (m := .get) (h := 1) (by rw [hlog]; simp) (by decide +kernel)
    (path := s "/u/5/a/b") (req := [s "u", s "5"]) (x := s "a") (xs := [s "b"]) (b := [(s "id", s "5")])
    (.static (by decide +kernel) (by decide +kernel) (.param .nil)) (by decide +kernel) (by decide +kernel)
    (by rw [hlog]; decide +kernel) _ _ (by simp)
  refine noStarMount_of_noStar fun e he => ?_
  rw [hlog] at he
  simp only [List.mem_cons, List.not_mem_nil, or_false] at he
  subst he
  exact .inr ⟨_, rfl, by decide +kernel, by simp⟩

end Obsidian.Props
