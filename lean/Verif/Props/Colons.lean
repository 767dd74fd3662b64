import Verif.Props.Reach

/-
C65: a colon that is not at the start of a segment has no special meaning.  False of the code: the tree
splits segments where two paths begin to differ, and a piece that begins with a colon is taken for a
parameter.
-/
namespace Obsidian.Props
open Obsidian Spec
variable {M H : Type}

/-- **C65 fails**: with `/time/12` and `/time/12:30`, none of which has a parameter, the request
`/time/12/foo` is served by the second route, with a parameter `30`. -/
theorem C65_false : ∃ (prog : Prog) (r : Router Nat Nat), build prog = (r, none) ∧
    prog = [.get (s "/time/12") 1, .get (s "/time/12:30") 2] ∧
    handlerFor r .get (s "/time/12/foo") = some 2 ∧ paramFor r (s "/time/12/foo") (s "30") = some (s "foo") ∧
    ∀ e ∈ logOf prog, flat e.segs ≠ flat (segments (s "/time/12/foo")) := by
  refine ⟨_, _, build_eq (by decide +kernel), rfl, by decide +kernel, by decide +kernel, by decide +kernel⟩

/-- **C65 fails** also for registrations: `/time/12`, `/time/12:30` and `/time/12:45` do not have a
parameter, but are rejected as ambiguous. -/
theorem C65_false_ambiguous :
    (build ([.get (s "/time/12") 1, .get (s "/time/12:30") 2, .get (s "/time/12:45") 3] : Prog)).2 =
      some (.ambiguous (s ":45") (s ":30") (s "/time/12:45")) := by decide +kernel

/-- **C65 fails** also for the order of registrations, which does not matter for paths in the documented
syntax (C07): with a colon inside a segment, it decides which of two accepted tables serves a request
with which route, and whether a table is accepted. -/
theorem C65_false_order :
    (∃ (prog prog' : Prog) (r r' : Router Nat Nat), prog.Perm prog' ∧
      prog = [.get (s "/b:b") 1, .get (s "/ba/a") 2, .get (s "/aa/ab") 3] ∧
      build prog = (r, none) ∧ build prog' = (r', none) ∧
      handlerFor r .get (s "/b/aa") = some 2 ∧ handlerFor r' .get (s "/b/aa") = some 1) ∧
    (∃ prog prog' : Prog, prog.Perm prog' ∧ prog = [.get (s "/t/12:30") 2, .get (s "/t/12a") 3, .get (s "/t/12") 1] ∧
      (build prog).2 = none ∧ (build prog').2 ≠ none) :=
  ⟨⟨_, [.get (s "/ba/a") 2, .get (s "/b:b") 1, .get (s "/aa/ab") 3], _, _, .swap _ _ _, rfl,
    build_eq (by decide +kernel), build_eq (by decide +kernel), by decide +kernel, by decide +kernel⟩,
   ⟨_, [.get (s "/t/12:30") 2, .get (s "/t/12") 1, .get (s "/t/12a") 3], .cons _ (.swap _ _ _), rfl,
    by decide +kernel, by decide +kernel⟩⟩

/-- **C65, what holds** for tables with any number of routes: if the table is accepted, every route
whose segments do not begin with a colon and are not wildcards serves the requests with its segments,
colons or not.  Missing: that it serves no others, and is accepted whatever the order of registration;
both are false. -/
theorem C65_own_requests_partial {prog : List (Reg M H)} {r : Router M H} (hb : build prog = (r, none)) {ss : List Str}
    {m : Method} {h : H} (he : ⟨ss, .route m h⟩ ∈ logOf prog) (hs : ∀ x ∈ ss, x.head? ≠ some ':' ∧ x ≠ ['*'])
    {path : Str} (hp : segments path = ss) : handlerFor r m path = some h :=
  (C01_static_routes_reachable hb he hs hp).2

example : ∃ r, build clock = (r, none) ∧ handlerFor r .get (s "/meet/11:45/x/") = some 3 :=
  ⟨_, build_eq clock_ok, C65_own_requests_partial (build_eq clock_ok) (ss := [s "meet", s "11:45", s "x"])
    (by decide +kernel) (by decide +kernel) (by decide +kernel)⟩

/-- A tree without branches. -/
def line (v : RouteValue M H) : List Str → Node M H → Node M H
  | [], n => n.setValue (some v)
  | x :: xs, n => .mk n.key n.value [line v xs (Node.new x none)]

theorem insertLoop_line (path : Str) (r : Route H) (xs : List Str) (hne : xs ≠ []) (k : Str)
    (v : Option (RouteValue M H)) :
    Node.insertLoop path (RouteTrie.addRouteNode path r) xs (.mk k v []) =
      (line ⟨[], ⟨HMap.empty.insert r.method r⟩⟩ xs (.mk k v []), none) := by
  have one : ∀ (x : Str) (f : Node M H → Out (Node M H)) (k : Str) (v : Option (RouteValue M H)),
      Node.processInsertion path (.mk k v []) x f = (.mk k v [(f (Node.new x none)).1], (f (Node.new x none)).2) := by
    intro x f k v
    rw [Node.processInsertion]
    simp only [Node.insertionAction, Node.insertionActionFrom]
    split <;> rfl
  induction xs generalizing k v with
  | nil => exact absurd rfl hne
  | cons x xs ih =>
    cases xs with
    | nil =>
      rw [Node.insertLoop, one]
      rfl
    | cons y ys =>
      rw [Node.insertLoop, one, Node.new, ih (by simp) x none]
      rfl

theorem lcp_self (x : Str) : lcp x x = x := by
  have := lcp_self_append x []
  rwa [List.append_nil] at this

theorem line_found (v : RouteValue M H) (x : Str) (xs : List Str) (hx : ∀ y ∈ x :: xs, y ≠ [] ∧ y.head? ≠ some ':' ∧ y ≠ ['*'])
    (k : Str) (w : Option (RouteValue M H)) (hv : v.middlewares = []) :
    ∃ k', Node.getNextNode (line v (x :: xs) (.mk k w [])) (x :: xs) HMap.empty [] false =
      .found (.mk k' (some v) []) HMap.empty [] := by
  induction xs generalizing x k w with
  | nil =>
    obtain ⟨h1, h2, h3⟩ := hx x (List.mem_cons_self ..)
    have hl : byteLen x ≠ 0 := fun h => h1 (byteLen_eq_zero.1 h)
    have hp : Node.startsColon x = false := by cases x <;> simp_all [Node.startsColon]
    refine ⟨x, ?_⟩
    simp only [line, Node.getNextNode, Node.getNextLoop, Node.isParam, Node.key, Node.setValue, Node.new,
      hp, Bool.not_false, Bool.true_and, Bool.false_eq_true, if_false, decide_eq_true_eq, h3, matchCount_eq,
      lcp_self, ne_eq, not_true_eq_false, and_false, hl, not_false_eq_true, and_self, if_true,
      List.isEmpty_nil, Node.value, List.nil_append, hv]
  | cons y ys ih =>
    obtain ⟨h1, h2, h3⟩ := hx x (List.mem_cons_self ..)
    have hl : byteLen x ≠ 0 := fun h => h1 (byteLen_eq_zero.1 h)
    have hp : Node.startsColon x = false := by cases x <;> simp_all [Node.startsColon]
    obtain ⟨k', hk⟩ := ih y (fun z hz => hx z (List.mem_cons_of_mem _ hz)) x none
    refine ⟨k', ?_⟩
    have : Node.key (line v (y :: ys) (Node.new x none : Node M H)) = x := rfl
    have hm : Node.mws (line v (y :: ys) (Node.new x none : Node M H)) = [] := rfl
    rw [Node.new] at this hm
    rw [line, Node.getNextNode, Node.getNextLoop.eq_def]
    simp only [Node.isParam, Node.new, this,
      hp, Bool.not_false, Bool.true_and, Bool.false_eq_true, if_false, decide_eq_true_eq, h3, matchCount_eq,
      lcp_self, ne_eq, not_true_eq_false, and_false, hl, not_false_eq_true, and_self, if_true,
      List.isEmpty_cons, hk, hm, List.append_nil]

/-- **C65, what holds**: as the only route of a router, a path with colons inside segments is accepted and
serves the requests with its segments.  Missing: several routes, where the claim is false. -/
theorem C65_single_route_partial (v : Verb) (p : Str) (h : H) (hp : ∀ x ∈ segments p, x.head? ≠ some ':' ∧ '*' ∉ x) :
    ∃ r : Router M H, build [v.reg p h] = (r, none) ∧
      ∀ path, segments path = segments p → handlerFor r v.method path = some h ∧ chainFor r path = some [] ∧
        ∀ x, paramFor r path x = none := by
  have hst : StarsOK (segments p) := fun pre x post e hx => absurd hx (hp x (by rw [e]; simp)).2
  have hseg : ∀ x ∈ segments p, x ≠ [] ∧ x.head? ≠ some ':' ∧ x ≠ ['*'] := fun x hx =>
    ⟨segments_ne p x hx, (hp x hx).1, fun e => (hp x hx).2 (by rw [e]; simp)⟩
  have hrun : build [(v.reg p h : Reg M H)] = Router.insertRoute Router.new v.method p h := by
    have : ∀ o : Out (Router M H), (match o with | (r', none) => (r', none) | (r', some e) => (r', some e)) = o := by
      rintro ⟨r, _ | e⟩ <;> rfl
    cases v <;> exact this _
  rw [hrun, Router.insertRoute, RouteTrie.insertRoute, checkStars_ok hst]
  simp only [segs_eq]
  by_cases hss : segments p = []
  · simp only [hss, if_true]
    refine ⟨_, rfl, fun path hpath => ?_⟩
    simp only [handlerFor, chainFor, paramFor, Router.searchRoute, RouteTrie.searchRoute, segs_eq, hpath, if_true]
    refine ⟨?_, rfl, fun x => rfl⟩
    cases v <;> rfl
  · simp only [hss, if_false]
    obtain ⟨x, xs, hx⟩ : ∃ x xs, segments p = x :: xs := by
      cases hs : segments p with
      | nil => exact absurd hs hss
      | cons x xs => exact ⟨x, xs, rfl⟩
    have hins := insertLoop_line (M := M) p ⟨v.method, h⟩ (segments p) hss ['/'] none
    have hroot : (Router.new : Router M H).routes.head = .mk ['/'] none [] := rfl
    rw [hroot, hins]
    refine ⟨_, rfl, fun path hpath => ?_⟩
    obtain ⟨k', hk⟩ := line_found (M := M) ⟨[], ⟨HMap.empty.insert v.method ⟨v.method, h⟩⟩⟩ x xs (hx ▸ hseg) ['/'] none rfl
    have hs : Router.searchRoute (⟨⟨line ⟨[], ⟨HMap.empty.insert v.method ⟨v.method, h⟩⟩⟩ (segments p) (.mk ['/'] none [])⟩⟩ : Router M H) path =
        .ok (some ⟨⟨[], ⟨HMap.empty.insert v.method ⟨v.method, h⟩⟩⟩, HMap.empty⟩) := by
      have hm : Node.mws (line (M := M) ⟨[], ⟨HMap.empty.insert v.method ⟨v.method, h⟩⟩⟩ (x :: xs) (.mk ['/'] none [])) = [] := rfl
      rw [Router.searchRoute, RouteTrie.searchRoute]
      simp only [segs_eq, hpath, hx, hm, hk]
      rfl
    simp only [handlerFor, chainFor, paramFor, hs]
    refine ⟨?_, rfl, fun x => rfl⟩
    cases v <;> rfl

example : ∃ r : Router Nat Nat, build [.get (s "/time/12:30") 1] = (r, none) ∧
    handlerFor r .get (s "/time/12:30/") = some 1 := by
  obtain ⟨r, h, h'⟩ := C65_single_route_partial (M := Nat) .get (s "/time/12:30") 1 (by decide +kernel)
  exact ⟨r, h, (h' _ (by decide +kernel)).1⟩

end Obsidian.Props
