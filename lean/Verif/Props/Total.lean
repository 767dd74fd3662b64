import Verif.Spec.Calls
import Verif.Props.Common

/-
C21, C22: lookup never panics, and registration only panics for the documented reasons - on every
tree, whether or not it was built by registrations, and for every path string.
-/
namespace Obsidian.Props
open Obsidian Spec
variable {M H : Type}

/-! ### C21 -/

theorem slice_prefix {nk k : Str} (h : matchCount nk k = byteLen nk) :
    ∃ k', sliceFrom k (matchCount nk k) = some k' := by
  rw [matchCount_eq, lcp_eq_left] at h
  obtain ⟨t, rfl⟩ := h
  exact ⟨t, by rw [matchCount_eq, lcp_self_append, sliceFrom_append]⟩

mutual
theorem node_total : ∀ (n : Node M H) (k : Str) (key : List Str) (ps : HMap Str Str) (ms : List M)
    (b : Bool) (p : Panic), n.getNextNode (k :: key) ps ms b ≠ .panic p
  | .mk nk v cs, k, key, ps, ms, b, p => by
    rw [Node.getNextNode]; exact loop_total cs k key ps ms b p
theorem loop_total : ∀ (cs : List (Node M H)) (k : Str) (key : List Str) (ps : HMap Str Str)
    (ms : List M) (b : Bool) (p : Panic), Node.getNextLoop cs k key ps ms b ≠ .panic p
  | [], k, key, ps, ms, b, p => by simp [Node.getNextLoop]
  | n :: rest, k, key, ps, ms, b, p => by
    have ihn := node_total n
    have ihr := loop_total rest
    rw [Node.getNextLoop]
    split
    · next hb =>
      simp only [Bool.and_eq_true, Node.isParam, Node.startsColon, beq_iff_eq] at hb
      have : ∃ x, sliceFrom n.key 1 = some x := by
        cases hk : n.key with
        | nil => rw [hk] at hb; simp at hb
        | cons c t =>
          rw [hk] at hb
          obtain ⟨_, rfl⟩ := hb
          exact ⟨t, sliceFrom_append [':'] t⟩
      obtain ⟨x, hx⟩ := this
      rw [hx]
      simp only
      split
      · split
        · simp
        · exact ihr _ _ _ _ _ _
      · next hne =>
        cases key with
        | nil => simp at hne
        | cons k' key' =>
          have := ihn k' key' ps ms false
          split
          · next hp => exact absurd hp (this _)
          · simp
          · exact ihr _ _ _ _ _ _
    · split
      · simp
      · simp only
        split
        · next hc =>
          obtain ⟨k', hk'⟩ := slice_prefix hc.1
          rw [hk']
          simp only
          split
          · have := ihn k' key ps ms true
            split
            · next hp => exact absurd hp (this _)
            · simp
            · exact ihr _ _ _ _ _ _
          · exact ihr _ _ _ _ _ _
        · split
          · split
            · split
              · simp
              · split
                · simp
                · exact ihr _ _ _ _ _ _
            · next hne =>
              cases key with
              | nil => simp at hne
              | cons k' key' =>
                have := ihn k' key' ps ms false
                split
                · next hp => exact absurd hp (this _)
                · simp
                · exact ihr _ _ _ _ _ _
          · exact ihr _ _ _ _ _ _
end

/-- **C21**: looking up any path in any router gives an answer, never a panic. -/
theorem C21_lookup_total (r : Router M H) (path : Str) :
    ∃ res, r.searchRoute path = .ok res := by
  rw [Router.searchRoute, RouteTrie.searchRoute]
  split
  · exact ⟨_, rfl⟩
  · next hne =>
    cases hs : segs path with
    | nil => exact absurd hs hne
    | cons k key =>
      have := node_total r.routes.head k key HMap.empty r.routes.head.mws false
      split
      · next hp => exact absurd hp (this _)
      · exact ⟨_, rfl⟩
      · exact ⟨_, rfl⟩

/-- A request with multi-byte characters that part in the middle of a segment. -/
example : ∃ r, build ([.get (s "/größe/é") 1, .get (s "/grün") 2] : Prog) = (r, none) ∧
    handlerFor r .get (s "/gr/öße/é") = some 1 ∧ isFound r (s "/gröé") = false :=
  ⟨_, build_eq (by decide +kernel), by decide +kernel, by decide +kernel⟩

/-! ### C22 -/

/-- The positions named in an action are positions of children. -/
def ActionIn (key : Str) (cs : List (Node M H)) (i : Nat) : Action → Prop
    | .nextNode j => ∃ n, j ≥ i ∧ cs[j - i]? = some n
    | .splitKey c j => ∃ n, j ≥ i ∧ cs[j - i]? = some n ∧ c = matchCount n.key key ∧ c = byteLen n.key
    | .splitNode c j => ∃ n, j ≥ i ∧ cs[j - i]? = some n ∧ c = matchCount n.key key
    | .error j => ∃ n, j ≥ i ∧ cs[j - i]? = some n
    | .createNewNode => True

theorem action_bound {key : Str} : ∀ (cs : List (Node M H)) (i : Nat),
    ActionIn key cs i (Node.insertionActionFrom key cs i) := by
  intro cs
  induction cs with
  | nil => intro i; simp [Node.insertionActionFrom, ActionIn]
  | cons n cs ih =>
    intro i
    rw [Node.insertionActionFrom]
    split
    · split
      · exact ⟨n, Nat.le_refl i, by simp⟩
      · exact ⟨n, Nat.le_refl i, by simp⟩
    · simp only
      split
      · exact ⟨n, Nat.le_refl i, by simp⟩
      · split
        · next h => exact ⟨n, Nat.le_refl i, by simp, rfl, h⟩
        · split
          · exact ⟨n, Nat.le_refl i, by simp, rfl⟩
          · have step : ∀ {j : Nat} {m : Node M H}, j ≥ i + 1 → cs[j - (i + 1)]? = some m →
                j ≥ i ∧ (n :: cs)[j - i]? = some m := by
              intro j m h1 h2
              have : j - i = (j - (i + 1)) + 1 := by omega
              rw [this, List.getElem?_cons_succ]
              exact ⟨by omega, h2⟩
            have := ih (i + 1)
            cases ha : Node.insertionActionFrom key cs (i + 1) with
            | createNewNode => trivial
            | nextNode j =>
              rw [ha] at this; obtain ⟨m, h1, h2⟩ := this
              exact ⟨m, (step h1 h2).1, (step h1 h2).2⟩
            | splitKey c j =>
              rw [ha] at this; obtain ⟨m, h1, h2, h3, h4⟩ := this
              exact ⟨m, (step h1 h2).1, (step h1 h2).2, h3, h4⟩
            | splitNode c j =>
              rw [ha] at this; obtain ⟨m, h1, h2, h3⟩ := this
              exact ⟨m, (step h1 h2).1, (step h1 h2).2, h3⟩
            | error j =>
              rw [ha] at this; obtain ⟨m, h1, h2⟩ := this
              exact ⟨m, (step h1 h2).1, (step h1 h2).2⟩

theorem modifyChild_panic {f : Node M H → Out (Node M H)} {P : Panic → Prop} :
    ∀ (cs : List (Node M H)) (i : Nat) (n : Node M H), cs[i]? = some n →
      (∀ p, (f n).2 = some p → P p) → ∀ p, (Node.modifyChild f cs i).2 = some p → P p := by
  intro cs
  induction cs with
  | nil => intro i n h; simp at h
  | cons c cs ih =>
    intro i n h hf
    cases i with
    | zero => simp at h; subst h; simpa [Node.modifyChild] using hf
    | succ i => simp at h; simpa [Node.modifyChild] using ih i n h hf

theorem splitNode_panic {f : Node M H → Out (Node M H)} {P : Panic → Prop}
    (hf : ∀ n p, (f n).2 = some p → P p) (n : Node M H) (key : Str) :
    ∀ p, (Node.splitNode (matchCount n.key key) key f n).2 = some p → P p := by
  intro p
  obtain ⟨a, b, h1, h2, _⟩ := lcp_split n.key key
  have e1 : sliceFrom n.key (matchCount n.key key) = some a := by
    rw [matchCount_eq]
    have := sliceFrom_append (lcp n.key key) a
    rwa [← h1] at this
  have e2 : sliceFrom key (matchCount n.key key) = some b := by
    rw [matchCount_eq]
    have := sliceFrom_append (lcp n.key key) b
    rwa [← h2] at this
  have e3 : sliceTo key (matchCount n.key key) = some (lcp n.key key) := by
    rw [matchCount_eq]
    have := sliceTo_append (lcp n.key key) b
    rwa [← h2] at this
  rw [Node.splitNode, e1, e2, e3]
  simp only
  split
  · exact hf _ p
  · exact hf _ p

mutual
theorem process_panic {f : Node M H → Out (Node M H)} {P : Panic → Prop} {path : Str}
    (hf : ∀ n p, (f n).2 = some p → P p) (ha : ∀ a b, P (.ambiguous a b path)) :
    ∀ (n : Node M H) (key : Str) (p : Panic), (n.processInsertion path key f).2 = some p → P p
  | .mk k v cs, key, p => by
    rw [Node.processInsertion]
    have hb := action_bound (key := key) cs 0
    rw [Node.insertionAction]
    cases hact : Node.insertionActionFrom key cs 0 with
    | createNewNode => simp only; split <;> exact hf _ p
    | nextNode i =>
      rw [hact] at hb; obtain ⟨n, _, hn⟩ := hb
      exact modifyChild_panic cs i n (by simpa using hn) (hf n) p
    | splitKey c i =>
      rw [hact] at hb; obtain ⟨n, _, hn, h1, h2⟩ := hb
      obtain ⟨k', hk'⟩ := slice_prefix (h1.symm.trans h2)
      rw [← h1] at hk'
      simp only [hk']
      exact processAt_panic hf ha cs i k' n (by simpa using hn) p
    | splitNode c i =>
      rw [hact] at hb; obtain ⟨n, _, hn, h1⟩ := hb
      subst h1
      exact modifyChild_panic cs i n (by simpa using hn) (splitNode_panic hf n key) p
    | error i =>
      rw [hact] at hb; obtain ⟨n, _, hn⟩ := hb
      have : cs[i]? = some n := by simpa using hn
      simp only [this]
      intro h; simp at h; subst h; exact ha _ _
theorem processAt_panic {f : Node M H → Out (Node M H)} {P : Panic → Prop} {path : Str}
    (hf : ∀ n p, (f n).2 = some p → P p) (ha : ∀ a b, P (.ambiguous a b path)) :
    ∀ (cs : List (Node M H)) (i : Nat) (key : Str) (n : Node M H), cs[i]? = some n →
      ∀ p, (Node.processInsertionAt path cs i key f).2 = some p → P p
  | [], i, key, n, h, p => by simp at h
  | c :: cs, 0, key, n, h, p => by
    simp only [Node.processInsertionAt]; exact process_panic hf ha c key p
  | c :: cs, i + 1, key, n, h, p => by
    simp only [Node.processInsertionAt]
    exact processAt_panic hf ha cs i key n (by simpa using h) p
end

theorem loop_panic {f : Node M H → Out (Node M H)} {P : Panic → Prop} {path : Str}
    (hf : ∀ n p, (f n).2 = some p → P p) (ha : ∀ a b, P (.ambiguous a b path)) (ss : List Str) :
    ∀ (n : Node M H) (p : Panic), (Node.insertLoop path f ss n).2 = some p → P p := by
  induction ss with
  | nil => intro n p h; simp [Node.insertLoop] at h
  | cons k ss ih =>
    cases ss with
    | nil => exact fun n p => process_panic hf ha n k p
    | cons k' ss => exact fun n p => process_panic ih ha n k p

theorem addRouteNode_panic (path : Str) (r : Route H) (n : Node M H) (p : Panic)
    (h : (RouteTrie.addRouteNode path r n).2 = some p) : ∃ m, p = .duplicated m path := by
  simp only [RouteTrie.addRouteNode, Resource.addRoute] at h
  cases hv : n.value with
  | some v =>
    simp only [hv] at h
    cases hg : v.route.routeMap.get r.method with
    | none => simp [hg] at h
    | some d => simp [hg] at h; exact ⟨_, h.symm⟩
  | none =>
    simp only [hv] at h
    simp [RouteValue.default, Resource.default, HMap.empty, HMap.get] at h

theorem stars_panic {path : Str} {p : Panic} (h : checkStars path = some p) : StarPanic path p := by
  by_cases hs : StarsOK (segments path)
  · rw [checkStars_ok hs] at h; simp at h
  · obtain ⟨p', h1, h2⟩ := checkStars_err hs
    rw [h1] at h; simp at h; exact h ▸ h2

/-- Everything that registering a route can panic with. -/
theorem route_panics (r : Router M H) (m : Method) (path : Str) (hd : H) (p : Panic)
    (h : (r.insertRoute m path hd).2 = some p) :
    (¬ StarsOK (segments path) ∧ StarPanic path p) ∨
    (StarsOK (segments path) ∧ ((∃ a b, p = .ambiguous a b path) ∨
      ∃ m', p = .duplicated m' (dupPath path))) := by
  simp only [Router.insertRoute, RouteTrie.insertRoute] at h
  by_cases hs : StarsOK (segments path)
  · right
    refine ⟨hs, ?_⟩
    simp only [checkStars_ok hs, segs_eq] at h
    by_cases hss : segments path = []
    · rw [dupPath, if_pos hss]
      simp only [hss, if_true, RouteTrie.insertDefaultRoute] at h
      exact Or.inr (addRouteNode_panic _ _ _ _ h)
    · rw [dupPath, if_neg hss]
      simp only [hss, if_false] at h
      exact loop_panic (P := fun p => (∃ a b, p = .ambiguous a b path) ∨
        ∃ m', p = .duplicated m' path) (fun n p hp => Or.inr (addRouteNode_panic _ _ _ _ hp))
        (fun a b => Or.inl ⟨a, b, rfl⟩) _ _ p h
  · obtain ⟨p', h1, h2⟩ := checkStars_err hs
    simp only [h1] at h; simp at h; exact Or.inl ⟨hs, h ▸ h2⟩

/-- Everything that adding a middleware can panic with. -/
theorem middleware_panics (r : Router M H) (path : Str) (m : M) (p : Panic)
    (h : (r.useServiceTo path m).2 = some p) :
    (¬ StarsOK (segments path) ∧ StarPanic path p) ∨
    (StarsOK (segments path) ∧ ∃ a b, p = .ambiguous a b path) := by
  simp only [Router.useServiceTo, RouteTrie.insertMiddleware] at h
  by_cases hs : StarsOK (segments path)
  · right
    refine ⟨hs, ?_⟩
    simp only [checkStars_ok hs, segs_eq] at h
    exact loop_panic (P := fun p => ∃ a b, p = .ambiguous a b path) (by simp)
      (fun a b => ⟨a, b, rfl⟩) _ _ p h
  · obtain ⟨p', h1, h2⟩ := checkStars_err hs
    simp only [h1] at h; simp at h; exact Or.inl ⟨hs, h ▸ h2⟩

/-- Everything that mounting a router can panic with. -/
theorem mount_panics (r sub : Router M H) (path : Str) (p : Panic)
    (h : (r.useRouter path sub).2 = some p) :
    (¬ StarsOK (segments path) ∧ StarPanic path p) ∨
    (StarsOK (segments path) ∧ ((∃ a b, p = .ambiguous a b path) ∨ p = .conflict path)) := by
  simp only [Router.useRouter, RouteTrie.insertSubRoute] at h
  by_cases hs : StarsOK (segments path)
  · right
    refine ⟨hs, ?_⟩
    simp only [checkStars_ok hs, segs_eq] at h
    by_cases hss : segments path = []
    · simp [hss] at h
    · simp only [hss, if_false] at h
      refine loop_panic (P := fun p => (∃ a b, p = .ambiguous a b path) ∨ p = .conflict path) ?_
        (fun a b => Or.inl ⟨a, b, rfl⟩) _ _ p h
      intro n p hp
      simp only [RouteTrie.graft] at hp
      split at hp
      · simp at hp; exact Or.inr hp.symm
      · simp at hp
  · obtain ⟨p', h1, h2⟩ := checkStars_err hs
    simp only [h1] at h; simp at h; exact Or.inl ⟨hs, h ▸ h2⟩

theorem starPanic_documented {path : Str} {p : Panic} (h : StarPanic path p) : Documented path p := by
  rcases h with rfl | rfl
  · exact .starInName
  · exact .starNotLast

/-- **C22** for routes. -/
theorem C22_route (r : Router M H) (m : Method) (path : Str) (hd : H) (p : Panic)
    (h : (r.insertRoute m path hd).2 = some p) : Documented path p := by
  rcases route_panics r m path hd p h with ⟨_, h⟩ | ⟨_, ⟨a, b, rfl⟩ | ⟨m', rfl⟩⟩
  · exact starPanic_documented h
  · exact .ambiguous a b
  · rw [dupPath]; split
    · next h => exact .duplicatedRoot m' h
    · exact .duplicated m'

/-- **C22** for middlewares. -/
theorem C22_middleware (r : Router M H) (path : Str) (m : M) (p : Panic)
    (h : (r.useServiceTo path m).2 = some p) : Documented path p := by
  rcases middleware_panics r path m p h with ⟨_, h⟩ | ⟨_, a, b, rfl⟩
  · exact starPanic_documented h
  · exact .ambiguous a b

/-- **C22** for mounts. -/
theorem C22_mount (r sub : Router M H) (path : Str) (p : Panic)
    (h : (r.useRouter path sub).2 = some p) : Documented path p := by
  rcases mount_panics r sub path p h with ⟨_, h⟩ | ⟨_, ⟨a, b, rfl⟩ | rfl⟩
  · exact starPanic_documented h
  · exact .ambiguous a b
  · exact .conflict

mutual
theorem run_documented : ∀ (c : Reg M H) (r : Router M H) (p : Panic), (c.run r).2 = some p →
    ∃ path ∈ pathsOf c, Documented path p
  | .get q h, r, p, hp => ⟨q, by simp [pathsOf], C22_route r .get q h p hp⟩
  | .post q h, r, p, hp => ⟨q, by simp [pathsOf], C22_route r .post q h p hp⟩
  | .put q h, r, p, hp => ⟨q, by simp [pathsOf], C22_route r .put q h p hp⟩
  | .patch q h, r, p, hp => ⟨q, by simp [pathsOf], C22_route r .patch q h p hp⟩
  | .delete q h, r, p, hp => ⟨q, by simp [pathsOf], C22_route r .delete q h p hp⟩
  | .useService m, r, p, hp => by simp [Reg.run] at hp
  | .useServiceTo q m, r, p, hp => ⟨q, by simp [pathsOf], C22_middleware r q m p hp⟩
  | .useRouter q sub, r, p, hp => by
    simp only [Reg.run] at hp
    cases hs : runRegs sub (Router.new : Router M H) with
    | mk s e =>
      rw [hs] at hp
      cases e with
      | none => exact ⟨q, by simp [pathsOf], C22_mount r s q p hp⟩
      | some e =>
        obtain ⟨x, hx, hd⟩ := runs_documented sub Router.new e (by rw [hs])
        simp at hp; subst hp
        exact ⟨x, by simp [pathsOf, hx], hd⟩
  | .scope q sub, r, p, hp => by
    simp only [Reg.run] at hp
    cases hs : runRegs sub (Router.new : Router M H) with
    | mk s e =>
      rw [hs] at hp
      cases e with
      | none => exact ⟨'/' :: q, by simp [pathsOf], C22_mount r s ('/' :: q) p hp⟩
      | some e =>
        obtain ⟨x, hx, hd⟩ := runs_documented sub Router.new e (by rw [hs])
        simp at hp; subst hp
        exact ⟨x, by simp [pathsOf, hx], hd⟩
theorem runs_documented : ∀ (cs : List (Reg M H)) (r : Router M H) (p : Panic),
    (runRegs cs r).2 = some p → ∃ path ∈ pathsOfAll cs, Documented path p
  | [], r, p, hp => by simp [runRegs] at hp
  | c :: cs, r, p, hp => by
    simp only [runRegs] at hp
    cases hs : c.run r with
    | mk r' e =>
      rw [hs] at hp
      cases e with
      | none =>
        obtain ⟨x, hx, hd⟩ := runs_documented cs r' p hp
        exact ⟨x, by simp [pathsOfAll, hx], hd⟩
      | some e =>
        obtain ⟨x, hx, hd⟩ := run_documented c r e (by rw [hs])
        simp at hp; subst hp
        exact ⟨x, by simp [pathsOfAll, hx], hd⟩
end

/-- **C22** for whole programs: any panic is one of the documented ones, and names one of the
program's paths. -/
theorem C22_programs (prog : List (Reg M H)) (p : Panic) (h : (build prog).2 = some p) :
    ∃ path ∈ pathsOfAll prog, Documented path p := runs_documented prog Router.new p h

example : (build ([.get (s "/a/:é") 1, .get (s "/aß") 2] : Prog)).2 =
    some (.ambiguous (s "ß") (s ":é") (s "/aß")) := by decide +kernel

end Obsidian.Props
