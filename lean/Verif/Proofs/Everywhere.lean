import Verif.Proofs.WayProg

/-
Nothing is in the tree that was not registered, for paths in any syntax.
-/
namespace Obsidian
namespace Node
open Spec
variable {M H : Type}

/-- The property holds for the value of the node and for the values of all nodes below it. -/
inductive AllV (P : Option (RouteValue M H) → Prop) : Node M H → Prop where
  | mk {k : Str} {v : Option (RouteValue M H)} {cs : List (Node M H)} : P v → (∀ c ∈ cs, AllV P c) → AllV P (mk k v cs)

theorem AllV.value {P : Option (RouteValue M H) → Prop} {n : Node M H} (h : AllV P n) : P n.value := by
  cases h; assumption

theorem AllV.children {P : Option (RouteValue M H) → Prop} {n : Node M H} (h : AllV P n) : ∀ c ∈ n.children, AllV P c := by
  cases h; assumption

theorem AllV.of {P : Option (RouteValue M H) → Prop} {n : Node M H} (h1 : P n.value) (h2 : ∀ c ∈ n.children, AllV P c) :
    AllV P n := by cases n; exact .mk h1 h2

theorem AllV.mono {P Q : Option (RouteValue M H) → Prop} (h : ∀ v, P v → Q v) {n : Node M H} (hn : AllV P n) : AllV Q n := by
  induction hn with
  | mk h1 _ ih => exact .mk (h _ h1) ih

/-! ### Insertions -/

/-- What is done with a node keeps the property. -/
def Neat (P : Option (RouteValue M H) → Prop) (f : Node M H → Out (Node M H)) : Prop :=
  ∀ n : Node M H, AllV P n → AllV P (f n).1

theorem neat_modifyChild {P : Option (RouteValue M H) → Prop} {f : Node M H → Out (Node M H)} (hf : Neat P f) :
    ∀ (cs : List (Node M H)) (i : Nat), (∀ c ∈ cs, AllV P c) → ∀ c ∈ (modifyChild f cs i).1, AllV P c
  | [], _, h => by simpa [modifyChild] using h
  | c :: cs, 0, h => by
    intro d hd
    rw [modifyChild] at hd
    rcases List.mem_cons.1 hd with rfl | hd
    · exact hf c (h c (by simp))
    · exact h d (by simp [hd])
  | c :: cs, i + 1, h => by
    intro d hd
    rw [modifyChild] at hd
    rcases List.mem_cons.1 hd with rfl | hd
    · exact h d (by simp)
    · exact neat_modifyChild hf cs i (fun x hx => h x (by simp [hx])) d hd

theorem neat_splitNode {P : Option (RouteValue M H) → Prop} (h0 : P none) {f : Node M H → Out (Node M H)} (hf : Neat P f)
    (count : Nat) (key : Str) : Neat P (splitNode count key f) := by
  intro n hn
  rw [splitNode]
  split
  · have hi : ∀ k, AllV P (mk k n.value n.children) := fun k => .mk hn.value hn.children
    split
    · exact hf _ (.mk h0 (by intro c hc; rw [List.mem_singleton.1 hc]; exact hi _))
    · refine .mk h0 (fun c hc => ?_)
      rcases List.mem_cons.1 hc with rfl | hc
      · exact hf _ (.mk h0 (by simp))
      · rw [List.mem_singleton.1 hc]; exact hi _
  · exact hn

mutual
theorem neat_insert {P : Option (RouteValue M H) → Prop} (h0 : P none) (path : Str) {f : Node M H → Out (Node M H)} (hf : Neat P f) :
    ∀ (n : Node M H) (key : Str), (∀ c ∈ n.children, AllV P c) →
      ∀ c ∈ (processInsertion path n key f).1.children, AllV P c
  | mk k v cs, key, h => by
    rw [processInsertion]
    split
    · split
      · intro c hc
        rcases List.mem_append.1 hc with hc | hc
        · exact h c hc
        · rw [List.mem_singleton.1 hc]; exact hf _ (.mk h0 (by simp))
      · intro c hc
        rcases List.mem_cons.1 hc with rfl | hc
        · exact hf _ (.mk h0 (by simp))
        · exact h c hc
    · exact neat_modifyChild hf cs _ h
    · split
      · exact neat_insertAt h0 path hf cs _ _ h
      · exact h
    · exact neat_modifyChild (neat_splitNode h0 hf _ _) cs _ h
    · split <;> exact h
theorem neat_insertAt {P : Option (RouteValue M H) → Prop} (h0 : P none) (path : Str) {f : Node M H → Out (Node M H)} (hf : Neat P f) :
    ∀ (cs : List (Node M H)) (i : Nat) (key : Str), (∀ c ∈ cs, AllV P c) →
      ∀ c ∈ (processInsertionAt path cs i key f).1, AllV P c
  | [], _, _, h => by simpa [processInsertionAt] using h
  | c :: cs, 0, key, h => by
    intro d hd
    rw [processInsertionAt] at hd
    rcases List.mem_cons.1 hd with rfl | hd
    · refine .of ?_ (neat_insert h0 path hf c key (h c (by simp)).children)
      rw [processInsertion_value]; exact (h c (by simp)).value
    · exact h d (by simp [hd])
  | c :: cs, i + 1, key, h => by
    intro d hd
    rw [processInsertionAt] at hd
    rcases List.mem_cons.1 hd with rfl | hd
    · exact h d (by simp)
    · exact neat_insertAt h0 path hf cs i key (fun x hx => h x (by simp [hx])) d hd
theorem processInsertion_value (path : Str) (f : Node M H → Out (Node M H)) :
    ∀ (n : Node M H) (key : Str), (processInsertion path n key f).1.value = n.value
  | mk k v cs, key => by
    rw [processInsertion]
    split
    · split <;> rfl
    · rfl
    · split <;> rfl
    · rfl
    · split <;> rfl
end

theorem neat_descend {P : Option (RouteValue M H) → Prop} (h0 : P none) (path : Str) {f : Node M H → Out (Node M H)} (hf : Neat P f)
    (ss : List Str) : Neat P (descend path f ss) := by
  induction ss with
  | nil => exact hf
  | cons k ks ih =>
    intro n hn
    refine .of ?_ (neat_insert h0 path ih n k hn.children)
    rw [show descend path f (k :: ks) n = processInsertion path n k (descend path f ks) from rfl, processInsertion_value]
    exact hn.value

theorem descend_children {P : Option (RouteValue M H) → Prop} (h0 : P none) (path : Str) {f : Node M H → Out (Node M H)} (hf : Neat P f)
    {ss : List Str} (hs : ss ≠ []) {n : Node M H} (hn : ∀ c ∈ n.children, AllV P c) :
    (descend path f ss n).1.value = n.value ∧ ∀ c ∈ (descend path f ss n).1.children, AllV P c := by
  cases ss with
  | nil => exact absurd rfl hs
  | cons k ks => exact ⟨processInsertion_value _ _ _ _, neat_insert h0 path (neat_descend h0 path hf ks) n k hn⟩

/-! ### Searches -/

theorem starChild_mem {cs : List (Node M H)} {c : Node M H} (h : starChild cs = some c) : c ∈ cs := by
  induction cs with
  | nil => simp [starChild] at h
  | cons d cs ih =>
    rw [starChild] at h
    split at h
    · injection h with h; simp [h]
    · exact List.mem_cons_of_mem _ (ih h)

/-- What a search finds is in the tree, and it only adds middlewares of the tree, at the end. -/
def Fair (P : Option (RouteValue M H) → Prop) (Q : M → Prop) (mws : List M) : Search M H → Prop
  | .panic _ => True
  | .notFound _ _ ms => ms = mws
  | .found t _ ms => P t.value ∧ ∃ w, ms = mws ++ w ∧ ∀ x ∈ w, Q x

theorem fair_under {P : Option (RouteValue M H) → Prop} {Q : M → Prop} {mws : List M} {t : Node M H} {ps : HMap Str Str} {ms l : List M}
    (h : Fair P Q mws (.found t ps ms)) (hl : ∀ x ∈ l, Q x) (ps' : HMap Str Str) : Fair P Q mws (.found t ps' (ms ++ l)) := by
  obtain ⟨h1, w, h2, h3⟩ := h
  refine ⟨h1, w ++ l, by rw [h2, List.append_assoc], fun x hx => ?_⟩
  rcases List.mem_append.1 hx with hx | hx
  · exact h3 x hx
  · exact hl x hx

theorem mws_sat {P : Option (RouteValue M H) → Prop} {Q : M → Prop} (hPQ : ∀ v, P (some v) → ∀ x ∈ v.middlewares, Q x)
    {n : Node M H} (h : P n.value) : ∀ x ∈ n.mws, Q x := by
  intro x hx
  rw [mws] at hx
  split at hx
  · next v e => rw [e] at h; exact hPQ v h x hx
  · simp at hx

mutual
theorem fair_node {P : Option (RouteValue M H) → Prop} {Q : M → Prop} (hPQ : ∀ v, P (some v) → ∀ x ∈ v.middlewares, Q x) :
    ∀ (n : Node M H) (key : List Str) (ps : HMap Str Str) (mws : List M) (brk : Bool), (∀ c ∈ n.children, AllV P c) →
      Fair P Q mws (n.getNextNode key ps mws brk)
  | mk k v cs, [], ps, mws, brk, _ => by rw [getNextNode]; trivial
  | mk k v cs, curr :: key, ps, mws, brk, h => by
    rw [getNextNode]; exact fair_loop hPQ cs curr key ps mws brk h
theorem fair_loop {P : Option (RouteValue M H) → Prop} {Q : M → Prop} (hPQ : ∀ v, P (some v) → ∀ x ∈ v.middlewares, Q x) :
    ∀ (cs : List (Node M H)) (curr : Str) (key : List Str) (ps : HMap Str Str) (mws : List M) (brk : Bool), (∀ c ∈ cs, AllV P c) →
      Fair P Q mws (getNextLoop cs curr key ps mws brk)
  | [], curr, key, ps, mws, brk, _ => by rw [getNextLoop]; rfl
  | node :: rest, curr, key, ps, mws, brk, h => by
    have hn := h node (by simp)
    have hr : ∀ c ∈ rest, AllV P c := fun c hc => h c (by simp [hc])
    have hm : ∀ x ∈ node.mws, Q x := mws_sat hPQ hn.value
    have hv : ∀ v, node.value = some v → ∀ ps', Fair P Q mws (.found node ps' (mws ++ v.middlewares)) := by
      intro v e ps'
      refine ⟨hn.value, _, rfl, ?_⟩
      rw [← mws_some e]; exact hm
    rw [getNextLoop]
    split
    · split
      · trivial
      · split
        · split
          · next v e => exact hv v e _
          · exact fair_loop hPQ rest curr key ps mws brk hr
        · have i := fair_node hPQ node key ps mws false hn.children
          split
          · trivial
          · next e => rw [e] at i; exact fair_under i hm _
          · next e =>
            rw [e] at i
            have i : _ = mws := i
            rw [i]; exact fair_loop hPQ rest curr _ _ mws brk hr
    · split
      · exact ⟨hn.value, _, rfl, hm⟩
      · simp only
        split
        · split
          · trivial
          · split
            · have i := fair_node hPQ node (by assumption :: key) ps mws true hn.children
              split
              · trivial
              · next e => rw [e] at i; exact fair_under i hm _
              · next e =>
                rw [e] at i
                have i : _ = mws := i
                rw [i]; exact fair_loop hPQ rest curr _ _ mws brk hr
            · exact fair_loop hPQ rest curr _ ps mws brk hr
        · split
          · split
            · split
              · next v e => exact hv v e _
              · split
                · next c e =>
                  have hc := hn.children c (starChild_mem e)
                  exact ⟨hc.value, _, rfl, mws_sat hPQ hc.value⟩
                · exact fair_loop hPQ rest curr key ps mws brk hr
            · have i := fair_node hPQ node key ps mws false hn.children
              split
              · trivial
              · next e => rw [e] at i; exact fair_under i hm _
              · next e =>
                rw [e] at i
                have i : _ = mws := i
                rw [i]; exact fair_loop hPQ rest curr _ _ mws brk hr
          · exact fair_loop hPQ rest curr key ps mws brk hr
end

/-! ### Programs -/

/-- What is stored was registered. -/
def From (L : Log M H) (v : Option (RouteValue M H)) : Prop :=
  ∀ rv, v = some rv → (∀ m r, rv.route.getRoute m = some r → ∃ e ∈ L, e.what = .route m r.handler) ∧
    ∀ x ∈ rv.middlewares, ∃ e ∈ L, e.what = .middleware x

theorem from_none (L : Log M H) : From L none := fun _ h => by simp at h

theorem From.mono {L L' : Log M H} (h : ∀ e ∈ L, e ∈ L') {v : Option (RouteValue M H)} (hv : From L v) : From L' v := by
  intro rv e
  obtain ⟨h1, h2⟩ := hv rv e
  refine ⟨fun m r hr => ?_, fun x hx => ?_⟩
  · obtain ⟨e, he, hw⟩ := h1 m r hr; exact ⟨e, h e he, hw⟩
  · obtain ⟨e, he, hw⟩ := h2 x hx; exact ⟨e, h e he, hw⟩

/-- The entries for paths other than the root. -/
def deep (L : Log M H) : Log M H := L.filter (fun e => e.segs ≠ [])

theorem mem_deep {L : Log M H} {e : Entry M H} : e ∈ deep L ↔ e ∈ L ∧ e.segs ≠ [] := by simp [deep]

/-- Everything in the tree is in the log; below the root there are only entries for other paths. -/
structure Only (n : Node M H) (L : Log M H) : Prop where
  root : From L n.value
  below : ∀ c ∈ n.children, AllV (From (deep L)) c

theorem Only.mono {n : Node M H} {L L' : Log M H} (h : Only n L) (hl : ∀ e ∈ L, e ∈ L') : Only n L' :=
  ⟨h.root.mono hl, fun c hc => (h.below c hc).mono (fun _ hv => hv.mono (fun e he =>
    mem_deep.2 ⟨hl e (mem_deep.1 he).1, (mem_deep.1 he).2⟩))⟩

/-- One more entry, put in place with `f`. -/
theorem Only.add {n : Node M H} {L : Log M H} (h : Only n L) (path : Str) {f : Node M H → Out (Node M H)} {e : Entry M H}
    (hf : ∀ (X : Log M H), e ∈ X → ∀ t : Node M H, From X t.value → From X (f t).1.value ∧ (f t).1.children = t.children) :
    Only (descend path f e.segs n).1 (L ++ [e]) := by
  have h' := h.mono (L' := L ++ [e]) (by simp +contextual)
  by_cases h0 : e.segs = []
  · rw [h0]
    have := hf (L ++ [e]) (by simp) n h'.root
    exact ⟨this.1, by rw [show (descend path f [] n).1.children = n.children from this.2]; exact h'.below⟩
  · have hfn : Neat (From (deep (L ++ [e]))) f := by
      intro t ht
      have := hf (deep (L ++ [e])) (mem_deep.2 ⟨by simp, h0⟩) t ht.value
      exact .of this.1 (by rw [this.2]; exact ht.children)
    obtain ⟨h1, h2⟩ := descend_children (from_none _) path hfn h0 h'.below
    exact ⟨by rw [h1]; exact h'.root, h2⟩

theorem from_route {X : Log M H} {ss : List Str} {m : Method} {hd : H} (he : ⟨ss, .route m hd⟩ ∈ X) (path : Str) {t : Node M H}
    (ht : From X t.value) : From X (RouteTrie.addRouteNode path ⟨m, hd⟩ t).1.value := by
  have key : ∀ (res : Resource H), (∀ m' r, res.getRoute m' = some r → ∃ e ∈ X, e.what = .route m' r.handler) →
      ∀ m' r, (res.addRoute m ⟨m, hd⟩).1.getRoute m' = some r → ∃ e ∈ X, e.what = .route m' r.handler := by
    intro res h m' r hr
    rw [getRoute_add] at hr
    split at hr
    · next e => injection hr with hr; subst e hr; exact ⟨_, he, rfl⟩
    · exact h m' r hr
  unfold RouteTrie.addRouteNode
  cases hv : t.value with
  | some v =>
    rw [hv] at ht
    obtain ⟨h1, h2⟩ := ht v rfl
    have : From X (some { v with route := (v.route.addRoute m ⟨m, hd⟩).1 }) := by
      intro rv e; injection e with e; subst e
      exact ⟨key _ h1, h2⟩
    simp only
    split
    · next res _ e => simp only [(setValue_facts _ _).2.2]; rw [show res = (v.route.addRoute m ⟨m, hd⟩).1 from by rw [e]]; exact this
    · next res e => simp only [(setValue_facts _ _).2.2]; rw [show res = (v.route.addRoute m ⟨m, hd⟩).1 from by rw [e]]; exact this
  | none =>
    have hd : From X (some (⟨[], ((RouteValue.default : RouteValue M H).route.addRoute m ⟨m, hd⟩).1⟩ : RouteValue M H)) := by
      intro rv e; injection e with e; subst e
      refine ⟨key _ ?_, by simp⟩
      intro m' r hr
      simp [RouteValue.default, Resource.default, Resource.getRoute, HMap.empty, HMap.get] at hr
    simp only
    split
    · next e => exact fun rv e' => absurd (hv ▸ e') (by simp)
    · next res e =>
      simp only [(setValue_facts _ _).2.2]
      rw [show res = ((RouteValue.default : RouteValue M H).route.addRoute m ⟨m, _⟩).1 from by rw [e]]; exact hd

theorem from_mw {X : Log M H} {ss : List Str} {x : M} (he : ⟨ss, .middleware x⟩ ∈ X) {t : Node M H}
    (ht : From X t.value) : From X (RouteTrie.pushMiddleware x t).value := by
  unfold RouteTrie.pushMiddleware
  cases hv : t.value with
  | some v =>
    rw [hv] at ht
    obtain ⟨h1, h2⟩ := ht v rfl
    simp only [(setValue_facts _ _).2.2]
    intro rv e; injection e with e; subst e
    refine ⟨h1, fun y hy => ?_⟩
    rcases List.mem_append.1 hy with hy | hy
    · exact h2 y hy
    · rw [List.mem_singleton.1 hy]; exact ⟨_, he, rfl⟩
  | none =>
    simp only [(setValue_facts _ _).2.2]
    intro rv e; injection e with e; subst e
    refine ⟨fun m' r hr => ?_, fun y hy => ?_⟩
    · simp [Resource.default, Resource.getRoute, HMap.empty, HMap.get] at hr
    · rw [List.mem_singleton.1 hy]; exact ⟨_, he, rfl⟩

theorem Only.route {r : Router M H} {L : Log M H} (h : Only r.routes.head L) (m : Method) (path : Str) (hd : H) :
    Only (r.insertRoute m path hd).1.routes.head (L ++ [⟨segments path, .route m hd⟩]) := by
  simp only [Router.insertRoute, RouteTrie.insertRoute, RouteTrie.insertDefaultRoute, segs_eq]
  cases hcs : checkStars path with
  | some p => exact h.mono (by simp +contextual)
  | none =>
    simp only
    have key := fun q => h.add q (f := RouteTrie.addRouteNode q ⟨m, hd⟩) (e := ⟨segments path, .route m hd⟩)
      (fun X hX t ht => ⟨from_route hX q ht, (addRouteNode_facts q ⟨m, hd⟩ t).2⟩)
    by_cases h0 : segments path = []
    · simp only [if_pos h0]
      have := key ['/']
      simp only [h0] at this ⊢
      exact this
    · simp only [if_neg h0, insertLoop_eq _ _ h0]
      exact key path

theorem Only.mw {r : Router M H} {L : Log M H} (h : Only r.routes.head L) (path : Str) (m : M) :
    Only (r.useServiceTo path m).1.routes.head
      (if segments path = [] then L else L ++ [⟨segments path, .middleware m⟩]) := by
  simp only [Router.useServiceTo, RouteTrie.insertMiddleware, segs_eq]
  cases hcs : checkStars path with
  | some p =>
    simp only
    split
    · exact h
    · exact h.mono (by simp +contextual)
  | none =>
    simp only
    by_cases h0 : segments path = []
    · rw [if_pos h0, h0]; exact h
    · simp only [if_neg h0, insertLoop_eq _ _ h0]
      exact h.add path (e := ⟨segments path, .middleware m⟩)
        (fun X hX t ht => ⟨from_mw hX ht, (pushMiddleware_facts m t).2⟩)

theorem Only.global {r : Router M H} {L : Log M H} (h : Only r.routes.head L) (m : M) :
    Only (r.useService m).routes.head (L ++ [⟨[], .middleware m⟩]) :=
  h.add [] (f := fun n => (RouteTrie.pushMiddleware m n, none)) (e := ⟨[], .middleware m⟩)
    (fun _ hX t ht => ⟨from_mw hX ht, (pushMiddleware_facts m t).2⟩)

theorem Only.mount {r s : Router M H} {L S : Log M H} (h : Only r.routes.head L) (h' : Only s.routes.head S)
    {path : Str} (hok : (r.useRouter path s).2 = none) :
    Only (r.useRouter path s).1.routes.head (mountLog (segments path) L S) := by
  simp only [Router.useRouter, RouteTrie.insertSubRoute, segs_eq] at hok ⊢
  cases hcs : checkStars path with
  | some p => simp [hcs] at hok
  | none =>
    simp only [hcs] at hok ⊢
    rw [mountLog]
    by_cases h0 : segments path = []
    · simp only [if_pos h0]; exact h'
    · simp only [if_neg h0, insertLoop_eq _ _ h0] at hok ⊢
      generalize hX : L ++ ⟨segments path, .nothing⟩ :: S.map (Entry.under (segments path)) = X
      have hsub : ∀ e ∈ S, ∃ e' ∈ deep X, e'.what = e.what := by
        intro e he
        refine ⟨e.under (segments path), mem_deep.2 ⟨?_, by simp [Entry.under, h0]⟩, rfl⟩
        rw [← hX]
        exact List.mem_append_right _ (List.mem_cons_of_mem _ (List.mem_map.2 ⟨e, he, rfl⟩))
      have hfrom : ∀ v, From S v → From (deep X) v := by
        intro v hv rv e
        obtain ⟨h1, h2⟩ := hv rv e
        refine ⟨fun m r hr => ?_, fun x hx => ?_⟩
        · obtain ⟨e, he, hw⟩ := h1 m r hr
          obtain ⟨e', he', hw'⟩ := hsub e he
          exact ⟨e', he', by rw [hw', hw]⟩
        · obtain ⟨e, he, hw⟩ := h2 x hx
          obtain ⟨e', he', hw'⟩ := hsub e he
          exact ⟨e', he', by rw [hw', hw]⟩
      have hf : Neat (From (deep X)) (RouteTrie.graft path s.routes) := by
        intro n hn
        unfold RouteTrie.graft
        split
        · exact hn
        · refine .mk (hfrom _ h'.root) (fun c hc => ?_)
          exact (h'.below c hc).mono (fun v hv => hfrom v (hv.mono (fun e he => (mem_deep.1 he).1)))
      have hm : Only r.routes.head X := h.mono (by rw [← hX]; simp +contextual)
      obtain ⟨h1, h2⟩ := descend_children (from_none _) path hf h0 hm.below
      exact ⟨by rw [h1]; exact hm.root, h2⟩

theorem Only.new : Only (Router.new : Router M H).routes.head [] :=
  ⟨from_none _, by simp [Router.new, RouteTrie.new, Node.new]⟩

mutual
theorem only_call : ∀ (c : Reg M H) (r : Router M H) (L : Log M H), Only r.routes.head L →
    (c.run r).2 = none → Only (c.run r).1.routes.head (logReg c L)
  | .get p h, r, L, ht, _ => by rw [logReg]; exact ht.route _ _ _
  | .post p h, r, L, ht, _ => by rw [logReg]; exact ht.route _ _ _
  | .put p h, r, L, ht, _ => by rw [logReg]; exact ht.route _ _ _
  | .patch p h, r, L, ht, _ => by rw [logReg]; exact ht.route _ _ _
  | .delete p h, r, L, ht, _ => by rw [logReg]; exact ht.route _ _ _
  | .useService m, r, L, ht, _ => by rw [logReg]; exact ht.global m
  | .useServiceTo p m, r, L, ht, _ => by rw [logReg]; exact ht.mw _ _
  | .useRouter p sub, r, L, ht, hok => by
    have i := only_calls sub Router.new [] Only.new
    rw [Reg.run] at hok ⊢
    rw [logReg]
    cases hb : runRegs sub Router.new with
    | mk s e =>
      rw [hb] at i hok
      cases e with
      | none => exact ht.mount (i rfl) hok
      | some e => simp at hok
  | .scope p sub, r, L, ht, hok => by
    have i := only_calls sub Router.new [] Only.new
    rw [Reg.run] at hok ⊢
    rw [logReg]
    cases hb : runRegs sub Router.new with
    | mk s e =>
      rw [hb] at i hok
      cases e with
      | none =>
        have := ht.mount (i rfl) hok
        rw [segments_slash_cons] at this
        exact this
      | some e => simp at hok
theorem only_calls : ∀ (cs : List (Reg M H)) (r : Router M H) (L : Log M H), Only r.routes.head L →
    (runRegs cs r).2 = none → Only (runRegs cs r).1.routes.head (logRegs cs L)
  | [], r, L, ht, _ => by rw [runRegs, logRegs]; exact ht
  | c :: cs, r, L, ht, hok => by
    have i := only_call c r L ht
    rw [runRegs] at hok ⊢
    rw [logRegs]
    cases hb : c.run r with
    | mk r' e =>
      rw [hb] at i hok
      cases e with
      | none => exact only_calls cs r' (logReg c L) (i rfl) hok
      | some e => simp at hok
end

theorem build_only {prog : List (Reg M H)} {r : Router M H} (hb : build prog = (r, none)) :
    Only r.routes.head (logOf prog) := by
  have := only_calls prog Router.new [] Only.new
  rw [show runRegs prog Router.new = (r, none) from hb] at this
  exact this rfl

/-- What a lookup returns was registered; the chain starts with the middlewares of the root. -/
theorem Only.search {r : Router M H} {L : Log M H} (h : Only r.routes.head L) {path : Str} {v : RouteValueResult M H}
    (hs : r.searchRoute path = .ok (some v)) :
    (∀ m x, v.getRoute m = some x → ∃ e ∈ L, e.what = .route m x.handler) ∧
    ∃ w, v.getMiddlewares = r.routes.head.mws ++ w ∧ ∀ x ∈ w, ∃ e ∈ L, e.what = .middleware x ∧ e.segs ≠ [] := by
  rw [Router.searchRoute, RouteTrie.searchRoute] at hs
  split at hs
  · injection hs with hs
    rw [RouteTrie.finish] at hs
    split at hs
    · next rv e =>
      injection hs with hs; subst hs
      exact ⟨(h.root rv e).1, [], by simp [RouteValueResult.getMiddlewares], by simp⟩
    · simp at hs
  · have hf := fair_node (P := From (deep L)) (Q := fun x => ∃ e ∈ L, e.what = .middleware x ∧ e.segs ≠ [])
      (fun v hv x hx => by
        obtain ⟨e, he, hw⟩ := (hv v rfl).2 x hx
        exact ⟨e, (mem_deep.1 he).1, hw, (mem_deep.1 he).2⟩) r.routes.head (segs path) HMap.empty r.routes.head.mws false h.below
    split at hs
    · simp at hs
    · simp at hs
    · next n ps ms e =>
      rw [e] at hf
      injection hs with hs
      rw [RouteTrie.finish] at hs
      split at hs
      · next rv e' =>
        injection hs with hs; subst hs
        obtain ⟨h1, w, h2, h3⟩ := hf
        refine ⟨fun m x hx => ?_, w, h2, h3⟩
        obtain ⟨e, he, hw⟩ := (h1 rv e').1 m x hx
        exact ⟨e, (mem_deep.1 he).1, hw⟩
      · simp at hs

end Node
end Obsidian
