import Verif.Proofs.Everywhere

/-
What a global middleware, added before everything else, does to the tables of any program: nothing
but appear at the front of every chain.  For paths of any form.
-/
namespace Obsidian
open Spec
variable {M H : Type}

/-- More middlewares at the front of the result. -/
def Search.pre (p : List M) : Search M H → Search M H
  | .panic e => .panic e
  | .notFound k ps ms => .notFound k ps (p ++ ms)
  | .found n ps ms => .found n ps (p ++ ms)

namespace Node

mutual
theorem pre_node (p : List M) : ∀ (n : Node M H) (key : List Str) (ps : HMap Str Str) (mws : List M) (brk : Bool),
    n.getNextNode key ps (p ++ mws) brk = (n.getNextNode key ps mws brk).pre p
  | mk k v cs, [], ps, mws, brk => by rw [getNextNode, getNextNode]; rfl
  | mk k v cs, curr :: key, ps, mws, brk => by
    rw [getNextNode, getNextNode]; exact pre_loop p cs curr key ps mws brk
theorem pre_loop (p : List M) : ∀ (cs : List (Node M H)) (curr : Str) (key : List Str) (ps : HMap Str Str) (mws : List M) (brk : Bool),
    getNextLoop cs curr key ps (p ++ mws) brk = (getNextLoop cs curr key ps mws brk).pre p
  | [], curr, key, ps, mws, brk => by rw [getNextLoop, getNextLoop]; rfl
  | node :: rest, curr, key, ps, mws, brk => by
    have hr := fun curr key ps mws => pre_loop p rest curr key ps mws brk
    have hn := fun key ps mws brk => pre_node p node key ps mws brk
    rw [getNextLoop, getNextLoop]
    split
    · split
      · rfl
      · split
        · split
          · simp [Search.pre]
          · exact hr _ _ _ _
        · rw [hn]
          cases node.getNextNode key ps mws false with
          | panic e => rfl
          | found n ps ms => simp [Search.pre]
          | notFound k ps ms => exact hr _ _ _ _
    · split
      · simp [Search.pre]
      · simp only
        split
        · split
          · rfl
          · split
            · rw [hn]
              next curr' _ _ =>
              cases node.getNextNode (curr' :: key) ps mws true with
              | panic e => rfl
              | found n ps ms => simp [Search.pre]
              | notFound k ps ms => exact hr _ _ _ _
            · exact hr _ _ _ _
        · split
          · split
            · split
              · simp [Search.pre]
              · split
                · simp [Search.pre]
                · exact hr _ _ _ _
            · rw [hn]
              cases node.getNextNode key ps mws false with
              | panic e => rfl
              | found n ps ms => simp [Search.pre]
              | notFound k ps ms => exact hr _ _ _ _
          · exact hr _ _ _ _
end

/-- `n'` is `n` with one more middleware, the first one of the root. -/
structure Ahead (m : M) (n n' : Node M H) : Prop where
  children : n'.children = n.children
  ifNone : n.value = none → n'.value = some ⟨[m], Resource.default⟩
  ifSome : ∀ v, n.value = some v → n'.value = some { v with middlewares := m :: v.middlewares }

theorem ahead_push {m x : M} {n n' : Node M H} (h : Ahead m n n') :
    Ahead m (RouteTrie.pushMiddleware x n) (RouteTrie.pushMiddleware x n') := by
  obtain ⟨k, v, cs⟩ := n
  obtain ⟨k', v', cs'⟩ := n'
  obtain ⟨h1, h2, h3⟩ := h
  cases v with
  | none => have := h2 rfl; simp only [value] at this; subst this; exact ⟨h1, by simp [RouteTrie.pushMiddleware, value, setValue], by simp [RouteTrie.pushMiddleware, value, setValue]⟩
  | some v => have := h3 v rfl; simp only [value] at this; subst this; exact ⟨h1, by simp [RouteTrie.pushMiddleware, value, setValue], by simp [RouteTrie.pushMiddleware, value, setValue]⟩

theorem ahead_route {m : M} {n n' : Node M H} (h : Ahead m n n') (path : Str) (r : Route H)
    (hok : (RouteTrie.addRouteNode path r n).2 = none) :
    Ahead m (RouteTrie.addRouteNode path r n).1 (RouteTrie.addRouteNode path r n').1 := by
  obtain ⟨k, v, cs⟩ := n
  obtain ⟨k', v', cs'⟩ := n'
  obtain ⟨h1, h2, h3⟩ := h
  cases v with
  | none =>
    have := h2 rfl; simp only [value] at this; subst this
    simp only [RouteTrie.addRouteNode, value, RouteValue.default] at hok ⊢
    generalize (Resource.default : Resource H).addRoute r.method r = x at hok ⊢
    obtain ⟨res, e⟩ := x
    cases e with
    | none => exact ⟨h1, by simp [value, setValue], by simp [value, setValue]⟩
    | some e => simp at hok
  | some v =>
    have := h3 v rfl; simp only [value] at this; subst this
    simp only [RouteTrie.addRouteNode, value] at hok ⊢
    generalize v.route.addRoute r.method r = x at hok ⊢
    obtain ⟨res, e⟩ := x
    cases e with
    | none => exact ⟨h1, by simp [value, setValue], by simp [value, setValue]⟩
    | some e => simp at hok

theorem insert_sameChildren (path : Str) (k : Str) (f : Node M H → Out (Node M H)) {n n' : Node M H} (h : n'.children = n.children) :
    (processInsertion path n' k f).1.children = (processInsertion path n k f).1.children := by
  obtain ⟨a, v, cs⟩ := n
  obtain ⟨a', v', cs'⟩ := n'
  have h : cs' = cs := h
  subst h
  rw [processInsertion, processInsertion]
  cases insertionAction cs' k with
  | createNewNode => simp only; split <;> rfl
  | nextNode i => rfl
  | splitNode c i => rfl
  | splitKey c i => simp only; cases sliceFrom k c <;> rfl
  | error i => simp only; cases cs'[i]? <;> rfl

theorem ahead_descend {m : M} {n n' : Node M H} (h : Ahead m n n') (path : Str) (f : Node M H → Out (Node M H)) {ss : List Str}
    (hs : ss ≠ []) : Ahead m (descend path f ss n).1 (descend path f ss n').1 := by
  cases ss with
  | nil => exact absurd rfl hs
  | cons k ks =>
    have hv := fun x : Node M H => processInsertion_value path (descend path f ks) x k
    refine ⟨insert_sameChildren path k _ h.children, ?_, ?_⟩
    · intro e; rw [descend, hv] at e; rw [descend, hv]; exact h.ifNone e
    · intro v e; rw [descend, hv] at e; rw [descend, hv]; exact h.ifSome v e

theorem Ahead.insertRoute {m : M} {r r' : Router M H} (h : Ahead m r.routes.head r'.routes.head) (meth : Method) (p : Str) (hd : H)
    (hok : (r.insertRoute meth p hd).2 = none) :
    Ahead m (r.insertRoute meth p hd).1.routes.head (r'.insertRoute meth p hd).1.routes.head := by
  simp only [Router.insertRoute, RouteTrie.insertRoute, RouteTrie.insertDefaultRoute, segs_eq] at hok ⊢
  cases hcs : checkStars p with
  | some e => exact h
  | none =>
    simp only [hcs] at hok
    simp only
    by_cases h0 : segments p = []
    · simp only [if_pos h0] at hok ⊢
      exact ahead_route h _ _ hok
    · simp only [if_neg h0, insertLoop_eq _ _ h0] at hok ⊢
      exact ahead_descend h _ _ h0

theorem Ahead.useServiceTo {m : M} {r r' : Router M H} (h : Ahead m r.routes.head r'.routes.head) (p : Str) (x : M) :
    Ahead m (r.useServiceTo p x).1.routes.head (r'.useServiceTo p x).1.routes.head := by
  simp only [Router.useServiceTo, RouteTrie.insertMiddleware, segs_eq]
  cases hcs : checkStars p with
  | some e => exact h
  | none =>
    simp only
    by_cases h0 : segments p = []
    · rw [h0]; exact h
    · simp only [insertLoop_eq _ _ h0]
      exact ahead_descend h _ _ h0

theorem Ahead.useRouter {m : M} {r r' s : Router M H} (h : Ahead m r.routes.head r'.routes.head) {p : Str} (h0 : segments p ≠ []) :
    Ahead m (r.useRouter p s).1.routes.head (r'.useRouter p s).1.routes.head := by
  simp only [Router.useRouter, RouteTrie.insertSubRoute, segs_eq]
  cases hcs : checkStars p with
  | some e => exact h
  | none =>
    simp only [if_neg h0, insertLoop_eq _ _ h0]
    exact ahead_descend h _ _ h0

theorem Ahead.call {m : M} (c : Reg M H) {r r' : Router M H} (h : Ahead m r.routes.head r'.routes.head)
    (hn : ∀ p sub, c = .useRouter p sub ∨ c = .scope p sub → segments p ≠ [])
    (hok : (c.run r).2 = none) : Ahead m (c.run r).1.routes.head (c.run r').1.routes.head := by
  cases c with
  | get p hd => exact h.insertRoute _ _ _ hok
  | post p hd => exact h.insertRoute _ _ _ hok
  | put p hd => exact h.insertRoute _ _ _ hok
  | patch p hd => exact h.insertRoute _ _ _ hok
  | delete p hd => exact h.insertRoute _ _ _ hok
  | useService x => exact ahead_push h
  | useServiceTo p x => exact h.useServiceTo p x
  | useRouter p sub =>
    rw [Reg.run, Reg.run]
    cases runRegs sub Router.new with
    | mk s e =>
      cases e with
      | none => exact h.useRouter (hn p sub (Or.inl rfl))
      | some e => exact h
  | scope p sub =>
    rw [Reg.run, Reg.run]
    cases runRegs sub Router.new with
    | mk s e =>
      cases e with
      | none => exact h.useRouter (by rw [segments_slash_cons]; exact hn p sub (Or.inr rfl))
      | some e => exact h

theorem Ahead.calls {m : M} {cs : List (Reg M H)} (hn : ∀ c ∈ cs, ∀ p sub, c = .useRouter p sub ∨ c = .scope p sub → segments p ≠ []) {r r' : Router M H} (h : Ahead m r.routes.head r'.routes.head)
    (hok : (runRegs cs r).2 = none) (hok' : (runRegs cs r').2 = none) :
    Ahead m (runRegs cs r).1.routes.head (runRegs cs r').1.routes.head := by
  induction cs generalizing r r' with
  | nil => exact h
  | cons c cs ih =>
    have hc := h.call c (hn c (by simp))
    rw [runRegs] at hok hok'
    rw [runRegs, runRegs]
    cases hb : c.run r with
    | mk s e =>
      cases hb' : c.run r' with
      | mk s' e' =>
        rw [hb] at hok hc; rw [hb'] at hok' hc
        cases e with
        | some e => simp at hok
        | none =>
          cases e' with
          | some e => simp at hok'
          | none => exact ih (fun c hc => hn c (by simp [hc])) (hc rfl) hok hok'

theorem Ahead.mws {m : M} {n n' : Node M H} (h : Ahead m n n') : n'.mws = m :: n.mws := by
  unfold Node.mws
  cases hv : n.value with
  | none => rw [h.ifNone hv]
  | some v => rw [h.ifSome v hv]

/-- Lookups in both tables. -/
theorem Ahead.search {m : M} {r r' : Router M H} (h : Ahead m r.routes.head r'.routes.head) (path : Str) :
    (∀ v, r.searchRoute path = .ok (some v) →
      r'.searchRoute path = .ok (some ⟨⟨m :: v.routeValue.middlewares, v.routeValue.route⟩, v.params⟩)) ∧
    ((∀ v, r.searchRoute path ≠ .ok (some v)) → ∀ v, r'.searchRoute path = .ok (some v) → ∀ meth, v.getRoute meth = none) := by
  simp only [Router.searchRoute, RouteTrie.searchRoute]
  split
  · simp only [RouteTrie.finish]
    cases hv : r.routes.head.value with
    | none =>
      rw [h.ifNone hv]
      refine ⟨by simp, ?_⟩
      intro _ v hv meth
      simp at hv
      subst hv
      rfl
    | some v => rw [h.ifSome v hv]; simp [h.mws]
  · have e : ∀ key ps brk, r'.routes.head.getNextNode key ps r'.routes.head.mws brk =
        (r.routes.head.getNextNode key ps r.routes.head.mws brk).pre [m] := by
      intro key ps brk
      rw [h.mws, ← List.singleton_append, ← pre_node]
      generalize r.routes.head.mws = ms
      have hc := h.children
      generalize r.routes.head = n at hc
      generalize r'.routes.head = n' at hc
      cases n; cases n'
      simp only [Node.children] at hc
      subst hc
      cases key <;> simp [getNextNode]
    rw [e]
    cases r.routes.head.getNextNode (segs path) HMap.empty r.routes.head.mws false with
    | panic p => simp [Search.pre]
    | notFound k ps ms => simp [Search.pre]
    | found n ps ms =>
      simp only [Search.pre, RouteTrie.finish]
      cases n.value <;> simp

end Node
end Obsidian
