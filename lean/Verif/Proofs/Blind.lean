import Verif.Spec.Alike
import Verif.Proofs.WayProg

/-
Routing does not look at handlers and middlewares: related programs build related trees.
-/
namespace Obsidian
open Spec
variable {M H M' H' : Type} {RM : M → M' → Prop} {RH : H → H' → Prop}

theorem Spec.Each.append {α β : Type} {R : α → β → Prop} {a : List α} {b : List β} {c : List α} {d : List β}
    (h : Each R a b) (h' : Each R c d) : Each R (a ++ c) (b ++ d) := by
  induction h with
  | nil => exact h'
  | cons h1 _ ih => exact .cons h1 ih

mutual
theorem Spec.AlikeCall.mono {RM' : M → M' → Prop} {RH' : H → H' → Prop} (hm : ∀ m m', RM m m' → RM' m m')
    (hh : ∀ h h', RH h h' → RH' h h') : ∀ {c : Reg M H} {c' : Reg M' H'}, AlikeCall RM RH c c' → AlikeCall RM' RH' c c'
  | _, _, .get e => .get (hh _ _ e)
  | _, _, .post e => .post (hh _ _ e)
  | _, _, .put e => .put (hh _ _ e)
  | _, _, .patch e => .patch (hh _ _ e)
  | _, _, .delete e => .delete (hh _ _ e)
  | _, _, .useService e => .useService (hm _ _ e)
  | _, _, .useServiceTo e => .useServiceTo (hm _ _ e)
  | _, _, .useRouter e => .useRouter (Spec.Alike.mono hm hh e)
  | _, _, .scope e => .scope (Spec.Alike.mono hm hh e)
theorem Spec.Alike.mono {RM' : M → M' → Prop} {RH' : H → H' → Prop} (hm : ∀ m m', RM m m' → RM' m m')
    (hh : ∀ h h', RH h h' → RH' h h') : ∀ {cs : List (Reg M H)} {cs' : List (Reg M' H')}, Alike RM RH cs cs' → Alike RM' RH' cs cs'
  | _, _, .nil => .nil
  | _, _, .cons h1 h2 => .cons (Spec.AlikeCall.mono hm hh h1) (Spec.Alike.mono hm hh h2)
end

theorem Spec.Watched.mono {RM' : M → M' → Prop} {RH' : H → H' → Prop} {W W' : M' → Prop} (hm : ∀ m m', RM m m' → RM' m m')
    (hh : ∀ h h', RH h h' → RH' h h') (hw : ∀ o, W o → W' o) {cs : List (Reg M H)} {cs' : List (Reg M' H')}
    (h : Watched RM RH W cs cs') : Watched RM' RH' W' cs cs' := by
  induction h with
  | nil => exact .nil
  | same h1 _ ih => exact .same (h1.mono hm hh) ih
  | more h1 _ ih => exact .more (hw _ h1) ih

/-- Related routes. -/
def AlikeRoute (RH : H → H' → Prop) (r : Route H) (r' : Route H') : Prop :=
  r.method = r'.method ∧ RH r.handler r'.handler

/-- Related values. -/
structure AlikeValue (RM : M → M' → Prop) (RH : H → H' → Prop) (v : RouteValue M H) (v' : RouteValue M' H') : Prop where
  mws : Each RM v.middlewares v'.middlewares
  route : ∀ m, Both (AlikeRoute RH) (v.route.getRoute m) (v'.route.getRoute m)

mutual
/-- Related nodes. -/
inductive AlikeNode (RM : M → M' → Prop) (RH : H → H' → Prop) : Node M H → Node M' H' → Prop
  | mk {k v v' cs cs'} : Both (AlikeValue RM RH) v v' → AlikeNodes RM RH cs cs' → AlikeNode RM RH (.mk k v cs) (.mk k v' cs')
/-- Related lists of nodes. -/
inductive AlikeNodes (RM : M → M' → Prop) (RH : H → H' → Prop) : List (Node M H) → List (Node M' H') → Prop
  | nil : AlikeNodes RM RH [] []
  | cons {c c' cs cs'} : AlikeNode RM RH c c' → AlikeNodes RM RH cs cs' → AlikeNodes RM RH (c :: cs) (c' :: cs')
end

/-- Related results of an operation. -/
def AlikeOut {α β : Type} (R : α → β → Prop) (x : Out α) (y : Out β) : Prop := R x.1 y.1 ∧ x.2 = y.2

namespace Node

theorem _root_.Obsidian.AlikeNode.key {n : Node M H} {n' : Node M' H'} (h : AlikeNode RM RH n n') : n'.key = n.key := by
  cases h; rfl

theorem _root_.Obsidian.AlikeNode.value {n : Node M H} {n' : Node M' H'} (h : AlikeNode RM RH n n') :
    Both (AlikeValue RM RH) n.value n'.value := by
  cases h; assumption

theorem _root_.Obsidian.AlikeNode.children {n : Node M H} {n' : Node M' H'} (h : AlikeNode RM RH n n') :
    AlikeNodes RM RH n.children n'.children := by
  cases h; assumption

theorem _root_.Obsidian.AlikeNode.of {n : Node M H} {n' : Node M' H'} (h1 : n'.key = n.key)
    (h2 : Both (AlikeValue RM RH) n.value n'.value) (h3 : AlikeNodes RM RH n.children n'.children) :
    AlikeNode RM RH n n' := by
  obtain ⟨k, v, cs⟩ := n
  obtain ⟨k', v', cs'⟩ := n'
  have h1 : k' = k := h1
  subst h1; exact .mk h2 h3

theorem _root_.Obsidian.AlikeNode.mws {n : Node M H} {n' : Node M' H'} (h : Both (AlikeValue RM RH) n.value n'.value) :
    Each RM n.mws n'.mws := by
  rw [Node.mws, Node.mws]
  generalize n.value = v at h
  generalize n'.value = v' at h
  cases h with
  | none => exact .nil
  | some h => exact h.mws

theorem _root_.Obsidian.AlikeNodes.append {a : List (Node M H)} {a' : List (Node M' H')} {b : List (Node M H)} {b' : List (Node M' H')}
    (h : AlikeNodes RM RH a a') (h' : AlikeNodes RM RH b b') : AlikeNodes RM RH (a ++ b) (a' ++ b') := by
  induction a generalizing a' with
  | nil => cases h; exact h'
  | cons c cs ih => cases h with | cons h1 h2 => exact .cons h1 (ih h2)

theorem _root_.Obsidian.AlikeNodes.get {a : List (Node M H)} {a' : List (Node M' H')} (h : AlikeNodes RM RH a a') (i : Nat) :
    Both (AlikeNode RM RH) a[i]? a'[i]? := by
  induction a generalizing a' i with
  | nil => cases h; simp; exact .none
  | cons c cs ih =>
    cases h with
    | cons h1 h2 =>
      cases i with
      | zero => simpa using .some h1
      | succ i => simpa using ih h2 i

/-- An operation that does not look at handlers and middlewares. -/
def Blind (RM : M → M' → Prop) (RH : H → H' → Prop) (f : Node M H → Out (Node M H)) (f' : Node M' H' → Out (Node M' H')) : Prop :=
  ∀ n n', AlikeNode RM RH n n' → AlikeOut (AlikeNode RM RH) (f n) (f' n')

theorem alike_action (key : Str) {cs : List (Node M H)} {cs' : List (Node M' H')} (h : AlikeNodes RM RH cs cs') (i : Nat) :
    insertionActionFrom key cs i = insertionActionFrom key cs' i := by
  induction cs generalizing cs' i with
  | nil => cases h; rfl
  | cons c cs ih =>
    cases h with
    | cons h1 h2 =>
      simp only [insertionActionFrom, isParam, h1.key, ih h2]

theorem alike_modify {f : Node M H → Out (Node M H)} {f' : Node M' H' → Out (Node M' H')} (hf : Blind RM RH f f') :
    ∀ {cs : List (Node M H)} {cs' : List (Node M' H')}, AlikeNodes RM RH cs cs' → ∀ i,
      AlikeOut (AlikeNodes RM RH) (modifyChild f cs i) (modifyChild f' cs' i) := by
  intro cs
  induction cs with
  | nil => intro cs' h i; cases h; exact ⟨.nil, rfl⟩
  | cons c cs ih =>
    intro cs' h i
    cases h with
    | cons h1 h2 =>
      cases i with
      | zero => exact ⟨.cons (hf _ _ h1).1 h2, (hf _ _ h1).2⟩
      | succ i => exact ⟨.cons h1 (ih h2 i).1, (ih h2 i).2⟩

theorem alike_new (k : Str) : AlikeNode RM RH (Node.new k none : Node M H) (Node.new k none : Node M' H') :=
  .mk .none .nil

theorem alike_split {f : Node M H → Out (Node M H)} {f' : Node M' H' → Out (Node M' H')} (hf : Blind RM RH f f')
    (count : Nat) (key : Str) : Blind RM RH (splitNode count key f) (splitNode count key f') := by
  intro n n' h
  rw [splitNode, splitNode, h.key]
  split
  · next newKey _ _ _ _ =>
    simp only
    split
    · exact hf _ _ (.mk .none (.cons (.mk h.value h.children) .nil))
    · have := hf _ _ (alike_new newKey)
      exact ⟨.mk .none (.cons this.1 (.cons (.mk h.value h.children) .nil)), this.2⟩
  · exact ⟨h, rfl⟩

mutual
theorem alike_insert (path : Str) {f : Node M H → Out (Node M H)} {f' : Node M' H' → Out (Node M' H')} (hf : Blind RM RH f f') :
    ∀ (k k' : Str) (v : Option (RouteValue M H)) (v' : Option (RouteValue M' H')) (cs : List (Node M H)) (cs' : List (Node M' H')),
      AlikeNodes RM RH cs cs' → ∀ (key : Str),
      ∃ xs xs' p, AlikeNodes RM RH xs xs' ∧ processInsertion path (mk k v cs) key f = (mk k v xs, p) ∧
        processInsertion path (mk k' v' cs') key f' = (mk k' v' xs', p)
  | k, k', v, v', cs, cs', h, key => by
    rw [processInsertion, processInsertion, insertionAction, insertionAction, ← alike_action key h 0]
    cases insertionActionFrom key cs 0 with
    | createNewNode =>
      have := hf _ _ (alike_new (RM := RM) (RH := RH) key)
      simp only
      split
      · exact ⟨_, _, _, AlikeNodes.append h (.cons this.1 .nil), rfl, by rw [this.2]⟩
      · exact ⟨_, _, _, .cons this.1 h, rfl, by rw [this.2]⟩
    | nextNode i =>
      have := alike_modify hf h i
      exact ⟨_, _, _, this.1, rfl, by simp only; rw [this.2]⟩
    | splitKey count i =>
      simp only
      cases sliceFrom key count with
      | none => exact ⟨_, _, _, h, rfl, rfl⟩
      | some key' =>
        have := alike_insertAt path hf cs cs' h i key'
        exact ⟨_, _, _, this.1, rfl, by simp only; rw [this.2]⟩
    | splitNode count i =>
      have := alike_modify (alike_split hf count key) h i
      exact ⟨_, _, _, this.1, rfl, by simp only; rw [this.2]⟩
    | error i =>
      have := h.get i
      simp only
      generalize cs[i]? = a at this
      generalize cs'[i]? = b at this
      cases this with
      | none => exact ⟨_, _, _, h, rfl, rfl⟩
      | some e => exact ⟨_, _, _, h, rfl, by simp only [e.key]⟩
theorem alike_insertAt (path : Str) {f : Node M H → Out (Node M H)} {f' : Node M' H' → Out (Node M' H')} (hf : Blind RM RH f f') :
    ∀ (cs : List (Node M H)) (cs' : List (Node M' H')), AlikeNodes RM RH cs cs' → ∀ (i : Nat) (key : Str),
      AlikeOut (AlikeNodes RM RH) (processInsertionAt path cs i key f) (processInsertionAt path cs' i key f')
  | [], _, h, i, key => by cases h; simp only [processInsertionAt]; exact ⟨.nil, rfl⟩
  | mk k v ds :: cs, _, h, 0, key => by
    cases h with
    | cons h1 h2 =>
      cases h1 with
      | mk hv hd =>
        obtain ⟨xs, xs', p, a, b, c⟩ := alike_insert path hf k k v _ ds _ hd key
        rw [processInsertionAt, processInsertionAt, b, c]
        exact ⟨.cons (.mk hv a) h2, rfl⟩
  | c :: cs, _, h, i + 1, key => by
    cases h with
    | cons h1 h2 =>
      have := alike_insertAt path hf cs _ h2 i key
      simp only [processInsertionAt]
      exact ⟨.cons h1 this.1, this.2⟩
end

/-- Descending from any two nodes with related children changes only the children. -/
theorem alike_descend (path : Str) {f : Node M H → Out (Node M H)} {f' : Node M' H' → Out (Node M' H')} (hf : Blind RM RH f f')
    (ss : List Str) : Blind RM RH (descend path f ss) (descend path f' ss) := by
  induction ss with
  | nil => exact hf
  | cons k ks ih =>
    intro n n' h
    cases h with
    | mk hv hd =>
      obtain ⟨xs, xs', p, a, b, c⟩ := alike_insert path ih _ _ _ _ _ _ hd k
      rw [descend, b, descend, c]
      exact ⟨.mk hv a, rfl⟩

theorem alike_descend_root (path : Str) {f : Node M H → Out (Node M H)} {f' : Node M' H' → Out (Node M' H')} (hf : Blind RM RH f f')
    {ss : List Str} (hs : ss ≠ []) {n : Node M H} {n' : Node M' H'} (h : AlikeNodes RM RH n.children n'.children) :
    ∃ xs xs' p, AlikeNodes RM RH xs xs' ∧ descend path f ss n = (mk n.key n.value xs, p) ∧
      descend path f' ss n' = (mk n'.key n'.value xs', p) := by
  cases ss with
  | nil => exact absurd rfl hs
  | cons k ks =>
    obtain ⟨k0, v, cs⟩ := n
    obtain ⟨k0', v', cs'⟩ := n'
    exact alike_insert path (alike_descend path hf ks) _ _ _ _ _ _ h k

/-! ### What is done with a node -/

theorem both_add {r : Resource H} {r' : Resource H'} (h : ∀ m, Both (AlikeRoute RH) (r.getRoute m) (r'.getRoute m))
    {x : Route H} {x' : Route H'} (hx : AlikeRoute RH x x') (m0 : Method) :
    (∀ m, Both (AlikeRoute RH) ((r.addRoute m0 x).1.getRoute m) ((r'.addRoute m0 x').1.getRoute m)) ∧
    Both (AlikeRoute RH) (r.addRoute m0 x).2 (r'.addRoute m0 x').2 := by
  refine ⟨fun m => ?_, h m0⟩
  rw [getRoute_add, getRoute_add]
  split
  · exact .some hx
  · exact h m

theorem alike_route (path : Str) {x : Route H} {x' : Route H'} (hx : AlikeRoute RH x x') :
    Blind RM RH (RouteTrie.addRouteNode path x) (RouteTrie.addRouteNode path x') := by
  intro n n' h
  cases h with
  | mk hv hc =>
    cases hv with
    | none =>
      have := both_add (RH := RH) (r := (RouteValue.default : RouteValue M H).route)
        (r' := (RouteValue.default : RouteValue M' H').route) (fun m => .none) hx x.method
      simp only [RouteTrie.addRouteNode, Node.value, ← hx.1]
      generalize (RouteValue.default : RouteValue M H).route.addRoute x.method x = y at this
      generalize (RouteValue.default : RouteValue M' H').route.addRoute x.method x' = y' at this
      obtain ⟨a, b⟩ := y
      obtain ⟨a', b'⟩ := y'
      obtain ⟨h1, h2⟩ := this
      cases h2 with
      | none => exact ⟨.mk (.some ⟨.nil, h1⟩) hc, rfl⟩
      | some e => exact ⟨.mk .none hc, by simp only [e.1]⟩
    | @some v v' hv =>
      have := both_add hv.route hx x.method
      simp only [RouteTrie.addRouteNode, Node.value, ← hx.1]
      generalize v.route.addRoute x.method x = y at this
      generalize v'.route.addRoute x.method x' = y' at this
      obtain ⟨a, b⟩ := y
      obtain ⟨a', b'⟩ := y'
      obtain ⟨h1, h2⟩ := this
      cases h2 with
      | none => exact ⟨.mk (.some ⟨hv.mws, h1⟩) hc, rfl⟩
      | some e => exact ⟨.mk (.some ⟨hv.mws, h1⟩) hc, by simp only [e.1]⟩

theorem alike_push {x : M} {x' : M'} (hx : RM x x') {n : Node M H} {n' : Node M' H'} (h : AlikeNode RM RH n n') :
    AlikeNode RM RH (RouteTrie.pushMiddleware x n) (RouteTrie.pushMiddleware x' n') := by
  cases h with
  | mk hv hc =>
    cases hv with
    | none => exact .mk (.some ⟨.cons hx .nil, fun m => .none⟩) hc
    | some hv => exact .mk (.some ⟨hv.mws.append (.cons hx .nil), hv.route⟩) hc

theorem alike_graft (path : Str) {s : RouteTrie M H} {s' : RouteTrie M' H'} (hs : AlikeNode RM RH s.head s'.head) :
    Blind RM RH (RouteTrie.graft path s) (RouteTrie.graft path s') := by
  intro n n' h
  rw [RouteTrie.graft, RouteTrie.graft, h.key]
  have e : (n.value.isSome || !n.children.isEmpty) = (n'.value.isSome || !n'.children.isEmpty) := by
    cases h with
    | mk hv hc =>
      have e1 : ∀ {a : Option (RouteValue M H)} {b : Option (RouteValue M' H')}, Both (AlikeValue RM RH) a b → a.isSome = b.isSome := by
        intro a b h; cases h <;> rfl
      have e2 : ∀ {a : List (Node M H)} {b : List (Node M' H')}, AlikeNodes RM RH a b → a.isEmpty = b.isEmpty := by
        intro a b h; cases h <;> rfl
      simp only [Node.value, Node.children, e1 hv, e2 hc]
  rw [e]
  split
  · exact ⟨h, rfl⟩
  · exact ⟨.mk hs.value hs.children, rfl⟩

/-! ### Searching -/

/-- Related results of a search. -/
inductive AlikeSearch (Q : List M → List M' → Prop) (RM : M → M' → Prop) (RH : H → H' → Prop) : Search M H → Search M' H' → Prop
  | panic {p} : AlikeSearch Q RM RH (.panic p) (.panic p)
  | notFound {key ps ms ms'} : Q ms ms' → AlikeSearch Q RM RH (.notFound key ps ms) (.notFound key ps ms')
  | found {n n' ps ms ms'} : AlikeNode RM RH n n' → Q ms ms' → AlikeSearch Q RM RH (.found n ps ms) (.found n' ps ms')

theorem alike_star {cs : List (Node M H)} {cs' : List (Node M' H')} (h : AlikeNodes RM RH cs cs') :
    Both (AlikeNode RM RH) (starChild cs) (starChild cs') := by
  induction cs generalizing cs' with
  | nil => cases h; exact .none
  | cons c cs ih =>
    cases h with
    | cons h1 h2 =>
      have e1 : c.value.isSome = (‹Node M' H'›).value.isSome := by
        have := h1.value
        revert this; generalize c.value = a; generalize (‹Node M' H'›).value = b
        intro h; cases h <;> rfl
      rw [starChild, starChild, h1.key, e1]
      split
      · exact .some h1
      · exact ih h2

/-- A relation of lists of middlewares to which related ones can be appended. -/
def Extends (Q : List M → List M' → Prop) (RM : M → M' → Prop) : Prop :=
  ∀ {a b c d}, Q a b → Each RM c d → Q (a ++ c) (b ++ d)

mutual
theorem alike_node {Q : List M → List M' → Prop} (hQ : Extends Q RM) : ∀ (n : Node M H) (n' : Node M' H') (key : List Str) (ps : HMap Str Str) (ms : List M) (ms' : List M') (brk : Bool),
    AlikeNodes RM RH n.children n'.children → Q ms ms' →
    AlikeSearch Q RM RH (n.getNextNode key ps ms brk) (n'.getNextNode key ps ms' brk)
  | mk k v cs, mk k' v' cs', [], ps, ms, ms', brk, _, _ => by rw [getNextNode, getNextNode]; exact .panic
  | mk k v cs, mk k' v' cs', curr :: key, ps, ms, ms', brk, h, hm => by
    rw [getNextNode, getNextNode]; exact alike_loop hQ cs cs' curr key ps ms ms' brk h hm
theorem alike_loop {Q : List M → List M' → Prop} (hQ : Extends Q RM) : ∀ (cs : List (Node M H)) (cs' : List (Node M' H')) (curr : Str) (key : List Str) (ps : HMap Str Str) (ms : List M)
    (ms' : List M') (brk : Bool), AlikeNodes RM RH cs cs' → Q ms ms' →
    AlikeSearch Q RM RH (getNextLoop cs curr key ps ms brk) (getNextLoop cs' curr key ps ms' brk)
  | [], _, curr, key, ps, ms, ms', brk, h, hm => by cases h; rw [getNextLoop, getNextLoop]; exact .notFound hm
  | node :: rest, [], curr, key, ps, ms, ms', brk, h, hm => by cases h
  | node :: rest, node' :: rest', curr, key, ps, ms, ms', brk, h, hm => by
    have hn : AlikeNode RM RH node node' := by cases h; assumption
    have hr : AlikeNodes RM RH rest rest' := by cases h; assumption
    have down := fun (key : List Str) (ps : HMap Str Str) (ms : List M) (ms' : List M') (hm : Q ms ms') =>
      alike_loop hQ rest rest' curr key ps ms ms' brk hr hm
    have into := fun (key : List Str) (ps : HMap Str Str) (brk : Bool) =>
      alike_node hQ node node' key ps ms ms' brk hn.children hm
    have hmw := AlikeNode.mws hn.value
    have hv := hn.value
    have e : node'.isParam = node.isParam := by rw [isParam, isParam, hn.key]
    rw [getNextLoop, getNextLoop, e, hn.key]
    split
    · split
      · exact .panic
      · split
        · generalize node.value = a at hv
          generalize node'.value = b at hv
          cases hv with
          | none => exact down _ _ _ _ hm
          | some hv => exact .found hn (hQ hm hv.mws)
        · have i := into key ps false
          generalize node.getNextNode key ps ms false = a at i
          generalize node'.getNextNode key ps ms' false = b at i
          cases i with
          | panic => exact .panic
          | notFound h1 => exact down _ _ _ _ h1
          | found h1 h2 => exact .found h1 (hQ h2 hmw)
    · split
      · exact .found hn (hQ hm hmw)
      · simp only
        split
        · split
          · exact .panic
          · next curr' _ =>
            split
            · have i := into (curr' :: key) ps true
              generalize node.getNextNode (curr' :: key) ps ms true = a at i
              generalize node'.getNextNode (curr' :: key) ps ms' true = b at i
              cases i with
              | panic => exact .panic
              | notFound h1 => exact down _ _ _ _ h1
              | found h1 h2 => exact .found h1 (hQ h2 hmw)
            · exact down _ _ _ _ hm
        · split
          · split
            · generalize node.value = a at hv
              generalize node'.value = b at hv
              cases hv with
              | none =>
                have i := alike_star hn.children
                simp only
                generalize starChild node.children = a at i
                generalize starChild node'.children = b at i
                cases i with
                | none => exact down _ _ _ _ hm
                | some h1 => exact .found h1 (hQ hm (AlikeNode.mws h1.value))
              | some hv => exact .found hn (hQ hm hv.mws)
            · have i := into key ps false
              generalize node.getNextNode key ps ms false = a at i
              generalize node'.getNextNode key ps ms' false = b at i
              cases i with
              | panic => exact .panic
              | notFound h1 => exact down _ _ _ _ h1
              | found h1 h2 => exact .found h1 (hQ h2 hmw)
          · exact down _ _ _ _ hm
end

/-! ### Roots, to which global middlewares may have been added -/

/-- The route of a node. -/
def routeAt? (n : Node M H) (m : Method) : Option (Route H) :=
  match n.value with
  | some v => v.route.getRoute m
  | none => none

/-- Related roots, except that the second one may have more middlewares. -/
structure Rooted (RM : M → M' → Prop) (RH : H → H' → Prop) (W : M' → Prop) (n : Node M H) (n' : Node M' H') : Prop where
  key : n'.key = n.key
  children : AlikeNodes RM RH n.children n'.children
  mws : Merged RM W n.mws n'.mws
  routes : ∀ m, Both (AlikeRoute RH) (n.routeAt? m) (n'.routeAt? m)
  kept : n.value.isSome → n'.value.isSome
  same : n'.value.isSome = n.value.isSome ∨ ∃ o, W o

theorem merged_each {W : M' → Prop} {a : List M} {b : List M'} (h : Each RM a b) : Merged RM W a b := by
  induction h with
  | nil => exact .nil
  | cons h _ ih => exact .both h ih

theorem merged_append {W : M' → Prop} {a : List M} {b : List M'} {c : List M} {d : List M'} (h : Merged RM W a b) (h' : Merged RM W c d) :
    Merged RM W (a ++ c) (b ++ d) := by
  induction h with
  | nil => exact h'
  | both h _ ih => exact .both h ih
  | more h _ ih => exact .more h ih

theorem each_merged {W : M' → Prop} (hW : ∀ o, ¬ W o) {a : List M} {b : List M'} (h : Merged RM W a b) : Each RM a b := by
  induction h with
  | nil => exact .nil
  | both h _ ih => exact .cons h ih
  | more h => exact absurd h (hW _)

theorem rooted_of {W : M' → Prop} {n : Node M H} {n' : Node M' H'} (h : AlikeNode RM RH n n') : Rooted RM RH W n n' := by
  refine ⟨h.key, h.children, merged_each (AlikeNode.mws h.value), ?_, ?_, ?_⟩ <;> have hv := h.value <;> try simp only [routeAt?]
  all_goals
   
    generalize n.value = a at hv <;> generalize n'.value = b at hv <;> cases hv
  · exact fun m => .none
  · next h => exact h.route
  all_goals simp

theorem of_rooted {W : M' → Prop} (hW : ∀ o, ¬ W o) {n : Node M H} {n' : Node M' H'} (h : Rooted RM RH W n n') : AlikeNode RM RH n n' := by
  refine AlikeNode.of h.key ?_ h.children
  have h1 := each_merged hW h.mws
  have h2 := h.routes
  have h3 := h.same.resolve_right (fun ⟨o, ho⟩ => hW o ho)
  simp only [Node.mws, routeAt?] at h1 h2
  generalize n.value = a at h1 h2 h3
  generalize n'.value = b at h1 h2 h3
  cases a with
  | none =>
    cases b with
    | none => exact .none
    | some b => simp at h3
  | some a =>
    cases b with
    | none => simp at h3
    | some b => exact .some ⟨h1, h2⟩

theorem rooted_children {W : M' → Prop} {n : Node M H} {n' : Node M' H'} (h : Rooted RM RH W n n') {xs : List (Node M H)}
    {xs' : List (Node M' H')} (hx : AlikeNodes RM RH xs xs') :
    Rooted RM RH W (mk n.key n.value xs) (mk n'.key n'.value xs') :=
  ⟨h.key, hx, h.mws, h.routes, h.kept, h.same⟩

theorem push_routeAt (x : M) (n : Node M H) (m : Method) : (RouteTrie.pushMiddleware x n).routeAt? m = n.routeAt? m := by
  obtain ⟨k, v, cs⟩ := n
  cases v <;> rfl

theorem push_mws (x : M) (n : Node M H) : (RouteTrie.pushMiddleware x n).mws = n.mws ++ [x] := by
  obtain ⟨k, v, cs⟩ := n
  cases v <;> rfl

theorem push_children (x : M) (n : Node M H) : (RouteTrie.pushMiddleware x n).children = n.children := by
  obtain ⟨k, v, cs⟩ := n
  cases v <;> rfl

theorem push_key (x : M) (n : Node M H) : (RouteTrie.pushMiddleware x n).key = n.key := by
  obtain ⟨k, v, cs⟩ := n
  cases v <;> rfl

theorem push_some (x : M) (n : Node M H) : (RouteTrie.pushMiddleware x n).value.isSome = true := by
  obtain ⟨k, v, cs⟩ := n
  cases v <;> rfl

theorem rooted_push {W : M' → Prop} {x : M} {x' : M'} (hx : RM x x') {n : Node M H} {n' : Node M' H'} (h : Rooted RM RH W n n') :
    Rooted RM RH W (RouteTrie.pushMiddleware x n) (RouteTrie.pushMiddleware x' n') := by
  refine ⟨by rw [push_key, push_key]; exact h.key, ?_, ?_, ?_, ?_, ?_⟩
  · rw [push_children, push_children]; exact h.children
  · rw [push_mws, push_mws]; exact merged_append h.mws (.both hx .nil)
  · intro m; rw [push_routeAt, push_routeAt]; exact h.routes m
  · simp [push_some]
  · simp [push_some]

theorem rooted_more {W : M' → Prop} {x' : M'} (hx : W x') {n : Node M H} {n' : Node M' H'} (h : Rooted RM RH W n n') :
    Rooted RM RH W n (RouteTrie.pushMiddleware x' n') := by
  refine ⟨by rw [push_key]; exact h.key, ?_, ?_, ?_, ?_, .inr ⟨x', hx⟩⟩
  · rw [push_children]; exact h.children
  · rw [push_mws]; have := merged_append h.mws (.more hx .nil); simpa using this
  · intro m; rw [push_routeAt]; exact h.routes m
  · simp [push_some]

/-- Adding a route to a node, without its branches. -/
theorem addRoute_facts (path : Str) (x : Route H) (n : Node M H) :
    (RouteTrie.addRouteNode path x n).1.key = n.key ∧ (RouteTrie.addRouteNode path x n).1.children = n.children ∧ (RouteTrie.addRouteNode path x n).1.mws = n.mws ∧
    (RouteTrie.addRouteNode path x n).1.value.isSome = true ∧
    (∀ m, (RouteTrie.addRouteNode path x n).1.routeAt? m = if m = x.method then some x else n.routeAt? m) ∧
    (RouteTrie.addRouteNode path x n).2 = (n.routeAt? x.method).map fun r => .duplicated r.method path := by
  obtain ⟨k, v, cs⟩ := n
  cases v with
  | none =>
    exact ⟨rfl, rfl, rfl, rfl, fun m => getRoute_add (Resource.default : Resource H) x.method m x, rfl⟩
  | some v =>
    have := fun m => getRoute_add v.route x.method m x
    have e2 : (v.route.addRoute x.method x).2 = v.route.getRoute x.method := rfl
    simp only [RouteTrie.addRouteNode, routeAt?, value]
    generalize v.route.addRoute x.method x = y at this e2
    obtain ⟨res, e⟩ := y
    simp only at this e2
    rw [← e2]
    cases e with
    | none => exact ⟨rfl, rfl, rfl, rfl, this, rfl⟩
    | some e => exact ⟨rfl, rfl, rfl, rfl, this, rfl⟩

theorem rooted_route {W : M' → Prop} (path : Str) {x : Route H} {x' : Route H'} (hx : AlikeRoute RH x x') {n : Node M H} {n' : Node M' H'}
    (h : Rooted RM RH W n n') :
    AlikeOut (Rooted RM RH W) (RouteTrie.addRouteNode path x n) (RouteTrie.addRouteNode path x' n') := by
  obtain ⟨a0, a1, a2, a3, a4, a5⟩ := addRoute_facts path x n
  obtain ⟨b0, b1, b2, b3, b4, b5⟩ := addRoute_facts path x' n'
  refine ⟨⟨by rw [a0, b0]; exact h.key, ?_, ?_, ?_, ?_, ?_⟩, ?_⟩
  · rw [a1, b1]; exact h.children
  · rw [a2, b2]; exact h.mws
  · intro m
    rw [a4, b4, ← hx.1]
    split
    · exact .some hx
    · exact h.routes m
  · simp [b3]
  · simp [a3, b3]
  · rw [a5, b5, ← hx.1]
    have := h.routes x.method
    generalize n.routeAt? x.method = a at this
    generalize n'.routeAt? x.method = b at this
    cases this with
    | none => rfl
    | some e => simp [e.1]

/-! ### Programs -/

/-- Related routers. -/
def RootedR (RM : M → M' → Prop) (RH : H → H' → Prop) (W : M' → Prop) (r : Router M H) (r' : Router M' H') : Prop :=
  Rooted RM RH W r.routes.head r'.routes.head

/-- Related routers without added middlewares. -/
def AlikeR (RM : M → M' → Prop) (RH : H → H' → Prop) (r : Router M H) (r' : Router M' H') : Prop :=
  AlikeNode RM RH r.routes.head r'.routes.head

theorem rooted_insertRoute {W : M' → Prop} {r : Router M H} {r' : Router M' H'} (h : RootedR RM RH W r r') (m : Method) (path : Str)
    {x : H} {x' : H'} (hx : RH x x') : AlikeOut (RootedR RM RH W) (r.insertRoute m path x) (r'.insertRoute m path x') := by
  have hr : AlikeRoute RH ⟨m, x⟩ ⟨m, x'⟩ := ⟨rfl, hx⟩
  simp only [Router.insertRoute, RouteTrie.insertRoute, RouteTrie.insertDefaultRoute, segs_eq]
  cases checkStars path with
  | some e => exact ⟨h, rfl⟩
  | none =>
    simp only
    by_cases h0 : segments path = []
    · simp only [if_pos h0]; exact rooted_route _ hr h
    · simp only [if_neg h0, insertLoop_eq _ _ h0]
      obtain ⟨xs, xs', p, a, b, c⟩ := alike_descend_root path (alike_route (RM := RM) path hr) h0 h.children
      rw [b, c]
      exact ⟨rooted_children h a, rfl⟩

theorem rooted_serviceTo {W : M' → Prop} {r : Router M H} {r' : Router M' H'} (h : RootedR RM RH W r r') (path : Str)
    {x : M} {x' : M'} (hx : RM x x') : AlikeOut (RootedR RM RH W) (r.useServiceTo path x) (r'.useServiceTo path x') := by
  simp only [Router.useServiceTo, RouteTrie.insertMiddleware, segs_eq]
  cases checkStars path with
  | some e => exact ⟨h, rfl⟩
  | none =>
    simp only
    by_cases h0 : segments path = []
    · rw [h0]; exact ⟨h, rfl⟩
    · simp only [insertLoop_eq _ _ h0]
      obtain ⟨xs, xs', p, a, b, c⟩ := alike_descend_root path
        (f := fun n => (RouteTrie.pushMiddleware x n, none)) (f' := fun n => (RouteTrie.pushMiddleware x' n, none))
        (fun n n' (hn : AlikeNode RM RH n n') => ⟨alike_push hx hn, rfl⟩) h0 h.children
      rw [b, c]
      exact ⟨rooted_children h a, rfl⟩

theorem rooted_router {W : M' → Prop} {r : Router M H} {r' : Router M' H'} (h : RootedR RM RH W r r') (path : Str)
    {s : Router M H} {s' : Router M' H'} (hs : AlikeR RM RH s s') :
    AlikeOut (RootedR RM RH W) (r.useRouter path s) (r'.useRouter path s') := by
  simp only [Router.useRouter, RouteTrie.insertSubRoute, segs_eq]
  cases checkStars path with
  | some e => exact ⟨h, rfl⟩
  | none =>
    simp only
    by_cases h0 : segments path = []
    · simp only [if_pos h0]; exact ⟨rooted_of hs, rfl⟩
    · simp only [if_neg h0, insertLoop_eq _ _ h0]
      obtain ⟨xs, xs', p, a, b, c⟩ := alike_descend_root path (alike_graft path hs) h0 h.children
      rw [b, c]
      exact ⟨rooted_children h a, rfl⟩

mutual
theorem alike_call {W : M' → Prop} : ∀ (c : Reg M H) (c' : Reg M' H'), AlikeCall RM RH c c' →
    ∀ (r : Router M H) (r' : Router M' H'), RootedR RM RH W r r' → AlikeOut (RootedR RM RH W) (c.run r) (c'.run r')
  | .get p x, c', hc, r, r', h => by cases hc with | get e => exact rooted_insertRoute h _ _ e
  | .post p x, c', hc, r, r', h => by cases hc with | post e => exact rooted_insertRoute h _ _ e
  | .put p x, c', hc, r, r', h => by cases hc with | put e => exact rooted_insertRoute h _ _ e
  | .patch p x, c', hc, r, r', h => by cases hc with | patch e => exact rooted_insertRoute h _ _ e
  | .delete p x, c', hc, r, r', h => by cases hc with | delete e => exact rooted_insertRoute h _ _ e
  | .useService x, c', hc, r, r', h => by cases hc with | useService e => exact ⟨rooted_push e h, rfl⟩
  | .useServiceTo p x, c', hc, r, r', h => by cases hc with | useServiceTo e => exact rooted_serviceTo h _ e
  | .useRouter p sub, c', hc, r, r', h => by
    cases hc with
    | useRouter e =>
      have i := alike_calls sub _ e
      rw [Reg.run, Reg.run]
      generalize runRegs sub Router.new = x at i
      generalize runRegs _ Router.new = x' at i
      obtain ⟨s, y⟩ := x
      obtain ⟨s', y'⟩ := x'
      obtain ⟨i1, i2⟩ := i
      simp only at i2; subst i2
      cases y with
      | none => exact rooted_router h p i1
      | some y => exact ⟨h, rfl⟩
  | .scope p sub, c', hc, r, r', h => by
    cases hc with
    | scope e =>
      have i := alike_calls sub _ e
      rw [Reg.run, Reg.run]
      generalize runRegs sub Router.new = x at i
      generalize runRegs _ Router.new = x' at i
      obtain ⟨s, y⟩ := x
      obtain ⟨s', y'⟩ := x'
      obtain ⟨i1, i2⟩ := i
      simp only at i2; subst i2
      cases y with
      | none => exact rooted_router h _ i1
      | some y => exact ⟨h, rfl⟩
theorem alike_calls : ∀ (cs : List (Reg M H)) (cs' : List (Reg M' H')), Alike RM RH cs cs' →
    AlikeOut (AlikeR RM RH) (runRegs cs Router.new) (runRegs cs' Router.new)
  | cs, cs', h => by
    have := alike_callsFrom cs cs' h Router.new Router.new (rooted_of (alike_new _))
    exact ⟨of_rooted (W := fun _ => False) (fun _ h => h) this.1, this.2⟩
theorem alike_callsFrom : ∀ (cs : List (Reg M H)) (cs' : List (Reg M' H')), Alike RM RH cs cs' →
    ∀ (r : Router M H) (r' : Router M' H'), RootedR RM RH (fun _ => False) r r' →
    AlikeOut (RootedR RM RH (fun _ => False)) (runRegs cs r) (runRegs cs' r')
  | [], cs', h, r, r', hr => by cases h; rw [runRegs, runRegs]; exact ⟨hr, rfl⟩
  | c :: cs, cs', h, r, r', hr => by
    cases h with
    | cons h1 h2 =>
      have i := alike_call c _ h1 r r' hr
      have j := alike_callsFrom cs _ h2
      rw [runRegs, runRegs]
      generalize c.run r = x at i
      generalize Reg.run _ r' = x' at i
      obtain ⟨s, y⟩ := x
      obtain ⟨s', y'⟩ := x'
      obtain ⟨i1, i2⟩ := i
      simp only at i2; subst i2
      cases y with
      | none => exact j _ _ i1
      | some y => exact ⟨i1, rfl⟩
end

theorem watched_calls {W : M' → Prop} {cs : List (Reg M H)} {cs' : List (Reg M' H')} (h : Watched RM RH W cs cs') :
    ∀ (r : Router M H) (r' : Router M' H'), RootedR RM RH W r r' → AlikeOut (RootedR RM RH W) (runRegs cs r) (runRegs cs' r') := by
  induction h with
  | nil => intro r r' hr; rw [runRegs, runRegs]; exact ⟨hr, rfl⟩
  | same h1 _ j =>
    next c c' cs cs' _ =>
    intro r r' hr
    have i := alike_call _ _ h1 r r' hr
    rw [runRegs, runRegs]
    generalize c.run r = x at i
    generalize c'.run r' = x' at i
    obtain ⟨s, y⟩ := x
    obtain ⟨s', y'⟩ := x'
    obtain ⟨i1, i2⟩ := i
    simp only at i2; subst i2
    cases y with
    | none => exact j _ _ i1
    | some y => exact ⟨i1, rfl⟩
  | more h1 _ j =>
    next o cs cs' _ =>
    intro r r' hr
    have e : runRegs (.useService o :: cs') r' = runRegs cs' (r'.useService o) := by rw [runRegs, Reg.run]
    rw [e]
    exact j r (r'.useService o) (rooted_more h1 hr)

theorem watched_build {W : M' → Prop} {cs : List (Reg M H)} {cs' : List (Reg M' H')} (h : Watched RM RH W cs cs') :
    AlikeOut (RootedR RM RH W) (build cs) (build cs') :=
  watched_calls h _ _ (rooted_of (alike_new _))

/-- Related results of looking up a path. -/
inductive Looked (RM : M → M' → Prop) (RH : H → H' → Prop) (W : M' → Prop) :
    Lookup (Option (RouteValueResult M H)) → Lookup (Option (RouteValueResult M' H')) → Prop
  | panic {p} : Looked RM RH W (.panic p) (.panic p)
  | unknown : Looked RM RH W (.ok none) (.ok none)
  | empty {v o} : W o → (∀ m, v.getRoute m = none) → Looked RM RH W (.ok none) (.ok (some v))
  | known {v v'} : v.params = v'.params → Merged RM W v.routeValue.middlewares v'.routeValue.middlewares →
      (∀ m, Both (AlikeRoute RH) (v.getRoute m) (v'.getRoute m)) → Looked RM RH W (.ok (some v)) (.ok (some v'))

theorem looked {W : M' → Prop} {r : Router M H} {r' : Router M' H'} (h : RootedR RM RH W r r') (path : Str) :
    Looked RM RH W (r.searchRoute path) (r'.searchRoute path) := by
  simp only [Router.searchRoute, RouteTrie.searchRoute]
  obtain ⟨_, hc, hm, hr, hk, hs⟩ := h
  split
  · simp only [RouteTrie.finish]
    simp only [routeAt?] at hr
    generalize r.routes.head.value = a at hr hk hs
    generalize r'.routes.head.value = b at hr hk hs
    cases a with
    | some a =>
      cases b with
      | none => simp at hk
      | some b => exact .known rfl hm hr
    | none =>
      cases b with
      | none => exact .unknown
      | some b =>
        obtain ⟨o, ho⟩ := hs.resolve_left (by simp)
        refine .empty ho ?_
        intro m
        have := hr m
        simp only at this
        show b.route.getRoute m = none
        generalize b.route.getRoute m = x at this
        cases this; rfl
  · have := alike_node (Q := Merged RM W) (RM := RM) (RH := RH) (fun h1 h2 => merged_append h1 (merged_each h2)) r.routes.head r'.routes.head
      (segs path) HMap.empty r.routes.head.mws r'.routes.head.mws false hc hm
    generalize r.routes.head.getNextNode (segs path) HMap.empty r.routes.head.mws false = a at this
    generalize r'.routes.head.getNextNode (segs path) HMap.empty r'.routes.head.mws false = b at this
    cases this with
    | panic => exact .panic
    | notFound _ => exact .unknown
    | found hn hm =>
      next n n' ps ms ms' =>
      simp only [RouteTrie.finish]
      have hv := hn.value
      generalize n.value = a at hv
      generalize n'.value = b at hv
      cases hv with
      | none => exact .unknown
      | some e => exact .known rfl hm e.route

end Node
end Obsidian
