import Verif.Spec.Tally
import Verif.Proofs.Way
import Verif.Proofs.SpecBasics

/-
How often a middleware is in the tree, and how often a search collects it, for paths of any form.
-/
namespace Obsidian.Proofs
open Obsidian Spec Node
variable {M H : Type} {p : M → Bool}

/-- How many middlewares of the value satisfy `p`. -/
def tallyV (p : M → Bool) : Option (RouteValue M H) → Nat
  | none => 0
  | some v => v.middlewares.countP p

theorem tallyV_none : tallyV p (none : Option (RouteValue M H)) = 0 := rfl

mutual
/-- How many middlewares in the tree satisfy `p`. -/
def tally (p : M → Bool) : Node M H → Nat
  | .mk _ v cs => tallyV p v + tallyL p cs
/-- How many middlewares in the trees satisfy `p`. -/
def tallyL (p : M → Bool) : List (Node M H) → Nat
  | [] => 0
  | c :: cs => tally p c + tallyL p cs
end

theorem tally_eq (n : Node M H) : tally p n = tallyV p n.value + tallyL p n.children := by
  cases n with | mk k v cs => simp only [tally, Node.value, Node.children]

theorem tallyL_append (cs : List (Node M H)) (n : Node M H) : tallyL p (cs ++ [n]) = tallyL p cs + tally p n := by
  induction cs with
  | nil => simp [tallyL]
  | cons c cs ih => simp only [List.cons_append, tallyL, ih]; omega

theorem tally_new (k : Str) : tally p (Node.new k none : Node M H) = 0 := by
  simp [Node.new, tally, tallyV, tallyL]

/-- What is added by a call that does not panic. -/
def extra (a : Nat) : Option Panic → Nat
  | none => a
  | some _ => 0

/-- The change adds at most `a`, and nothing if it panics. -/
def Adding (p : M → Bool) (a : Nat) (f : Node M H → Out (Node M H)) : Prop :=
  ∀ n, tally p (f n).1 ≤ tally p n + extra a (f n).2

section
variable {a : Nat} {f : Node M H → Out (Node M H)}

theorem modifyChild_tally (hf : Adding p a f) : ∀ (cs : List (Node M H)) (i : Nat),
    tallyL p (Node.modifyChild f cs i).1 ≤ tallyL p cs + extra a (Node.modifyChild f cs i).2
  | [], _ => by simp [Node.modifyChild, tallyL]
  | c :: cs, 0 => by
    have := hf c
    simp only [Node.modifyChild, tallyL]
    omega
  | c :: cs, i + 1 => by
    have := modifyChild_tally hf cs i
    simp only [Node.modifyChild, tallyL]
    omega

theorem splitNode_tally (hf : Adding p a f) (count : Nat) (key : Str) : Adding p a (Node.splitNode count key f) := by
  intro n
  have hn := tally_eq (p := p) n
  unfold Node.splitNode
  split
  · next childKey newKey nodeKey _ _ _ =>
    dsimp only
    split
    · have := hf (.mk nodeKey none [.mk childKey n.value n.children])
      simp only [tally, tallyV_none, tallyL] at this
      omega
    · have := hf (Node.new newKey none)
      rw [tally_new] at this
      simp only [tally, tallyV_none, tallyL]
      omega
  · simp [extra]

mutual
theorem processInsertion_tally (hf : Adding p a f) (path : Str) : ∀ (n : Node M H) (key : Str),
    tally p (n.processInsertion path key f).1 ≤ tally p n + extra a (n.processInsertion path key f).2
  | .mk k v cs, key => by
    have hnew := hf (Node.new key none)
    rw [tally_new] at hnew
    unfold Node.processInsertion
    split
    · split
      · simp only [tally, tallyL_append]; omega
      · simp only [tally, tallyL]; omega
    · next i _ =>
      have := modifyChild_tally hf cs i
      simp only [tally]; omega
    · next count i _ =>
      split
      · next key' _ =>
        have := processInsertionAt_tally hf path cs i key'
        simp only [tally]; omega
      · simp [extra]
    · next count i _ =>
      have := modifyChild_tally (splitNode_tally hf count key) cs i
      simp only [tally]; omega
    · split <;> simp [extra]
theorem processInsertionAt_tally (hf : Adding p a f) (path : Str) : ∀ (cs : List (Node M H)) (i : Nat) (key : Str),
    tallyL p (Node.processInsertionAt path cs i key f).1 ≤ tallyL p cs + extra a (Node.processInsertionAt path cs i key f).2
  | [], _, _ => by unfold Node.processInsertionAt; simp [tallyL]
  | c :: cs, 0, key => by
    have := processInsertion_tally hf path c key
    unfold Node.processInsertionAt
    simp only [tallyL]; omega
  | c :: cs, i + 1, key => by
    have := processInsertionAt_tally hf path cs i key
    unfold Node.processInsertionAt
    simp only [tallyL]; omega
end

theorem insertLoop_tally (hf : Adding p a f) (path : Str) : ∀ ks : List Str, Adding p a (Node.insertLoop path f ks)
  | [] => fun n => by simp [Node.insertLoop]
  | [k] => fun n => processInsertion_tally hf path n k
  | k :: k' :: ks => fun n => processInsertion_tally (insertLoop_tally hf path (k' :: ks)) path n k

end

/-! ### The calls -/

theorem tally_set (n : Node M H) (v : RouteValue M H) : tally p (n.setValue (some v)) = v.middlewares.countP p + tallyL p n.children := by
  cases n with | mk k w cs => simp [Node.setValue, tally, tallyV, Node.children]

theorem addRouteNode_tally (path : Str) (r : Route H) : Adding (M := M) p 0 (RouteTrie.addRouteNode path r) := by
  intro n
  have hn := tally_eq (p := p) n
  unfold RouteTrie.addRouteNode
  split
  · next v hv =>
    rw [hv] at hn
    simp only [tallyV] at hn
    split <;> (rw [tally_set]; simp only; omega)
  · next hv =>
    rw [hv] at hn
    simp only [tallyV] at hn
    split
    · simp
    · rw [tally_set]; simp only [List.countP_nil]; omega

theorem pushMiddleware_tally (m : M) (n : Node M H) : tally p (RouteTrie.pushMiddleware m n) ≤ tally p n + [m].countP p := by
  have hn := tally_eq (p := p) n
  unfold RouteTrie.pushMiddleware
  split
  · next v hv =>
    rw [hv] at hn
    simp only [tallyV] at hn
    rw [tally_set]; simp only [List.countP_append]; omega
  · next hv =>
    rw [hv] at hn
    simp only [tallyV] at hn
    rw [tally_set]; show [m].countP p + _ ≤ _; omega

/-- How many middlewares of the router satisfy `p`. -/
def tallyR (p : M → Bool) (r : Router M H) : Nat := tally p r.routes.head

theorem tallyR_new : tallyR p (Router.new : Router M H) = 0 := tally_new _

theorem insertRoute_tally (r : Router M H) (m : Method) (path : Str) (hd : H) :
    tallyR p (r.insertRoute m path hd).1 ≤ tallyR p r := by
  have h0 : ∀ o, extra 0 o = 0 := fun o => by cases o <;> rfl
  have h1 := fun q => addRouteNode_tally (p := p) (M := M) q (⟨m, hd⟩ : Route H)
  cases hcs : checkStars path with
  | some e =>
    rw [show r.insertRoute m path hd = (r, some e) by simp only [Router.insertRoute, RouteTrie.insertRoute, hcs]]
    exact Nat.le_refl _
  | none =>
    by_cases hs : segs path = []
    · rw [show r.insertRoute m path hd = (⟨⟨(RouteTrie.addRouteNode ['/'] ⟨m, hd⟩ r.routes.head).1⟩⟩,
          (RouteTrie.addRouteNode ['/'] ⟨m, hd⟩ r.routes.head).2) by
        simp only [Router.insertRoute, RouteTrie.insertRoute, hcs, hs, if_true, RouteTrie.insertDefaultRoute]]
      have := h1 ['/'] r.routes.head
      rw [h0] at this
      exact this
    · rw [show r.insertRoute m path hd = (⟨⟨(Node.insertLoop path (RouteTrie.addRouteNode path ⟨m, hd⟩) (segs path) r.routes.head).1⟩⟩,
          (Node.insertLoop path (RouteTrie.addRouteNode path ⟨m, hd⟩) (segs path) r.routes.head).2) by
        simp only [Router.insertRoute, RouteTrie.insertRoute, hcs, hs, if_false]]
      have := insertLoop_tally (h1 path) path (segs path) r.routes.head
      rw [h0] at this
      exact this

theorem useServiceTo_tally (r : Router M H) (path : Str) (m : M) :
    tallyR p (r.useServiceTo path m).1 ≤ tallyR p r + extra ([m].countP p) (r.useServiceTo path m).2 := by
  cases hcs : checkStars path with
  | some e =>
    rw [show r.useServiceTo path m = (r, some e) by simp only [Router.useServiceTo, RouteTrie.insertMiddleware, hcs]]
    exact Nat.le_refl _
  | none =>
    rw [show r.useServiceTo path m = (⟨⟨(Node.insertLoop path (fun n => (RouteTrie.pushMiddleware m n, none)) (segs path) r.routes.head).1⟩⟩,
        (Node.insertLoop path (fun n => (RouteTrie.pushMiddleware m n, none)) (segs path) r.routes.head).2) by
      simp only [Router.useServiceTo, RouteTrie.insertMiddleware, hcs]]
    exact insertLoop_tally (f := fun n => (RouteTrie.pushMiddleware m n, none)) (fun n => pushMiddleware_tally m n) path (segs path) r.routes.head

theorem useRouter_tally (r t : Router M H) (path : Str) :
    tallyR p (r.useRouter path t).1 ≤ tallyR p r + extra (tallyR p t) (r.useRouter path t).2 := by
  have hg : Adding p (tallyR p t) (RouteTrie.graft path t.routes) := by
    intro n
    unfold RouteTrie.graft
    split
    · simp [extra]
    · have := tally_eq (p := p) t.routes.head
      simp only [tally, extra, tallyR]; omega
  cases hcs : checkStars path with
  | some e =>
    rw [show r.useRouter path t = (r, some e) by simp only [Router.useRouter, RouteTrie.insertSubRoute, hcs]]
    exact Nat.le_refl _
  | none =>
    by_cases hs : segs path = []
    · rw [show r.useRouter path t = (⟨⟨t.routes.head⟩⟩, none) by
        simp only [Router.useRouter, RouteTrie.insertSubRoute, hcs, hs, if_true]]
      simp [extra, tallyR]
    · rw [show r.useRouter path t = (⟨⟨(Node.insertLoop path (RouteTrie.graft path t.routes) (segs path) r.routes.head).1⟩⟩,
          (Node.insertLoop path (RouteTrie.graft path t.routes) (segs path) r.routes.head).2) by
        simp only [Router.useRouter, RouteTrie.insertSubRoute, hcs, hs, if_false]]
      exact insertLoop_tally hg path (segs path) r.routes.head

mutual
/-- A call adds at most the middlewares that it names, and none if it panics. -/
theorem run_tally : ∀ (c : Reg M H) (r : Router M H), tallyR p (c.run r).1 ≤ tallyR p r + extra ((mwsOf c).countP p) (c.run r).2
  | .get q k, r => Nat.le_add_right_of_le (insertRoute_tally r .get q k)
  | .post q k, r => Nat.le_add_right_of_le (insertRoute_tally r .post q k)
  | .put q k, r => Nat.le_add_right_of_le (insertRoute_tally r .put q k)
  | .patch q k, r => Nat.le_add_right_of_le (insertRoute_tally r .patch q k)
  | .delete q k, r => Nat.le_add_right_of_le (insertRoute_tally r .delete q k)
  | .useService m, r => by rw [mwsOf]; exact pushMiddleware_tally m _
  | .useServiceTo q m, r => by rw [mwsOf]; exact useServiceTo_tally r q m
  | .useRouter q sub, r => by
    rw [Reg.run, mwsOf]
    have hs := runRegs_tally sub (Router.new : Router M H)
    rw [tallyR_new] at hs
    cases hb : runRegs sub Router.new with
    | mk t e =>
      rw [hb] at hs
      cases e with
      | some e => simp [extra]
      | none =>
        have := useRouter_tally (p := p) r t q
        dsimp only at hs ⊢
        cases ho : (r.useRouter q t).2 <;> rw [ho] at this <;> simp only [extra] at this ⊢ <;> omega
  | .scope q sub, r => by
    rw [Reg.run, mwsOf]
    have hs := runRegs_tally sub (Router.new : Router M H)
    rw [tallyR_new] at hs
    cases hb : runRegs sub Router.new with
    | mk t e =>
      rw [hb] at hs
      cases e with
      | some e => simp [extra]
      | none =>
        have := useRouter_tally (p := p) r t ('/' :: q)
        dsimp only at hs ⊢
        show tallyR p (r.useRouter ('/' :: q) t).1 ≤ tallyR p r + extra ((mwsOfAll sub).countP p) (r.useRouter ('/' :: q) t).2
        cases ho : (r.useRouter ('/' :: q) t).2 <;> rw [ho] at this <;> simp only [extra] at this ⊢ <;> omega
/-- Calls add at most the middlewares that they name. -/
theorem runRegs_tally : ∀ (cs : List (Reg M H)) (r : Router M H), tallyR p (runRegs cs r).1 ≤ tallyR p r + (mwsOfAll cs).countP p
  | [], r => by simp [runRegs, mwsOfAll]
  | c :: cs, r => by
    rw [runRegs, mwsOfAll, List.countP_append]
    have h1 := run_tally c r
    cases hb : c.run r with
    | mk r' e =>
      rw [hb] at h1
      cases e with
      | none =>
        have := runRegs_tally cs r'
        simp only [extra] at h1
        dsimp only
        omega
      | some e => simp only [extra] at h1; dsimp only; omega
end

theorem caught_tally : ∀ (cs : List (Reg M H)) (r : Router M H), tallyR p (runCaught cs r) ≤ tallyR p r + (addedMws cs r).countP p
  | [], r => by simp [runCaught, addedMws]
  | c :: cs, r => by
    rw [runCaught, addedMws, List.countP_append]
    have h1 := run_tally (p := p) c r
    have h2 := caught_tally cs (c.run r).1
    split
    · next h => rw [h] at h1; simp only [extra] at h1; omega
    · next h =>
      cases ho : (c.run r).2 with
      | none => exact absurd ho h
      | some e => rw [ho] at h1; simp only [extra] at h1; simp only [List.countP_nil]; omega

/-! ### Lookups -/

/-- What a search collects. -/
def SearchTally (p : M → Bool) (mws : List M) (b : Nat) : Search M H → Prop
  | .panic _ => True
  | .notFound _ _ mws' => mws' = mws
  | .found _ _ mws' => mws'.countP p ≤ mws.countP p + b

theorem tally_mws (n : Node M H) : n.mws.countP p = tallyV p n.value := by
  unfold Node.mws tallyV
  cases n.value <;> simp

theorem starChild_tally : ∀ {cs : List (Node M H)} {c : Node M H}, Node.starChild cs = some c → c.mws.countP p ≤ tallyL p cs
  | [], _, h => by cases h
  | d :: cs, c, h => by
    rw [Node.starChild] at h
    split at h
    · injection h with h
      subst h
      have := tally_eq (p := p) d
      rw [tally_mws]; simp only [tallyL]; omega
    · have := starChild_tally h
      simp only [tallyL]; omega

theorem searchTally_mono {mws : List M} {b b' : Nat} (h : b ≤ b') {o : Search M H} (ho : SearchTally p mws b o) : SearchTally p mws b' o := by
  cases o with
  | panic _ => trivial
  | notFound _ _ _ => exact ho
  | found _ _ m => exact Nat.le_trans ho (by omega)

mutual
theorem getNextNode_tally : ∀ (n : Node M H) (key : List Str) (ps : HMap Str Str) (mws : List M) (brk : Bool),
    SearchTally p mws (tallyL p n.children) (n.getNextNode key ps mws brk)
  | .mk _ _ cs, [], _, _, _ => by unfold Node.getNextNode; trivial
  | .mk _ _ cs, curr :: key, ps, mws, brk => by
    unfold Node.getNextNode
    exact getNextLoop_tally cs curr key ps mws brk
theorem getNextLoop_tally : ∀ (cs : List (Node M H)) (curr : Str) (key : List Str) (ps : HMap Str Str) (mws : List M)
    (brk : Bool), SearchTally p mws (tallyL p cs) (Node.getNextLoop cs curr key ps mws brk)
  | [], _, _, _, _, _ => by unfold Node.getNextLoop; exact rfl
  | node :: rest, curr, key, ps, mws, brk => by
    have ht := tally_eq (p := p) node
    have hm := tally_mws (p := p) node
    have next := fun k q => searchTally_mono (b' := tallyL p (node :: rest)) (by simp only [tallyL]; omega)
      (getNextLoop_tally rest curr k q mws brk)
    have here : ∀ (v : RouteValue M H) (q : HMap Str Str), node.value = some v →
        SearchTally p mws (tallyL p (node :: rest)) (.found node q (mws ++ v.middlewares)) := by
      intro v q hv
      rw [hv] at ht
      simp only [tallyV] at ht
      simp only [SearchTally, List.countP_append, tallyL]; omega
    have below : ∀ (k : List Str) (b : Bool) (g : HMap Str Str → HMap Str Str), SearchTally p mws (tallyL p (node :: rest))
        (match node.getNextNode k ps mws b with
        | .panic p => .panic p
        | .found n params mws => .found n (g params) (mws ++ node.mws)
        | .notFound key params mws => Node.getNextLoop rest curr key params mws brk) := by
      intro k b g
      have ih := getNextNode_tally node k ps mws b
      revert ih
      cases node.getNextNode k ps mws b with
      | panic p => intro _; trivial
      | found n params mws' =>
        intro ih
        simp only [SearchTally] at ih
        simp only [SearchTally, List.countP_append, tallyL]; omega
      | notFound key' params mws' =>
        intro ih
        simp only [SearchTally] at ih
        subst ih
        exact next key' params
    unfold Node.getNextLoop
    split
    · split
      · trivial
      · next name _ =>
        split
        · split
          · next v hv => exact here v _ hv
          · exact next _ _
        · exact below key false (fun params => params.insert name curr)
    · split
      · simp only [SearchTally, List.countP_append, tallyL]; omega
      · dsimp only
        split
        · split
          · trivial
          · split
            · exact below _ true id
            · exact next _ _
        · split
          · split
            · split
              · next v hv => exact here v _ hv
              · split
                · next child hc =>
                  have := starChild_tally (p := p) hc
                  simp only [SearchTally, List.countP_append, tallyL]; omega
                · exact next _ _
            · exact below key false id
          · exact next _ _
end

end Obsidian.Proofs
