import Verif.Spec.Letters
import Verif.Spec.Calls
import Verif.Spec.Observe
import Verif.Proofs.Str
import Verif.Proofs.Program

/-
The tree with other characters: every function of the model commutes with them.
-/
namespace Obsidian.Spec
open Obsidian
variable {M H : Type} {σ : Char → Char}

/-! ### Texts -/

theorem Letters.eq_iff (h : Letters σ) {s t : Str} : spell σ s = spell σ t ↔ s = t :=
  ⟨fun e => (List.map_inj_right (fun c d => h.inj c d)).1 e, fun e => by rw [e]⟩

theorem Letters.char_iff (h : Letters σ) {c d : Char} (hd : σ d = d) : σ c = d ↔ c = d :=
  ⟨fun e => h.inj c d (e.trans hd.symm), fun e => by rw [e, hd]⟩

theorem Letters.mem_iff (h : Letters σ) {c : Char} (hc : σ c = c) {s : Str} : c ∈ spell σ s ↔ c ∈ s := by
  rw [List.mem_map]
  constructor
  · rintro ⟨d, hd, e⟩; rw [← (h.char_iff hc).1 e]; exact hd
  · intro hm; exact ⟨c, hm, hc⟩

theorem lcp_spell (h : Letters σ) (s t : Str) : lcp (spell σ s) (spell σ t) = spell σ (lcp s t) := by
  induction s generalizing t with
  | nil => simp [lcp]
  | cons a s ih =>
    cases t with
    | nil => simp [lcp]
    | cons b t =>
      by_cases hab : b = a
      · subst hab
        simp only [spell, List.map_cons, lcp, if_pos]
        rw [ih t]
      · have : σ b ≠ σ a := fun e => hab (h.inj _ _ e)
        simp [spell, lcp, hab, this]

theorem star_iff (h : Letters σ) {s : Str} : spell σ s = ['*'] ↔ s = ['*'] := by
  rw [← h.eq_iff (s := s), show spell σ ['*'] = ['*'] by simp [spell, h.star]]

theorem startsColon_spell (h : Letters σ) (s : Str) : Node.startsColon (spell σ s) = Node.startsColon s := by
  cases s with
  | nil => rfl
  | cons c s =>
    rw [Bool.eq_iff_iff]
    simp only [Node.startsColon, spell, List.map_cons, List.headD_cons, beq_iff_eq]
    exact h.char_iff h.colon

theorem splitSlash_spell (h : Letters σ) (s : Str) : splitSlash (spell σ s) = (splitSlash s).map (spell σ) := by
  induction s with
  | nil => rfl
  | cons c s ih =>
    by_cases hc : c = '/'
    · subst hc; simp only [spell, List.map_cons, splitSlash, h.slash, if_true]; rw [ih]; rfl
    · have : σ c ≠ '/' := fun e => hc ((h.char_iff h.slash).1 e)
      simp only [spell, List.map_cons, splitSlash, if_neg hc, if_neg this]
      rw [show splitSlash (List.map σ s) = _ from ih]
      cases splitSlash s <;> rfl

theorem segs_spell (h : Letters σ) (s : Str) : segs (spell σ s) = (segs s).map (spell σ) := by
  rw [segs, segs, splitSlash_spell h, List.filter_map]
  congr 2
  funext k
  simp [Function.comp]

/-- The counts that the tree works with are byte lengths of common beginnings. -/
theorem match_left {nk key : Str} : matchCount nk key = byteLen nk ↔ nk <+: key := by
  rw [matchCount_eq, lcp_eq_left]

theorem match_right {nk key : Str} : matchCount nk key = byteLen key ↔ key <+: nk := by
  rw [matchCount_eq, lcp_eq_right]

theorem match_zero {nk key : Str} : matchCount nk key = 0 ↔ lcp nk key = [] := by
  rw [matchCount_eq, byteLen_eq_zero]

theorem prefix_spell (h : Letters σ) {s t : Str} : spell σ s <+: spell σ t ↔ s <+: t := by
  rw [← lcp_eq_left, ← lcp_eq_left (s := s), lcp_spell h]
  constructor
  · intro e
    have := prefix_eq_of_byteLen ((lcp_prefix_left s t).map σ) e
    rw [h.eq_iff.1 this]
  · intro e
    rw [prefix_eq_of_byteLen (lcp_prefix_left s t) e]

theorem match_left_spell (h : Letters σ) {nk key : Str} :
    matchCount (spell σ nk) (spell σ key) = byteLen (spell σ nk) ↔ matchCount nk key = byteLen nk := by
  rw [match_left, match_left, prefix_spell h]

theorem match_right_spell (h : Letters σ) {nk key : Str} :
    matchCount (spell σ nk) (spell σ key) = byteLen (spell σ key) ↔ matchCount nk key = byteLen key := by
  rw [match_right, match_right, prefix_spell h]

theorem match_zero_spell (h : Letters σ) {nk key : Str} :
    matchCount (spell σ nk) (spell σ key) = 0 ↔ matchCount nk key = 0 := by
  rw [match_zero, match_zero, lcp_spell h]; simp

theorem slice_spell {p k : Str} (hp : p <+: k) :
    sliceFrom (spell σ k) (byteLen (spell σ p)) = (sliceFrom k (byteLen p)).map (spell σ) ∧
    sliceTo (spell σ k) (byteLen (spell σ p)) = (sliceTo k (byteLen p)).map (spell σ) := by
  obtain ⟨r, rfl⟩ := hp
  rw [sliceFrom_append, sliceTo_append, spell, List.map_append]
  exact ⟨sliceFrom_append _ _, sliceTo_append _ _⟩

/-! ### Nodes -/

mutual
def spellNode (σ : Char → Char) : Node M H → Node M H
  | .mk k v cs => .mk (spell σ k) v (spellNodes σ cs)
def spellNodes (σ : Char → Char) : List (Node M H) → List (Node M H)
  | [] => []
  | n :: ns => spellNode σ n :: spellNodes σ ns
end

@[simp] theorem spellNode_key (n : Node M H) : (spellNode σ n).key = spell σ n.key := by
  cases n; simp only [spellNode, Node.key]
@[simp] theorem spellNode_value (n : Node M H) : (spellNode σ n).value = n.value := by
  cases n; simp only [spellNode, Node.value]
@[simp] theorem spellNode_children (n : Node M H) : (spellNode σ n).children = spellNodes σ n.children := by
  cases n; simp only [spellNode, Node.children]
@[simp] theorem spellNode_setValue (n : Node M H) (v : Option (RouteValue M H)) :
    spellNode σ (n.setValue v) = (spellNode σ n).setValue v := by
  cases n; simp only [spellNode, Node.setValue]

theorem spellNodes_append (as bs : List (Node M H)) : spellNodes σ (as ++ bs) = spellNodes σ as ++ spellNodes σ bs := by
  induction as with
  | nil => simp only [spellNodes, List.nil_append]
  | cons a as ih => simp only [List.cons_append, spellNodes, ih]

theorem spellNodes_get (cs : List (Node M H)) (i : Nat) : (spellNodes σ cs)[i]? = cs[i]?.map (spellNode σ) := by
  induction cs generalizing i with
  | nil => simp [spellNodes]
  | cons c cs ih => cases i <;> simp [spellNodes, ih]

theorem isParam_spell (h : Letters σ) (n : Node M H) : (spellNode σ n).isParam = n.isParam := by
  rw [Node.isParam, spellNode_key, startsColon_spell h, Node.isParam]

def spellOut (σ : Char → Char) : Out (Node M H) → Out (Node M H)
  | (n, p) => (spellNode σ n, p.map (spellPanic σ))

def spellOuts (σ : Char → Char) : Out (List (Node M H)) → Out (List (Node M H))
  | (n, p) => (spellNodes σ n, p.map (spellPanic σ))

/-- The same continuation. -/
def SameCont (σ : Char → Char) (f f' : Node M H → Out (Node M H)) : Prop := ∀ n, f' (spellNode σ n) = spellOut σ (f n)

/-! ### Insertion -/

/-- The same action, with the counts that belong to the characters. -/
inductive SameAct (σ : Char → Char) (key : Str) (cs : List (Node M H)) : Nat → Action → Action → Prop
  | next (k i) : SameAct σ key cs k (.nextNode i) (.nextNode i)
  | new (k) : SameAct σ key cs k .createNewNode .createNewNode
  | error (k i) : SameAct σ key cs k (.error i) (.error i)
  | splitKey (k i) (p : Str) : p <+: key → SameAct σ key cs k (.splitKey (byteLen p) i) (.splitKey (byteLen (spell σ p)) i)
  | splitNode (k i) (p : Str) (n : Node M H) : p <+: key → p <+: n.key → cs[i]? = some n →
      SameAct σ key cs k (.splitNode (byteLen p) (k + i)) (.splitNode (byteLen (spell σ p)) (k + i))

theorem action_spell (h : Letters σ) (key : Str) (cs : List (Node M H)) (k : Nat) :
    SameAct σ key cs k (Node.insertionActionFrom key cs k)
      (Node.insertionActionFrom (spell σ key) (spellNodes σ cs) k) := by
  induction cs generalizing k with
  | nil => simp only [spellNodes, Node.insertionActionFrom]; exact .new k
  | cons n cs ih =>
    simp only [spellNodes, Node.insertionActionFrom, isParam_spell h, startsColon_spell h, spellNode_key, h.eq_iff]
    split
    · split
      · exact .next k k
      · exact .error k k
    · simp only [match_left_spell h, match_right_spell h, ne_eq, match_zero_spell h]
      split
      · exact .next k k
      · split
        · rw [matchCount_eq, matchCount_eq, lcp_spell h]
          exact .splitKey k k _ (lcp_prefix_right _ _)
        · split
          · rw [matchCount_eq, matchCount_eq, lcp_spell h]
            exact .splitNode k 0 _ n (lcp_prefix_right _ _) (lcp_prefix_left _ _) rfl
          · have := ih (k + 1)
            generalize Node.insertionActionFrom key cs (k + 1) = a at this
            generalize Node.insertionActionFrom (spell σ key) (spellNodes σ cs) (k + 1) = b at this
            cases this with
            | next => exact .next k _
            | new => exact .new k
            | error => exact .error k _
            | splitKey _ p hp => exact .splitKey k _ p hp
            | splitNode i p m hp hp' hm =>
              rw [show k + 1 + i = k + (i + 1) by omega]
              exact .splitNode k (i + 1) p m hp hp' hm

theorem modifyChild_spell {f f' : Node M H → Out (Node M H)} {cs : List (Node M H)} {i : Nat}
    (hf : ∀ n, cs[i]? = some n → f' (spellNode σ n) = spellOut σ (f n)) :
    Node.modifyChild f' (spellNodes σ cs) i = spellOuts σ (Node.modifyChild f cs i) := by
  induction cs generalizing i with
  | nil => rfl
  | cons c cs ih =>
    cases i with
    | zero =>
      simp only [spellNodes, Node.modifyChild]
      rw [hf c rfl]
      cases f c; simp only [spellOut, spellOuts, spellNodes]
    | succ i =>
      simp only [spellNodes, Node.modifyChild]
      rw [ih (i := i) (fun n hn => hf n (by simpa using hn))]
      cases Node.modifyChild f cs i; simp only [spellOuts, spellNodes]

theorem new_spell (k : Str) : (Node.new (spell σ k) none : Node M H) = spellNode σ (Node.new k none) := by
  simp only [Node.new, spellNode, spellNodes]

theorem splitNode_spell {f f' : Node M H → Out (Node M H)} (hf : SameCont σ f f') {key p : Str} {n : Node M H}
    (hp : p <+: key) (hp' : p <+: n.key) :
    Node.splitNode (byteLen (spell σ p)) (spell σ key) f' (spellNode σ n) =
      spellOut σ (Node.splitNode (byteLen p) key f n) := by
  obtain ⟨r, rfl⟩ := hp
  obtain ⟨r', hr⟩ := hp'
  have e1 : sliceFrom (spellNode σ n).key (byteLen (spell σ p)) = some (spell σ r') := by
    rw [spellNode_key, ← hr, spell, List.map_append]; exact sliceFrom_append _ _
  have e2 : sliceFrom (spell σ (p ++ r)) (byteLen (spell σ p)) = some (spell σ r) := by
    rw [spell, List.map_append]; exact sliceFrom_append _ _
  have e3 : sliceTo (spell σ (p ++ r)) (byteLen (spell σ p)) = some (spell σ p) := by
    rw [spell, List.map_append]; exact sliceTo_append _ _
  have d1 : sliceFrom n.key (byteLen p) = some r' := by rw [← hr]; exact sliceFrom_append _ _
  have d2 : sliceFrom (p ++ r) (byteLen p) = some r := sliceFrom_append _ _
  have d3 : sliceTo (p ++ r) (byteLen p) = some p := sliceTo_append _ _
  simp only [Node.splitNode, e1, e2, e3, d1, d2, d3, List.map_eq_nil_iff]
  split
  · rw [← hf]
    congr 1
    simp only [spellNode, spellNodes, spellNode_value, spellNode_children]
  · rw [new_spell, hf]
    cases f (Node.new r none)
    simp only [spellOut, spellNode, spellNodes, spellNode_value, spellNode_children]

mutual
theorem process_spell (h : Letters σ) (path : Str) {f f' : Node M H → Out (Node M H)} (hf : SameCont σ f f') :
    ∀ (n : Node M H) (key : Str), Node.processInsertion (spell σ path) (spellNode σ n) (spell σ key) f' =
      spellOut σ (Node.processInsertion path n key f)
  | .mk k v cs, key => by
    rw [spellNode, Node.processInsertion, Node.processInsertion, Node.insertionAction, Node.insertionAction]
    have hact := action_spell h key cs 0
    generalize Node.insertionActionFrom key cs 0 = a at hact
    generalize Node.insertionActionFrom (spell σ key) (spellNodes σ cs) 0 = b at hact
    cases hact with
    | next i =>
      simp only [modifyChild_spell (f := f) (f' := f') (cs := cs) (i := i) fun n _ => hf n]
      cases Node.modifyChild f cs i
      simp only [spellOuts, spellOut, spellNode]
    | new =>
      have hn := hf (Node.new key none)
      simp only [star_iff h, new_spell, hn]
      split
      · cases f (Node.new key none); simp only [spellOut, spellNode, spellNodes_append, spellNodes]
      · cases f (Node.new key none); simp only [spellOut, spellNode, spellNodes]
    | error i =>
      simp only [spellNodes_get]
      cases cs[i]? with
      | none => simp only [Option.map_none, spellOut, spellNode, Option.map_some, spellPanic]
      | some n => simp only [Option.map_some, spellOut, spellNode, spellPanic, spellNode_key]
    | splitKey i p hp =>
      simp only [(slice_spell (σ := σ) hp).1]
      cases hs : sliceFrom key (byteLen p) with
      | none => simp only [Option.map_none, spellOut, spellNode, Option.map_some, spellPanic]
      | some key' =>
        simp only [Option.map_some]
        rw [processAt_spell h path hf cs i key']
        cases Node.processInsertionAt path cs i key' f
        simp only [spellOuts, spellOut, spellNode]
    | splitNode i p n hp hp' hn =>
      simp only [Nat.zero_add]
      rw [modifyChild_spell (f := Node.splitNode (byteLen p) key f) (cs := cs) (i := i)
        fun m hm => splitNode_spell hf hp (by rw [hn] at hm; injection hm with hm; rw [← hm]; exact hp')]
      cases Node.modifyChild (Node.splitNode (byteLen p) key f) cs i
      simp only [spellOuts, spellOut, spellNode]
theorem processAt_spell (h : Letters σ) (path : Str) {f f' : Node M H → Out (Node M H)} (hf : SameCont σ f f') :
    ∀ (cs : List (Node M H)) (i : Nat) (key : Str),
      Node.processInsertionAt (spell σ path) (spellNodes σ cs) i (spell σ key) f' =
        spellOuts σ (Node.processInsertionAt path cs i key f)
  | [], _, _ => by
    simp only [spellNodes, Node.processInsertionAt, spellOuts, Option.map_some, spellPanic]
  | c :: cs, 0, key => by
    simp only [spellNodes, Node.processInsertionAt, process_spell h path hf c key]
    cases Node.processInsertion path c key f; simp only [spellOut, spellOuts, spellNodes]
  | c :: cs, i + 1, key => by
    simp only [spellNodes, Node.processInsertionAt, processAt_spell h path hf cs i key]
    cases Node.processInsertionAt path cs i key f; simp only [spellOuts, spellNodes]
end

theorem insertLoop_spell (h : Letters σ) (path : Str) {f f' : Node M H → Out (Node M H)} (hf : SameCont σ f f')
    (ks : List Str) (n : Node M H) :
    Node.insertLoop (spell σ path) f' (ks.map (spell σ)) (spellNode σ n) = spellOut σ (Node.insertLoop path f ks n) := by
  induction ks generalizing n with
  | nil => rfl
  | cons k ks ih =>
    cases ks with
    | nil => exact process_spell h path hf n k
    | cons k' ks => exact process_spell h path (fun m => ih m) n k

theorem checkStars_spell (h : Letters σ) (path : Str) : checkStars (spell σ path) = (checkStars path).map (spellPanic σ) := by
  rw [checkStars, checkStars, segs_spell h, List.length_map]
  generalize (segs path).length = t
  generalize 0 = pos
  induction segs path generalizing pos with
  | nil => rfl
  | cons x xs ih =>
    simp only [List.map_cons, checkStarsFrom, h.mem_iff h.star]
    by_cases hx : '*' ∈ x
    · rw [if_pos hx, if_pos hx]
      have e : byteLen (spell σ x) ≠ 1 ↔ byteLen x ≠ 1 :=
        not_congr (by rw [byteLen_star hx, byteLen_star ((h.mem_iff h.star).2 hx), star_iff h])
      by_cases h1 : byteLen x ≠ 1
      · rw [if_pos h1, if_pos (e.2 h1)]; rfl
      · rw [if_neg h1, if_neg fun h' => h1 (e.1 h')]
        split
        · rfl
        · exact ih _
    · rw [if_neg hx, if_neg hx]; exact ih _

def spellTrie (σ : Char → Char) (t : RouteTrie M H) : RouteTrie M H := ⟨spellNode σ t.head⟩

def spellRouter (σ : Char → Char) (r : Router M H) : Router M H := ⟨spellTrie σ r.routes⟩

def spellRun (σ : Char → Char) : Out (Router M H) → Out (Router M H)
  | (r, p) => (spellRouter σ r, p.map (spellPanic σ))

theorem addRoute_spell (path : Str) (r : Route H) :
    SameCont σ (RouteTrie.addRouteNode (M := M) path r) (RouteTrie.addRouteNode (spell σ path) r) := by
  intro n
  simp only [RouteTrie.addRouteNode, spellNode_value]
  cases n.value with
  | none =>
    simp only
    cases (RouteValue.default : RouteValue M H).route.addRoute r.method r with
    | mk res d => cases d <;> simp [spellOut, spellPanic]
  | some v =>
    simp only
    cases v.route.addRoute r.method r with
    | mk res d => cases d <;> simp [spellOut, spellPanic]

theorem pushMiddleware_spell (m : M) (n : Node M H) :
    RouteTrie.pushMiddleware m (spellNode σ n) = spellNode σ (RouteTrie.pushMiddleware m n) := by
  simp only [RouteTrie.pushMiddleware, spellNode_value]
  cases n.value <;> simp

theorem graft_spell (path : Str) (src : RouteTrie M H) :
    SameCont σ (RouteTrie.graft path src) (RouteTrie.graft (spell σ path) (spellTrie σ src)) := by
  intro n
  have : (spellNodes σ n.children).isEmpty = n.children.isEmpty := by
    cases n.children <;> simp [spellNodes]
  simp only [RouteTrie.graft, spellNode_value, spellNode_children, this]
  split
  · simp [spellOut, spellPanic]
  · simp [spellOut, spellNode, spellTrie]

theorem segs_nil_spell (h : Letters σ) (path : Str) : segs (spell σ path) = [] ↔ segs path = [] := by
  rw [segs_spell h, List.map_eq_nil_iff]

theorem insertRoute_spell (h : Letters σ) (r : Router M H) (m : Method) (path : Str) (k : H) :
    (spellRouter σ r).insertRoute m (spell σ path) k = spellRun σ (r.insertRoute m path k) := by
  simp only [Router.insertRoute, RouteTrie.insertRoute, checkStars_spell h, segs_nil_spell h]
  cases checkStars path with
  | some p => rfl
  | none =>
    simp only [Option.map_none]
    split
    · simp only [RouteTrie.insertDefaultRoute, spellRouter, spellTrie]
      have := addRoute_spell (M := M) (σ := σ) ['/'] ⟨m, k⟩ r.routes.head
      rw [show spell σ ['/'] = ['/'] by simp [spell, h.slash]] at this
      rw [this]
      cases RouteTrie.addRouteNode ['/'] (⟨m, k⟩ : Route H) r.routes.head
      simp only [spellOut, spellRun, spellRouter, spellTrie]
    · simp only [spellRouter, spellTrie, segs_spell h, insertLoop_spell h path (addRoute_spell path ⟨m, k⟩)]
      cases Node.insertLoop path (RouteTrie.addRouteNode path (⟨m, k⟩ : Route H)) (segs path) r.routes.head
      simp only [spellOut, spellRun, spellRouter, spellTrie]

theorem useServiceTo_spell (h : Letters σ) (r : Router M H) (path : Str) (m : M) :
    (spellRouter σ r).useServiceTo (spell σ path) m = spellRun σ (r.useServiceTo path m) := by
  simp only [Router.useServiceTo, RouteTrie.insertMiddleware, checkStars_spell h]
  cases checkStars path with
  | some p => rfl
  | none =>
    simp only [Option.map_none]
    have hf : SameCont σ (fun n : Node M H => (RouteTrie.pushMiddleware m n, none))
        (fun n => (RouteTrie.pushMiddleware m n, none)) := fun n => by
      simp only [pushMiddleware_spell, spellOut, Option.map_none]
    simp only [spellRouter, spellTrie, segs_spell h, insertLoop_spell h path hf]
    cases Node.insertLoop path (fun n : Node M H => (RouteTrie.pushMiddleware m n, none)) (segs path) r.routes.head
    simp only [spellOut, spellRun, spellRouter, spellTrie]

theorem useRouter_spell (h : Letters σ) (r other : Router M H) (path : Str) :
    (spellRouter σ r).useRouter (spell σ path) (spellRouter σ other) = spellRun σ (r.useRouter path other) := by
  simp only [Router.useRouter, RouteTrie.insertSubRoute, checkStars_spell h, segs_nil_spell h]
  cases checkStars path with
  | some p => rfl
  | none =>
    simp only [Option.map_none]
    split
    · rfl
    · have := insertLoop_spell h path (graft_spell path other.routes) (segs path) r.routes.head
      simp only [spellRouter, segs_spell h]
      rw [show (spellTrie σ r.routes).head = spellNode σ r.routes.head from rfl, this]
      cases Node.insertLoop path (RouteTrie.graft path other.routes) (segs path) r.routes.head
      simp only [spellOut, spellRun, spellRouter, spellTrie]

theorem new_router_spell (h : Letters σ) : spellRouter σ (Router.new : Router M H) = Router.new := by
  simp only [spellRouter, spellTrie, Router.new, RouteTrie.new, Node.new, spellNode, spellNodes, spell,
    List.map_cons, List.map_nil, h.slash]

mutual
theorem run_spell (h : Letters σ) : ∀ (c : Reg M H) (r : Router M H),
    (spellReg σ c).run (spellRouter σ r) = spellRun σ (c.run r)
  | .get _ _, r | .post _ _, r | .put _ _, r | .patch _ _, r | .delete _ _, r => by
    simp only [spellReg, Reg.run]; exact insertRoute_spell h ..
  | .useService m, r => by
    simp only [spellReg, Reg.run, Router.useService, RouteTrie.insertDefaultMiddleware, spellRouter, spellTrie,
      pushMiddleware_spell, spellRun, Option.map_none]
  | .useServiceTo p m, r => by simp only [spellReg, Reg.run]; exact useServiceTo_spell h ..
  | .useRouter p sub, r => by
    have := runs_spell h sub Router.new
    rw [new_router_spell h] at this
    simp only [spellReg, Reg.run, this]
    cases runRegs sub Router.new with
    | mk s e =>
      cases e with
      | none => exact useRouter_spell h r s p
      | some e => rfl
  | .scope n sub, r => by
    have := runs_spell h sub Router.new
    rw [new_router_spell h] at this
    simp only [spellReg, Reg.run, this]
    cases runRegs sub Router.new with
    | mk s e =>
      cases e with
      | none =>
        have := useRouter_spell h r s ('/' :: n)
        rw [show spell σ ('/' :: n) = '/' :: spell σ n by simp [spell, h.slash]] at this
        exact this
      | some e => rfl
theorem runs_spell (h : Letters σ) : ∀ (cs : List (Reg M H)) (r : Router M H),
    runRegs (spellRegs σ cs) (spellRouter σ r) = spellRun σ (runRegs cs r)
  | [], _ => rfl
  | c :: cs, r => by
    simp only [spellRegs, runRegs, run_spell h c r]
    cases c.run r with
    | mk r' e =>
      cases e with
      | none => exact runs_spell h cs r'
      | some e => rfl
end

theorem build_spell (h : Letters σ) (prog : List (Reg M H)) : build (spellRegs σ prog) = spellRun σ (build prog) := by
  have := runs_spell h prog Router.new
  rwa [new_router_spell h] at this

theorem caught_spell (h : Letters σ) (cs : List (Reg M H)) (r : Router M H) :
    runCaught (spellRegs σ cs) (spellRouter σ r) = spellRouter σ (runCaught cs r) := by
  induction cs generalizing r with
  | nil => rfl
  | cons c cs ih =>
    simp only [spellRegs, runCaught, run_spell h c r]
    exact ih _

/-! ### Lookup -/

/-- Parameters with the other characters. -/
def spellParams (σ : Char → Char) (m : HMap Str Str) : HMap Str Str :=
  ⟨m.entries.map fun e => (spell σ e.1, spell σ e.2)⟩

theorem insert_map {K V : Type} [DecidableEq K] {f : K → K} (hf : ∀ a b, f a = f b → a = b) (g : V → V)
    (es : List (K × V)) (k : K) (v : V) :
    (⟨es.map fun e => (f e.1, g e.2)⟩ : HMap K V).insert (f k) (g v) =
      ⟨((⟨es⟩ : HMap K V).insert k v).entries.map fun e => (f e.1, g e.2)⟩ := by
  simp only [HMap.insert, List.map_cons, List.filter_map]
  congr 3
  refine List.filter_congr fun e _ => ?_
  have : (f e.1 == f k) = (e.1 == k) := by
    rw [Bool.eq_iff_iff, beq_iff_eq, beq_iff_eq]; exact ⟨hf _ _, fun h => by rw [h]⟩
  simp only [Function.comp, this]

theorem get_map {K V : Type} [DecidableEq K] {f : K → K} (hf : ∀ a b, f a = f b → a = b) (g : V → V)
    (es : List (K × V)) (k : K) :
    (⟨es.map fun e => (f e.1, g e.2)⟩ : HMap K V).get (f k) = ((⟨es⟩ : HMap K V).get k).map g := by
  simp only [HMap.get]
  induction es with
  | nil => rfl
  | cons e es ih =>
    have : (f k == f e.1) = (k == e.1) := by
      rw [Bool.eq_iff_iff, beq_iff_eq, beq_iff_eq]; exact ⟨hf _ _, fun h => by rw [h]⟩
    simp only [List.map_cons, List.lookup, this]
    cases (k == e.1)
    · exact ih
    · rfl

theorem insert_spell (h : Letters σ) (m : HMap Str Str) (k v : Str) :
    (spellParams σ m).insert (spell σ k) (spell σ v) = spellParams σ (m.insert k v) :=
  insert_map (fun _ _ => h.eq_iff.1) (spell σ) m.entries k v

theorem get_spell (h : Letters σ) (m : HMap Str Str) (k : Str) :
    (spellParams σ m).get (spell σ k) = (m.get k).map (spell σ) :=
  get_map (fun _ _ => h.eq_iff.1) (spell σ) m.entries k

def spellSearch (σ : Char → Char) : Search M H → Search M H
  | .panic p => .panic (spellPanic σ p)
  | .notFound key ps ms => .notFound (key.map (spell σ)) (spellParams σ ps) ms
  | .found n ps ms => .found (spellNode σ n) (spellParams σ ps) ms

theorem mws_spell (n : Node M H) : (spellNode σ n).mws = n.mws := by
  simp only [Node.mws, spellNode_value]

theorem starChild_spell (h : Letters σ) (cs : List (Node M H)) :
    Node.starChild (spellNodes σ cs) = (Node.starChild cs).map (spellNode σ) := by
  induction cs with
  | nil => rfl
  | cons c cs ih =>
    simp only [spellNodes, Node.starChild, spellNode_key, spellNode_value, star_iff h]
    split
    · rfl
    · exact ih

theorem paramName_spell (h : Letters σ) {n : Node M H} (hn : n.isParam = true) :
    ∃ x, sliceFrom n.key 1 = some x ∧ sliceFrom (spellNode σ n).key 1 = some (spell σ x) := by
  rw [spellNode_key]
  rw [Node.isParam, Node.startsColon] at hn
  cases hk : n.key with
  | nil => rw [hk] at hn; simp at hn
  | cons c x =>
    rw [hk] at hn
    simp at hn
    subst hn
    refine ⟨x, sliceFrom_append [':'] x, ?_⟩
    rw [spell, List.map_cons, h.colon]
    exact sliceFrom_append [':'] _

theorem rest_spell {k curr : Str} (hk : matchCount k curr = byteLen k) :
    sliceFrom (spell σ curr) (byteLen (spell σ k)) = (sliceFrom curr (byteLen k)).map (spell σ) :=
  (slice_spell (match_left.1 hk)).1

mutual
theorem getNext_spell (h : Letters σ) : ∀ (n : Node M H) (key : List Str) (ps : HMap Str Str) (ms : List M) (brk : Bool),
    Node.getNextNode (spellNode σ n) (key.map (spell σ)) (spellParams σ ps) ms brk =
      spellSearch σ (Node.getNextNode n key ps ms brk)
  | .mk k v cs, [], ps, ms, brk => by
    simp only [spellNode, List.map_nil, Node.getNextNode, spellSearch, spellPanic]
  | .mk k v cs, curr :: key, ps, ms, brk => by
    simp only [spellNode, List.map_cons, Node.getNextNode]
    exact getLoop_spell h cs curr key ps ms brk
theorem getLoop_spell (h : Letters σ) : ∀ (cs : List (Node M H)) (curr : Str) (key : List Str) (ps : HMap Str Str)
    (ms : List M) (brk : Bool),
    Node.getNextLoop (spellNodes σ cs) (spell σ curr) (key.map (spell σ)) (spellParams σ ps) ms brk =
      spellSearch σ (Node.getNextLoop cs curr key ps ms brk)
  | [], curr, key, ps, ms, brk => by simp only [spellNodes, Node.getNextLoop, spellSearch]
  | n :: cs, curr, key, ps, ms, brk => by
    have hloop := getLoop_spell h cs
    have hnode := getNext_spell h n
    rw [spellNodes, Node.getNextLoop, Node.getNextLoop, isParam_spell h]
    simp only [spellNode_key, star_iff h, List.isEmpty_map]
    by_cases c1 : (!brk && n.isParam) = true
    · rw [if_pos c1, if_pos c1]
      obtain ⟨x, e1, e2⟩ := paramName_spell h (n := n) (by simp at c1; exact c1.2)
      rw [spellNode_key] at e2
      simp only [e1, e2, spellNode_value]
      split
      · cases n.value with
        | none => exact hloop ..
        | some v => simp only [spellSearch, insert_spell h]
      · rw [hnode key ps ms false]
        cases Node.getNextNode n key ps ms false with
        | panic p => rfl
        | notFound key ps ms => exact hloop ..
        | found m ps ms => simp only [spellSearch, insert_spell h, mws_spell]
    · rw [if_neg c1, if_neg c1]
      split
      · simp only [spellSearch, mws_spell]
      · by_cases c2 : matchCount n.key curr = byteLen n.key ∧ matchCount n.key curr ≠ byteLen curr
        · rw [if_pos c2, if_pos ⟨(match_left_spell h).2 c2.1, fun e => c2.2 ((match_right_spell h).1 e)⟩]
          rw [(match_left_spell h).2 c2.1, c2.1, rest_spell c2.1]
          cases sliceFrom curr (byteLen n.key) with
          | none => rfl
          | some curr' =>
            simp only [Option.map_some]
            have hz : byteLen (spell σ n.key) ≠ 0 ↔ byteLen n.key ≠ 0 := by
              rw [Ne, Ne, byteLen_eq_zero, byteLen_eq_zero, List.map_eq_nil_iff]
            by_cases c3 : byteLen n.key ≠ 0
            · rw [if_pos c3, if_pos (hz.2 c3)]
              have := hnode (curr' :: key) ps ms true
              rw [List.map_cons] at this
              rw [this]
              cases Node.getNextNode n (curr' :: key) ps ms true with
              | panic p => rfl
              | notFound key ps ms => exact hloop ..
              | found m ps ms => simp only [spellSearch, mws_spell]
            · rw [if_neg c3, if_neg fun e => c3 (hz.1 e)]
              exact hloop curr (curr' :: key) ps ms brk
        · rw [if_neg c2, if_neg fun e => c2 ⟨(match_left_spell h).1 e.1, fun e' => e.2 ((match_right_spell h).2 e')⟩]
          by_cases c3 : matchCount n.key curr ≠ 0 ∧ matchCount n.key curr = byteLen n.key
          · rw [if_pos c3, if_pos ⟨fun e => c3.1 ((match_zero_spell h).1 e), (match_left_spell h).2 c3.2⟩]
            split
            · simp only [spellNode_value, spellNode_children, starChild_spell h]
              cases n.value with
              | some v => simp only [spellSearch]
              | none =>
                cases Node.starChild n.children with
                | none => exact hloop ..
                | some c => simp only [Option.map_some, spellSearch, mws_spell]
            · rw [hnode key ps ms false]
              cases Node.getNextNode n key ps ms false with
              | panic p => rfl
              | notFound key ps ms => exact hloop ..
              | found m ps ms => simp only [spellSearch, mws_spell]
          · rw [if_neg c3, if_neg fun e => c3 ⟨fun e' => e.1 ((match_zero_spell h).2 e'), (match_left_spell h).1 e.2⟩]
            exact hloop ..
end

def spellResult (σ : Char → Char) (v : RouteValueResult M H) : RouteValueResult M H := ⟨v.routeValue, spellParams σ v.params⟩

def spellLookup (σ : Char → Char) : Lookup (Option (RouteValueResult M H)) → Lookup (Option (RouteValueResult M H))
  | .panic p => .panic (spellPanic σ p)
  | .ok v => .ok (v.map (spellResult σ))

theorem finish_spell (n : Node M H) (ps : HMap Str Str) (ms : List M) :
    RouteTrie.finish (spellNode σ n) (spellParams σ ps) ms = (RouteTrie.finish n ps ms).map (spellResult σ) := by
  simp only [RouteTrie.finish, spellNode_value]
  cases n.value <;> rfl

theorem search_spell (h : Letters σ) (r : Router M H) (path : Str) :
    (spellRouter σ r).searchRoute (spell σ path) = spellLookup σ (r.searchRoute path) := by
  simp only [Router.searchRoute, RouteTrie.searchRoute, segs_nil_spell h, spellRouter, spellTrie, mws_spell]
  have he : (HMap.empty : HMap Str Str) = spellParams σ HMap.empty := rfl
  split
  · rw [spellLookup, ← finish_spell, ← he]
  · rw [segs_spell h]
    have := getNext_spell h r.routes.head (segs path) HMap.empty r.routes.head.mws false
    rw [← he] at this
    rw [this]
    cases Node.getNextNode r.routes.head (segs path) HMap.empty r.routes.head.mws false with
    | panic p => rfl
    | notFound key ps ms => rfl
    | found n ps ms => simp only [spellSearch, spellLookup, finish_spell]

/-- Lookups with the other characters. -/
theorem obs_spell (h : Letters σ) (r : Router M H) (path : Str) :
    isFound (spellRouter σ r) (spell σ path) = isFound r path ∧
    (∀ m, handlerFor (spellRouter σ r) m (spell σ path) = handlerFor r m path) ∧
    chainFor (spellRouter σ r) (spell σ path) = chainFor r path ∧
    ∀ x, paramFor (spellRouter σ r) (spell σ path) (spell σ x) = (paramFor r path x).map (spell σ) := by
  simp only [isFound, handlerFor, chainFor, paramFor, search_spell h]
  cases r.searchRoute path with
  | panic p => exact ⟨rfl, fun _ => rfl, rfl, fun _ => rfl⟩
  | ok v =>
    cases v with
    | none => exact ⟨rfl, fun _ => rfl, rfl, fun _ => rfl⟩
    | some v => exact ⟨rfl, fun _ => rfl, rfl, fun x => get_spell h v.params x⟩

end Obsidian.Spec
