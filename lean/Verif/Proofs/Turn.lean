import Verif.Spec.Turn
import Verif.Spec.Calls
import Verif.Spec.Observe
import Verif.Proofs.Letters

/-
The tree with other methods: every function of the model commutes with them.
-/
namespace Obsidian.Spec
open Obsidian
variable {M H : Type} {τ : Verb → Verb} {π : Method → Method}

/-! ### Nodes -/

def turnRoute (π : Method → Method) (r : Route H) : Route H := ⟨π r.method, r.handler⟩

def turnResource (π : Method → Method) (r : Resource H) : Resource H :=
  ⟨⟨r.routeMap.entries.map fun e => (π e.1, turnRoute π e.2)⟩⟩

def turnValue (π : Method → Method) (v : RouteValue M H) : RouteValue M H := ⟨v.middlewares, turnResource π v.route⟩

mutual
def turnNode (π : Method → Method) : Node M H → Node M H
  | .mk k v cs => .mk k (v.map (turnValue π)) (turnNodes π cs)
def turnNodes (π : Method → Method) : List (Node M H) → List (Node M H)
  | [] => []
  | n :: ns => turnNode π n :: turnNodes π ns
end

@[simp] theorem turnNode_key (n : Node M H) : (turnNode π n).key = n.key := by
  cases n; simp only [turnNode, Node.key]
@[simp] theorem turnNode_value (n : Node M H) : (turnNode π n).value = n.value.map (turnValue π) := by
  cases n; simp only [turnNode, Node.value]
@[simp] theorem turnNode_children (n : Node M H) : (turnNode π n).children = turnNodes π n.children := by
  cases n; simp only [turnNode, Node.children]
theorem turnNode_setValue (n : Node M H) (v : Option (RouteValue M H)) :
    turnNode π (n.setValue v) = (turnNode π n).setValue (v.map (turnValue π)) := by
  cases n; simp only [turnNode, Node.setValue]

theorem turnNodes_append (as bs : List (Node M H)) : turnNodes π (as ++ bs) = turnNodes π as ++ turnNodes π bs := by
  induction as with
  | nil => simp only [turnNodes, List.nil_append]
  | cons a as ih => simp only [List.cons_append, turnNodes, ih]

theorem turnNodes_get (cs : List (Node M H)) (i : Nat) : (turnNodes π cs)[i]? = cs[i]?.map (turnNode π) := by
  induction cs generalizing i with
  | nil => simp [turnNodes]
  | cons c cs ih => cases i <;> simp [turnNodes, ih]

theorem isParam_turn (n : Node M H) : (turnNode π n).isParam = n.isParam := by
  rw [Node.isParam, turnNode_key, Node.isParam]

def turnOut (π : Method → Method) : Out (Node M H) → Out (Node M H)
  | (n, p) => (turnNode π n, p.map (turnPanic π))

def turnOuts (π : Method → Method) : Out (List (Node M H)) → Out (List (Node M H))
  | (n, p) => (turnNodes π n, p.map (turnPanic π))

/-- The same continuation. -/
def TurnCont (π : Method → Method) (f f' : Node M H → Out (Node M H)) : Prop := ∀ n, f' (turnNode π n) = turnOut π (f n)

/-! ### Insertion -/

theorem action_turn (key : Str) (cs : List (Node M H)) (k : Nat) :
    Node.insertionActionFrom key (turnNodes π cs) k = Node.insertionActionFrom key cs k := by
  induction cs generalizing k with
  | nil => simp only [turnNodes, Node.insertionActionFrom]
  | cons n cs ih => simp only [turnNodes, Node.insertionActionFrom, isParam_turn, turnNode_key, ih]

theorem modifyChild_turn {f f' : Node M H → Out (Node M H)} (hf : TurnCont π f f') (cs : List (Node M H)) (i : Nat) :
    Node.modifyChild f' (turnNodes π cs) i = turnOuts π (Node.modifyChild f cs i) := by
  induction cs generalizing i with
  | nil => rfl
  | cons c cs ih =>
    cases i with
    | zero =>
      simp only [turnNodes, Node.modifyChild]
      rw [hf c]
      cases f c; simp only [turnOut, turnOuts, turnNodes]
    | succ i =>
      simp only [turnNodes, Node.modifyChild]
      rw [ih i]
      cases Node.modifyChild f cs i; simp only [turnOuts, turnNodes]

theorem new_turn (k : Str) : turnNode π (Node.new k none : Node M H) = Node.new k none := by
  simp only [Node.new, turnNode, turnNodes, Option.map_none]

theorem splitNode_turn {f f' : Node M H → Out (Node M H)} (hf : TurnCont π f f') (count : Nat) (key : Str) :
    TurnCont π (Node.splitNode count key f) (Node.splitNode count key f') := by
  intro n
  simp only [Node.splitNode, turnNode_key]
  split
  · next newKey _ _ _ _ =>
    split
    · rw [← hf]
      congr 1
      simp only [turnNode, turnNodes, turnNode_value, turnNode_children, Option.map_none]
    · have := hf (Node.new newKey none)
      rw [new_turn] at this
      rw [this]
      cases f (Node.new newKey none)
      simp only [turnOut, turnNode, turnNodes, turnNode_value, turnNode_children, Option.map_none]
  · simp only [turnOut, Option.map_some, turnPanic]

mutual
theorem process_turn (path : Str) {f f' : Node M H → Out (Node M H)} (hf : TurnCont π f f') :
    ∀ (n : Node M H) (key : Str), Node.processInsertion path (turnNode π n) key f' =
      turnOut π (Node.processInsertion path n key f)
  | .mk k v cs, key => by
    rw [turnNode, Node.processInsertion, Node.processInsertion, Node.insertionAction, Node.insertionAction, action_turn]
    cases Node.insertionActionFrom key cs 0 with
    | nextNode i =>
      simp only [modifyChild_turn hf]
      cases Node.modifyChild f cs i
      simp only [turnOuts, turnOut, turnNode]
    | createNewNode =>
      have hn := hf (Node.new key none)
      rw [new_turn] at hn
      simp only [hn]
      split
      · cases f (Node.new key none); simp only [turnOut, turnNode, turnNodes_append, turnNodes]
      · cases f (Node.new key none); simp only [turnOut, turnNode, turnNodes]
    | error i =>
      simp only [turnNodes_get]
      cases cs[i]? with
      | none => simp only [Option.map_none, turnOut, turnNode, Option.map_some, turnPanic]
      | some n => simp only [Option.map_some, turnOut, turnNode, turnPanic, turnNode_key]
    | splitKey count i =>
      simp only
      cases hs : sliceFrom key count with
      | none => simp only [turnOut, turnNode, Option.map_some, turnPanic]
      | some key' =>
        simp only
        rw [processAt_turn path hf cs i key']
        cases Node.processInsertionAt path cs i key' f
        simp only [turnOuts, turnOut, turnNode]
    | splitNode count i =>
      simp only
      rw [modifyChild_turn (splitNode_turn hf count key)]
      cases Node.modifyChild (Node.splitNode count key f) cs i
      simp only [turnOuts, turnOut, turnNode]
theorem processAt_turn (path : Str) {f f' : Node M H → Out (Node M H)} (hf : TurnCont π f f') :
    ∀ (cs : List (Node M H)) (i : Nat) (key : Str),
      Node.processInsertionAt path (turnNodes π cs) i key f' = turnOuts π (Node.processInsertionAt path cs i key f)
  | [], _, _ => by
    simp only [turnNodes, Node.processInsertionAt, turnOuts, Option.map_some, turnPanic]
  | c :: cs, 0, key => by
    simp only [turnNodes, Node.processInsertionAt, process_turn path hf c key]
    cases Node.processInsertion path c key f; simp only [turnOut, turnOuts, turnNodes]
  | c :: cs, i + 1, key => by
    simp only [turnNodes, Node.processInsertionAt, processAt_turn path hf cs i key]
    cases Node.processInsertionAt path cs i key f; simp only [turnOuts, turnNodes]
end

theorem insertLoop_turn (path : Str) {f f' : Node M H → Out (Node M H)} (hf : TurnCont π f f')
    (ks : List Str) (n : Node M H) :
    Node.insertLoop path f' ks (turnNode π n) = turnOut π (Node.insertLoop path f ks n) := by
  induction ks generalizing n with
  | nil => rfl
  | cons k ks ih =>
    cases ks with
    | nil => exact process_turn path hf n k
    | cons k' ks => exact process_turn path (fun m => ih m) n k

theorem checkStarsFrom_turn (path : Str) (t pos : Nat) (ss : List Str) :
    (checkStarsFrom path t ss pos).map (turnPanic π) = checkStarsFrom path t ss pos := by
  induction ss generalizing pos with
  | nil => rfl
  | cons x xs ih =>
    simp only [checkStarsFrom]
    split
    · split
      · rfl
      · split
        · rfl
        · exact ih _
    · exact ih _

theorem checkStars_turn (path : Str) : (checkStars path).map (turnPanic π) = checkStars path := by
  rw [checkStars]; exact checkStarsFrom_turn ..

def turnTrie (π : Method → Method) (t : RouteTrie M H) : RouteTrie M H := ⟨turnNode π t.head⟩

def turnRouter (π : Method → Method) (r : Router M H) : Router M H := ⟨turnTrie π r.routes⟩

def turnRun (π : Method → Method) : Out (Router M H) → Out (Router M H)
  | (r, p) => (turnRouter π r, p.map (turnPanic π))

theorem getRoute_turn (h : Turns τ π) (r : Resource H) (m : Method) :
    (turnResource π r).getRoute (π m) = (r.getRoute m).map (turnRoute π) :=
  get_map h.inj (turnRoute π) r.routeMap.entries m

theorem addRoute_resource (h : Turns τ π) (r : Resource H) (m : Method) (x : Route H) :
    (turnResource π r).addRoute (π m) (turnRoute π x) =
      (turnResource π (r.addRoute m x).1, (r.addRoute m x).2.map (turnRoute π)) := by
  have h1 := insert_map h.inj (turnRoute π) r.routeMap.entries m x
  have h2 := get_map h.inj (turnRoute π) r.routeMap.entries m
  simp only [Resource.addRoute, turnResource]
  rw [h1, h2]

theorem addRoute_turn (h : Turns τ π) (path : Str) (r : Route H) :
    TurnCont π (RouteTrie.addRouteNode (M := M) path r) (RouteTrie.addRouteNode path (turnRoute π r)) := by
  intro n
  simp only [RouteTrie.addRouteNode, turnNode_value]
  cases n.value with
  | none =>
    have := addRoute_resource h (RouteValue.default : RouteValue M H).route r.method r
    rw [show turnResource π (RouteValue.default : RouteValue M H).route = (RouteValue.default : RouteValue M H).route from rfl,
      show π r.method = (turnRoute π r).method from rfl] at this
    simp only [Option.map_none, this]
    cases (RouteValue.default : RouteValue M H).route.addRoute r.method r with
    | mk res d => cases d <;> simp [turnOut, turnPanic, turnRoute, turnNode_setValue, turnValue]
  | some v =>
    have := addRoute_resource h v.route r.method r
    rw [show π r.method = (turnRoute π r).method from rfl] at this
    simp only [Option.map_some, turnValue, this]
    cases v.route.addRoute r.method r with
    | mk res d => cases d <;> simp [turnOut, turnPanic, turnRoute, turnNode_setValue, turnValue]

theorem pushMiddleware_turn (m : M) (n : Node M H) :
    RouteTrie.pushMiddleware m (turnNode π n) = turnNode π (RouteTrie.pushMiddleware m n) := by
  simp only [RouteTrie.pushMiddleware, turnNode_value]
  cases n.value <;> simp [turnNode_setValue, turnValue, turnResource, Resource.default, HMap.empty]

theorem graft_turn (path : Str) (src : RouteTrie M H) :
    TurnCont π (RouteTrie.graft path src) (RouteTrie.graft path (turnTrie π src)) := by
  intro n
  have : (turnNodes π n.children).isEmpty = n.children.isEmpty := by
    cases n.children <;> simp [turnNodes]
  simp only [RouteTrie.graft, turnNode_value, turnNode_children, this, Option.isSome_map]
  split
  · simp [turnOut, turnPanic]
  · simp [turnOut, turnNode, turnTrie]

theorem insertRoute_turn (h : Turns τ π) (r : Router M H) (m : Method) (path : Str) (k : H) :
    (turnRouter π r).insertRoute (π m) path k = turnRun π (r.insertRoute m path k) := by
  simp only [Router.insertRoute, RouteTrie.insertRoute]
  have hs := checkStars_turn (π := π) path
  cases hc : checkStars path with
  | some p =>
    rw [hc] at hs
    simp only [Option.map_some, Option.some.injEq] at hs
    simp only [turnRun, Option.map_some, hs, turnRouter]
  | none =>
    simp only
    split
    · simp only [RouteTrie.insertDefaultRoute, turnRouter, turnTrie]
      rw [show (⟨π m, k⟩ : Route H) = turnRoute π ⟨m, k⟩ from rfl, addRoute_turn h]
      cases RouteTrie.addRouteNode ['/'] (⟨m, k⟩ : Route H) r.routes.head
      simp only [turnOut, turnRun, turnRouter, turnTrie]
    · simp only [turnRouter, turnTrie]
      rw [show (⟨π m, k⟩ : Route H) = turnRoute π ⟨m, k⟩ from rfl, insertLoop_turn path (addRoute_turn h path ⟨m, k⟩)]
      cases Node.insertLoop path (RouteTrie.addRouteNode path (⟨m, k⟩ : Route H)) (segs path) r.routes.head
      simp only [turnOut, turnRun, turnRouter, turnTrie]

theorem useServiceTo_turn (r : Router M H) (path : Str) (m : M) :
    (turnRouter π r).useServiceTo path m = turnRun π (r.useServiceTo path m) := by
  simp only [Router.useServiceTo, RouteTrie.insertMiddleware]
  have hs := checkStars_turn (π := π) path
  cases hc : checkStars path with
  | some p =>
    rw [hc] at hs
    simp only [Option.map_some, Option.some.injEq] at hs
    simp only [turnRun, Option.map_some, hs, turnRouter]
  | none =>
    have hf : TurnCont π (fun n : Node M H => (RouteTrie.pushMiddleware m n, none))
        (fun n => (RouteTrie.pushMiddleware m n, none)) := fun n => by
      simp only [pushMiddleware_turn, turnOut, Option.map_none]
    simp only [turnRouter, turnTrie, insertLoop_turn path hf]
    cases Node.insertLoop path (fun n : Node M H => (RouteTrie.pushMiddleware m n, none)) (segs path) r.routes.head
    simp only [turnOut, turnRun, turnRouter, turnTrie]

theorem useRouter_turn (r other : Router M H) (path : Str) :
    (turnRouter π r).useRouter path (turnRouter π other) = turnRun π (r.useRouter path other) := by
  simp only [Router.useRouter, RouteTrie.insertSubRoute]
  have hs := checkStars_turn (π := π) path
  cases hc : checkStars path with
  | some p =>
    rw [hc] at hs
    simp only [Option.map_some, Option.some.injEq] at hs
    simp only [turnRun, Option.map_some, hs, turnRouter]
  | none =>
    simp only
    split
    · rfl
    · have := insertLoop_turn path (graft_turn (π := π) path other.routes) (segs path) r.routes.head
      simp only [turnRouter]
      rw [show (turnTrie π r.routes).head = turnNode π r.routes.head from rfl, this]
      cases Node.insertLoop path (RouteTrie.graft path other.routes) (segs path) r.routes.head
      simp only [turnOut, turnRun, turnRouter, turnTrie]

theorem new_router_turn : turnRouter π (Router.new : Router M H) = Router.new := by
  simp only [turnRouter, turnTrie, Router.new, RouteTrie.new, Node.new, turnNode, turnNodes, Option.map_none]

theorem verb_run (v : Verb) (r : Router M H) (p : Str) (k : H) : (v.reg p k : Reg M H).run r = r.insertRoute v.method p k := by
  cases v <;> rfl

theorem verb_turn (h : Turns τ π) (v : Verb) (r : Router M H) (p : Str) (k : H) :
    ((τ v).reg p k : Reg M H).run (turnRouter π r) = turnRun π ((v.reg p k : Reg M H).run r) := by
  rw [verb_run, verb_run, ← h.verb, insertRoute_turn h]

mutual
theorem run_turn (h : Turns τ π) : ∀ (c : Reg M H) (r : Router M H),
    (turnReg τ c).run (turnRouter π r) = turnRun π (c.run r)
  | .get p k, r => by rw [turnReg]; exact verb_turn h .get r p k
  | .post p k, r => by rw [turnReg]; exact verb_turn h .post r p k
  | .put p k, r => by rw [turnReg]; exact verb_turn h .put r p k
  | .patch p k, r => by rw [turnReg]; exact verb_turn h .patch r p k
  | .delete p k, r => by rw [turnReg]; exact verb_turn h .delete r p k
  | .useService m, r => by
    simp only [turnReg, Reg.run, Router.useService, RouteTrie.insertDefaultMiddleware, turnRouter, turnTrie,
      pushMiddleware_turn, turnRun, Option.map_none]
  | .useServiceTo p m, r => by simp only [turnReg, Reg.run]; exact useServiceTo_turn ..
  | .useRouter p sub, r => by
    have := runs_turn h sub Router.new
    rw [new_router_turn] at this
    simp only [turnReg, Reg.run, this]
    cases runRegs sub Router.new with
    | mk s e =>
      cases e with
      | none => exact useRouter_turn r s p
      | some e => rfl
  | .scope n sub, r => by
    have := runs_turn h sub Router.new
    rw [new_router_turn] at this
    simp only [turnReg, Reg.run, this]
    cases runRegs sub Router.new with
    | mk s e =>
      cases e with
      | none => exact useRouter_turn r s ('/' :: n)
      | some e => rfl
theorem runs_turn (h : Turns τ π) : ∀ (cs : List (Reg M H)) (r : Router M H),
    runRegs (turnRegs τ cs) (turnRouter π r) = turnRun π (runRegs cs r)
  | [], _ => rfl
  | c :: cs, r => by
    simp only [turnRegs, runRegs, run_turn h c r]
    cases c.run r with
    | mk r' e =>
      cases e with
      | none => exact runs_turn h cs r'
      | some e => rfl
end

theorem build_turn (h : Turns τ π) (prog : List (Reg M H)) : build (turnRegs τ prog) = turnRun π (build prog) := by
  have := runs_turn h prog Router.new
  rwa [new_router_turn] at this

theorem caught_turn (h : Turns τ π) (cs : List (Reg M H)) (r : Router M H) :
    runCaught (turnRegs τ cs) (turnRouter π r) = turnRouter π (runCaught cs r) := by
  induction cs generalizing r with
  | nil => rfl
  | cons c cs ih =>
    simp only [turnRegs, runCaught, run_turn h c r]
    exact ih _

/-! ### Lookup -/

def turnSearch (π : Method → Method) : Search M H → Search M H
  | .panic p => .panic p
  | .notFound key ps ms => .notFound key ps ms
  | .found n ps ms => .found (turnNode π n) ps ms

theorem mws_turn (n : Node M H) : (turnNode π n).mws = n.mws := by
  simp only [Node.mws, turnNode_value]
  cases n.value <;> rfl

theorem starChild_turn (cs : List (Node M H)) :
    Node.starChild (turnNodes π cs) = (Node.starChild cs).map (turnNode π) := by
  induction cs with
  | nil => rfl
  | cons c cs ih =>
    simp only [turnNodes, Node.starChild, turnNode_key, turnNode_value, Option.isSome_map]
    split
    · rfl
    · exact ih

mutual
theorem getNext_turn : ∀ (n : Node M H) (key : List Str) (ps : HMap Str Str) (ms : List M) (brk : Bool),
    Node.getNextNode (turnNode π n) key ps ms brk = turnSearch π (Node.getNextNode n key ps ms brk)
  | .mk k v cs, [], ps, ms, brk => by
    simp only [turnNode, Node.getNextNode, turnSearch]
  | .mk k v cs, curr :: key, ps, ms, brk => by
    simp only [turnNode, Node.getNextNode]
    exact getLoop_turn cs curr key ps ms brk
theorem getLoop_turn : ∀ (cs : List (Node M H)) (curr : Str) (key : List Str) (ps : HMap Str Str)
    (ms : List M) (brk : Bool),
    Node.getNextLoop (turnNodes π cs) curr key ps ms brk = turnSearch π (Node.getNextLoop cs curr key ps ms brk)
  | [], curr, key, ps, ms, brk => by simp only [turnNodes, Node.getNextLoop, turnSearch]
  | n :: cs, curr, key, ps, ms, brk => by
    have hloop := getLoop_turn cs
    have hnode := getNext_turn n
    rw [turnNodes, Node.getNextLoop, Node.getNextLoop, isParam_turn]
    simp only [turnNode_key]
    split
    · split
      · rfl
      · split
        · rw [turnNode_value]
          cases n.value with
          | none => exact hloop ..
          | some v => rfl
        · rw [hnode key ps ms false]
          cases Node.getNextNode n key ps ms false with
          | panic p => rfl
          | notFound key ps ms => exact hloop ..
          | found m ps ms => simp only [turnSearch, mws_turn]
    · split
      · simp only [turnSearch, mws_turn]
      · split
        · split
          · rfl
          · next curr' _ =>
            split
            · rw [hnode (curr' :: key) ps ms true]
              cases Node.getNextNode n (curr' :: key) ps ms true with
              | panic p => rfl
              | notFound key ps ms => exact hloop ..
              | found m ps ms => simp only [turnSearch, mws_turn]
            · exact hloop ..
        · split
          · split
            · simp only [turnNode_value, turnNode_children, starChild_turn]
              cases n.value with
              | some v => rfl
              | none =>
                simp only [Option.map_none]
                cases Node.starChild n.children with
                | none => exact hloop ..
                | some c => simp only [Option.map_some, turnSearch, mws_turn]
            · rw [hnode key ps ms false]
              cases Node.getNextNode n key ps ms false with
              | panic p => rfl
              | notFound key ps ms => exact hloop ..
              | found m ps ms => simp only [turnSearch, mws_turn]
          · exact hloop ..
end

def turnResult (π : Method → Method) (v : RouteValueResult M H) : RouteValueResult M H := ⟨turnValue π v.routeValue, v.params⟩

def turnLookup (π : Method → Method) : Lookup (Option (RouteValueResult M H)) → Lookup (Option (RouteValueResult M H))
  | .panic p => .panic p
  | .ok v => .ok (v.map (turnResult π))

theorem finish_turn (n : Node M H) (ps : HMap Str Str) (ms : List M) :
    RouteTrie.finish (turnNode π n) ps ms = (RouteTrie.finish n ps ms).map (turnResult π) := by
  simp only [RouteTrie.finish, turnNode_value]
  cases n.value <;> rfl

theorem search_turn (r : Router M H) (path : Str) :
    (turnRouter π r).searchRoute path = turnLookup π (r.searchRoute path) := by
  simp only [Router.searchRoute, RouteTrie.searchRoute, turnRouter, turnTrie, mws_turn]
  split
  · rw [turnLookup, ← finish_turn]
  · rw [getNext_turn]
    cases Node.getNextNode r.routes.head (segs path) HMap.empty r.routes.head.mws false with
    | panic p => rfl
    | notFound key ps ms => rfl
    | found n ps ms => simp only [turnSearch, turnLookup, finish_turn]

/-- Lookups with the other methods. -/
theorem obs_turn (h : Turns τ π) (r : Router M H) (path : Str) :
    isFound (turnRouter π r) path = isFound r path ∧
    (∀ m, handlerFor (turnRouter π r) (π m) path = handlerFor r m path) ∧
    chainFor (turnRouter π r) path = chainFor r path ∧
    ∀ x, paramFor (turnRouter π r) path x = paramFor r path x := by
  simp only [isFound, handlerFor, chainFor, paramFor, search_turn]
  cases r.searchRoute path with
  | panic p => exact ⟨rfl, fun _ => rfl, rfl, fun _ => rfl⟩
  | ok v =>
    cases v with
    | none => exact ⟨rfl, fun _ => rfl, rfl, fun _ => rfl⟩
    | some v =>
      refine ⟨rfl, fun m => ?_, rfl, fun x => rfl⟩
      have := getRoute_turn h v.routeValue.route m
      simp only [turnLookup, Option.map_some, RouteValueResult.getRoute, turnResult, turnValue, this, Option.map_map]
      rfl

end Obsidian.Spec
