import Verif.Model.Str
import Verif.Model.HMap

/-
src/router/route_trie.rs, src/router/resource.rs and src/router/route.rs, function by function.

`M` is the type of middlewares (`Arc<dyn Middleware>`), `H` the type of handlers
(`Arc<dyn Handler>`); this file never looks inside them.
-/
namespace Obsidian

/-- `hyper::Method` (equality is all the code uses). -/
inductive Method where
  | get | post | put | patch | delete | head | options | trace | connect
  | extension (name : Str)
deriving DecidableEq, Repr

/-- route.rs:6-9 `struct Route`. -/
structure Route (H : Type) where
  method : Method
  handler : H

/-- resource.rs:9-11 `struct Resource`. -/
structure Resource (H : Type) where
  routeMap : HMap Method (Route H)

/-- resource.rs:13-19 `Resource::default`. -/
def Resource.default {H : Type} : Resource H := ⟨HMap.empty⟩

/-- resource.rs:22-24 `Resource::add_route`: inserts, and returns the replaced route, if any. -/
def Resource.addRoute {H : Type} (r : Resource H) (m : Method) (route : Route H) :
    Resource H × Option (Route H) :=
  (⟨r.routeMap.insert m route⟩, r.routeMap.get m)

/-- resource.rs:26-28 `Resource::get_route`. -/
def Resource.getRoute {H : Type} (r : Resource H) (m : Method) : Option (Route H) :=
  r.routeMap.get m

/-- route_trie.rs:13-16 `struct RouteValue`. -/
structure RouteValue (M H : Type) where
  middlewares : List M
  route : Resource H

/-- route_trie.rs:12 `derive(Default)` for `RouteValue`. -/
def RouteValue.default {M H : Type} : RouteValue M H := ⟨[], Resource.default⟩

/-- route_trie.rs:30-33 `struct RouteValueResult`. -/
structure RouteValueResult (M H : Type) where
  routeValue : RouteValue M H
  params : HMap Str Str

/-- route_trie.rs:43-45 `RouteValueResult::get_route`. -/
def RouteValueResult.getRoute {M H : Type} (r : RouteValueResult M H) (m : Method) :
    Option (Route H) := r.routeValue.route.getRoute m

/-- route_trie.rs:47-49 `RouteValueResult::get_middlewares`. -/
def RouteValueResult.getMiddlewares {M H : Type} (r : RouteValueResult M H) : List M :=
  r.routeValue.middlewares

/-- route_trie.rs:51-53 `RouteValueResult::get_params`. -/
def RouteValueResult.getParams {M H : Type} (r : RouteValueResult M H) : HMap Str Str :=
  r.params

/-- route_trie.rs:307-311 `struct Node`. -/
inductive Node (M H : Type) where
  | mk (key : Str) (value : Option (RouteValue M H)) (children : List (Node M H))

namespace Node
variable {M H : Type}

/-- Field `key`, route_trie.rs:308. -/
def key : Node M H → Str
  | mk k _ _ => k
/-- Field `value`, route_trie.rs:309. -/
def value : Node M H → Option (RouteValue M H)
  | mk _ v _ => v
/-- Field `child_nodes`, route_trie.rs:310. -/
def children : Node M H → List (Node M H)
  | mk _ _ cs => cs
/-- Assignment to the field `value`. -/
def setValue : Node M H → Option (RouteValue M H) → Node M H
  | mk k _ cs, v => mk k v cs

/-- route_trie.rs:314-320 `Node::new`. -/
def new (key : Str) (value : Option (RouteValue M H)) : Node M H := mk key value []

/-- route_trie.rs:322-324 and 405: first character is `':'` (`unwrap_or(' ')` for the empty key). -/
def startsColon (k : Str) : Bool := k.headD ' ' == ':'

/-- route_trie.rs:322-324 `Node::is_param`. -/
def isParam (n : Node M H) : Bool := startsColon n.key

end Node

/-- What a call can panic with.  The first group are the messages written in the code; the second
group are the panics that the Rust runtime would raise inside these functions. -/
inductive Panic where
  /-- "ERROR: Consisting * in route name at: {path}" (route_trie.rs:92, 156, 246). -/
  | starInName (path : Str)
  /-- "ERROR: * must be in the last at: {path}" (route_trie.rs:94, 158, 248). -/
  | starNotLast (path : Str)
  /-- "Insert Route: ERROR: Ambigous definition between {key} and {node.key} at {path}", with
  "Middleware"/"SubRouter" for the other two callers (route_trie.rs:141, 185, 275, 391-394). -/
  | ambiguous (key nodeKey path : Str)
  /-- "Duplicated route method '{method}' at '{path}' detected" (route_trie.rs:116, 127, 285, 294). -/
  | duplicated (method : Method) (path : Str)
  /-- "There is conflict between main router and sub router at ..." (route_trie.rs:265). -/
  | conflict (path : Str)
  /-- `unreachable!()` (route_trie.rs:399). -/
  | unreachable
  /-- A string slice out of range or off a character boundary. -/
  | slice
  /-- `key.remove(0)` on an empty vector (route_trie.rs:458). -/
  | removeEmpty
deriving DecidableEq, Repr

/-- A function that mutates through `&mut` and may panic: the state it leaves behind, and the panic,
if any.  (The state left behind by a panicking call is what a caller of `catch_unwind` would see.) -/
abbrev Out (σ : Type) := σ × Option Panic

/-- route_trie.rs:574-580, 585-600: `ActionName` with the parts of `ActionPayload` it uses. -/
inductive Action where
  | nextNode (index : Nat)
  | createNewNode
  | splitNode (count index : Nat)
  | splitKey (count index : Nat)
  | error (index : Nat)
deriving DecidableEq, Repr

namespace Node
variable {M H : Type}

/-- route_trie.rs:403-448 `Node::get_insertion_action`, the loop over `child_nodes` starting at
position `index`. -/
def insertionActionFrom (key : Str) : List (Node M H) → Nat → Action
  | [], _ => .createNewNode
  | node :: rest, index =>
    if node.isParam || startsColon key then
      if key = node.key then .nextNode index else .error index
    else
      let count := matchCount node.key key
      if count = byteLen key ∧ count = byteLen node.key then .nextNode index
      else if count = byteLen node.key then .splitKey count index
      else if count ≠ 0 then .splitNode count index
      else insertionActionFrom key rest (index + 1)

/-- route_trie.rs:403-448 `Node::get_insertion_action`. -/
def insertionAction (children : List (Node M H)) (key : Str) : Action :=
  insertionActionFrom key children 0

/-- Models `if let Some(node) = self.child_nodes.get_mut(i) { return Ok(node) }; unreachable!()`
(route_trie.rs:352-354, 399) followed by what the caller does with the returned reference. -/
def modifyChild (f : Node M H → Out (Node M H)) : List (Node M H) → Nat → Out (List (Node M H))
  | [], _ => ([], some .unreachable)
  | c :: cs, 0 => let (c', p) := f c; (c' :: cs, p)
  | c :: cs, i + 1 => let (cs', p) := modifyChild f cs i; (c :: cs', p)

/-- route_trie.rs:361-388: the `SplitNode` action on the child `node`, followed by what the caller
does with the returned reference. -/
def splitNode (count : Nat) (key : Str) (f : Node M H → Out (Node M H)) (node : Node M H) :
    Out (Node M H) :=
  match sliceFrom node.key count, sliceFrom key count, sliceTo key count with
  | some childKey, some newKey, some nodeKey =>
    let inter : Node M H := mk childKey node.value node.children
    if newKey = [] then f (mk nodeKey none [inter])
    else
      let (n', p) := f (Node.new newKey none)
      (mk nodeKey none [n', inter], p)
  | _, _, _ => (node, some .slice)

/- route_trie.rs:327-400 `Node::process_insertion`.  The Rust function returns a `&mut Node` into the
tree, which the caller then goes on to modify; here the caller's modification is the continuation
`f`, and the result is the whole modified node.  `path` is only used for the panic message which the
callers build from the returned `Err` (route_trie.rs:140-142, 184-186, 274-276). -/
mutual
/-- route_trie.rs:327-400 `Node::process_insertion`. -/
def processInsertion (path : Str) : Node M H → Str → (Node M H → Out (Node M H)) → Out (Node M H)
  | mk k v cs, key, f =>
    match insertionAction cs key with
    | .createNewNode =>
      if key = ['*'] then
        let (n', p) := f (Node.new key none)
        (mk k v (cs ++ [n']), p)
      else
        let (n', p) := f (Node.new key none)
        (mk k v (n' :: cs), p)
    | .nextNode i => let (cs', p) := modifyChild f cs i; (mk k v cs', p)
    | .splitKey count i =>
      match sliceFrom key count with
      | some key' => let (cs', p) := processInsertionAt path cs i key' f; (mk k v cs', p)
      | none => (mk k v cs, some .slice)
    | .splitNode count i => let (cs', p) := modifyChild (splitNode count key f) cs i; (mk k v cs', p)
    | .error i =>
      match cs[i]? with
      | some node => (mk k v cs, some (.ambiguous key node.key path))
      | none => (mk k v cs, some .unreachable)
/-- The recursive call on `self.child_nodes.get_mut(index)` of route_trie.rs:357-359. -/
def processInsertionAt (path : Str) :
    List (Node M H) → Nat → Str → (Node M H → Out (Node M H)) → Out (List (Node M H))
  | [], _, _, _ => ([], some .unreachable)
  | c :: cs, 0, key, f => let (c', p) := processInsertion path c key f; (c' :: cs, p)
  | c :: cs, i + 1, key, f => let (cs', p) := processInsertionAt path cs i key f; (c :: cs', p)
end

/-- The `while let Some(k) = split_key.next()` loops of route_trie.rs:107-144, 165-188, 260-278, with
`f` being what is done with the node of the last segment. -/
def insertLoop (path : Str) (f : Node M H → Out (Node M H)) :
    List Str → Node M H → Out (Node M H)
  | [], n => (n, none)
  | [k], n => n.processInsertion path k f
  | k :: k' :: ks, n => n.processInsertion path k (insertLoop path f (k' :: ks))

end Node

/-- The validation loops of route_trie.rs:89-97, 153-161, 243-251, over the segments with their
position, `total` being `split_key.clone().count()`. -/
def checkStarsFrom (path : Str) (total : Nat) : List Str → Nat → Option Panic
  | [], _ => none
  | x :: xs, pos =>
    if '*' ∈ x then
      if byteLen x ≠ 1 then some (.starInName path)
      else if pos ≠ total - 1 then some (.starNotLast path)
      else checkStarsFrom path total xs (pos + 1)
    else checkStarsFrom path total xs (pos + 1)

/-- The validation loops of route_trie.rs:89-97, 153-161, 243-251. -/
def checkStars (path : Str) : Option Panic :=
  checkStarsFrom path (segs path).length (segs path) 0

/-- route_trie.rs:57-59 `struct RouteTrie`. -/
structure RouteTrie (M H : Type) where
  head : Node M H

namespace RouteTrie
variable {M H : Type}

/-- route_trie.rs:62-66 `RouteTrie::new`. -/
def new : RouteTrie M H := ⟨Node.new ['/'] none⟩

/-- route_trie.rs:70-80 (root), 169-179 (other nodes): push a middleware on a node. -/
def pushMiddleware (m : M) (n : Node M H) : Node M H :=
  match n.value with
  | some v => n.setValue (some { v with middlewares := v.middlewares ++ [m] })
  | none => n.setValue (some ⟨[m], Resource.default⟩)

/-- route_trie.rs:69-81 `RouteTrie::insert_default_middleware`. -/
def insertDefaultMiddleware (t : RouteTrie M H) (m : M) : RouteTrie M H :=
  ⟨pushMiddleware m t.head⟩

/-- route_trie.rs:111-135 (and 281-303): add a route on a node.  A duplicated method panics after the
old route has already been replaced; in the `None` case the new value would only be stored after the
check (which never fails there). -/
def addRouteNode (path : Str) (r : Route H) (n : Node M H) : Out (Node M H) :=
  match n.value with
  | some v =>
    match v.route.addRoute r.method r with
    | (res, some dup) =>
      (n.setValue (some { v with route := res }), some (.duplicated dup.method path))
    | (res, none) => (n.setValue (some { v with route := res }), none)
  | none =>
    match (RouteValue.default : RouteValue M H).route.addRoute r.method r with
    | (_, some dup) => (n, some (.duplicated dup.method path))
    | (res, none) => (n.setValue (some ⟨[], res⟩), none)

/-- route_trie.rs:281-303 `RouteTrie::insert_default_route`. -/
def insertDefaultRoute (t : RouteTrie M H) (r : Route H) : Out (RouteTrie M H) :=
  let (h, p) := addRouteNode ['/'] r t.head
  (⟨h⟩, p)

/-- route_trie.rs:85-145 `RouteTrie::insert_route`. -/
def insertRoute (t : RouteTrie M H) (path : Str) (r : Route H) : Out (RouteTrie M H) :=
  match checkStars path with
  | some p => (t, some p)
  | none =>
    if segs path = [] then insertDefaultRoute t r
    else
      let (h, p) := Node.insertLoop path (addRouteNode path r) (segs path) t.head
      (⟨h⟩, p)

/-- route_trie.rs:148-189 `RouteTrie::insert_middleware`. -/
def insertMiddleware (t : RouteTrie M H) (path : Str) (m : M) : Out (RouteTrie M H) :=
  match checkStars path with
  | some p => (t, some p)
  | none =>
    let (h, p) := Node.insertLoop path (fun n => (pushMiddleware m n, none)) (segs path) t.head
    (⟨h⟩, p)

/-- route_trie.rs:263-271: hang the root of the sub router into the node. -/
def graft (path : Str) (src : RouteTrie M H) (n : Node M H) : Out (Node M H) :=
  if n.value.isSome || !n.children.isEmpty then (n, some (.conflict path))
  else (.mk n.key src.head.value src.head.children, none)

/-- route_trie.rs:238-279 `RouteTrie::insert_sub_route`. -/
def insertSubRoute (des : RouteTrie M H) (path : Str) (src : RouteTrie M H) :
    Out (RouteTrie M H) :=
  match checkStars path with
  | some p => (des, some p)
  | none =>
    if segs path = [] then (⟨src.head⟩, none)
    else
      let (h, p) := Node.insertLoop path (graft path src) (segs path) des.head
      (⟨h⟩, p)

end RouteTrie

/-- What `get_next_node` leaves behind: the result together with the `&mut` arguments
(`key`, `params`, `middlewares`). -/
inductive Search (M H : Type) where
  | panic (p : Panic)
  | notFound (key : List Str) (params : HMap Str Str) (mws : List M)
  | found (node : Node M H) (params : HMap Str Str) (mws : List M)

namespace Node
variable {M H : Type}

/-- The middlewares cloned at route_trie.rs:205-209, 470, 482-487, 500-505, 538, 545, 557-559. -/
def mws (n : Node M H) : List M :=
  match n.value with
  | some v => v.middlewares
  | none => []

/-- route_trie.rs:542-549: the first child with key "*" that has a value. -/
def starChild : List (Node M H) → Option (Node M H)
  | [] => none
  | c :: cs => if c.key = ['*'] ∧ c.value.isSome then some c else starChild cs

mutual
/-- route_trie.rs:451-570 `Node::get_next_node`. -/
def getNextNode : Node M H → (key : List Str) → HMap Str Str → List M → (isBreakParent : Bool) →
    Search M H
  | mk _ _ _, [], _, _, _ => .panic .removeEmpty
  | mk _ _ cs, curr :: key, params, mws, brk => getNextLoop cs curr key params mws brk
/-- route_trie.rs:460-569: the loop over `child_nodes`; `curr` is `curr_key`. -/
def getNextLoop : List (Node M H) → (curr : Str) → (key : List Str) → HMap Str Str → List M →
    (isBreakParent : Bool) → Search M H
  | [], _, key, params, mws, _ => .notFound key params mws
  | node :: rest, curr, key, params, mws, brk =>
    if !brk && node.isParam then
      -- 465-496
      match sliceFrom node.key 1 with
      | none => .panic .slice
      | some name =>
        if key.isEmpty then
          match node.value with
          | some v => .found node (params.insert name curr) (mws ++ v.middlewares)
          | none => getNextLoop rest curr key params mws brk
        else
          match getNextNode node key params mws false with
          | .panic p => .panic p
          | .found n params mws => .found n (params.insert name curr) (mws ++ node.mws)
          | .notFound key params mws => getNextLoop rest curr key params mws brk
    else if !brk && node.key = ['*'] then
      -- 499-508
      .found node params (mws ++ node.mws)
    else
      -- 511-565
      let count := matchCount node.key curr
      if count = byteLen node.key ∧ count ≠ byteLen curr then
        -- 528-532: the key is broken, the rest of it is put back in front of `key`
        match sliceFrom curr count with
        | none => .panic .slice
        | some curr' =>
          if count ≠ 0 then
            -- 554-562, `key` is not empty
            match getNextNode node (curr' :: key) params mws true with
            | .panic p => .panic p
            | .found n params mws => .found n params (mws ++ node.mws)
            | .notFound key params mws => getNextLoop rest curr key params mws brk
          else getNextLoop rest curr (curr' :: key) params mws brk
      else if count ≠ 0 ∧ count = byteLen node.key then
        if key.isEmpty then
          -- 535-553
          match node.value with
          | some v => .found node params (mws ++ v.middlewares)
          | none =>
            match starChild node.children with
            | some child => .found child params (mws ++ child.mws)
            | none => getNextLoop rest curr key params mws brk
        else
          -- 554-562
          match getNextNode node key params mws false with
          | .panic p => .panic p
          | .found n params mws => .found n params (mws ++ node.mws)
          | .notFound key params mws => getNextLoop rest curr key params mws brk
      else getNextLoop rest curr key params mws brk
end

end Node

/-- The result of a lookup that may panic. -/
inductive Lookup (α : Type) where
  | panic (p : Panic)
  | ok (a : α)

namespace RouteTrie
variable {M H : Type}

/-- route_trie.rs:223-230. -/
def finish (node : Node M H) (params : HMap Str Str) (mws : List M) :
    Option (RouteValueResult M H) :=
  match node.value with
  | some v => some ⟨⟨mws, v.route⟩, params⟩
  | none => none

/-- route_trie.rs:193-231 `RouteTrie::search_route`. -/
def searchRoute (t : RouteTrie M H) (path : Str) : Lookup (Option (RouteValueResult M H)) :=
  if segs path = [] then .ok (finish t.head HMap.empty t.head.mws)
  else
    match t.head.getNextNode (segs path) HMap.empty t.head.mws false with
    | .panic p => .panic p
    | .notFound _ _ _ => .ok none
    | .found node params mws => .ok (finish node params mws)

end RouteTrie
end Obsidian
