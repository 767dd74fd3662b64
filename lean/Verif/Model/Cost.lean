import Verif.Model.Router

/-
route_trie.rs:193-231, 451-570 once more, with a count of what a lookup does: the nodes that the loops
visit, the comparisons of characters, how deep the calls of `get_next_node` are nested, and how many
remaining segments are moved by `key.remove(0)` and `key.insert(0, ..)`.

Not counted: splitting the path (`split('/')`) and copying the middlewares and parameters that are found.
-/
namespace Obsidian
variable {M H : Type}

/-- What is counted. -/
structure Cost where
  /-- nodes visited by the loops of route_trie.rs:460 and 542 -/
  nodes : Nat
  /-- comparisons at route_trie.rs:521 -/
  chars : Nat
  /-- nested calls of `get_next_node` -/
  depth : Nat
  /-- segments moved at route_trie.rs:458 and 531 -/
  moves : Nat
deriving DecidableEq

/-- Nothing. -/
def Cost.zero : Cost := ⟨0, 0, 0, 0⟩

/-- One thing after another. -/
def Cost.add (a b : Cost) : Cost := ⟨a.nodes + b.nodes, a.chars + b.chars, max a.depth b.depth, a.moves + b.moves⟩

/-- route_trie.rs:515-526: how often characters are compared. -/
def comparisons : (nodeKey key : Str) → Nat
  | [], _ => 0
  | _ :: _, [] => 0
  | k :: nk, t :: key => if t = k then comparisons nk key + 1 else 1

namespace Node

/-- route_trie.rs:542-549: how many children are visited. -/
def starVisits : List (Node M H) → Nat
  | [] => 0
  | c :: cs => if c.key = ['*'] ∧ c.value.isSome then 1 else starVisits cs + 1

mutual
/-- route_trie.rs:451-570 `Node::get_next_node`, with its cost. -/
def getNextNodeCost : Node M H → (key : List Str) → HMap Str Str → List M → (isBreakParent : Bool) →
    Search M H × Cost
  | mk _ _ _, [], _, _, _ => (.panic .removeEmpty, ⟨0, 0, 1, 0⟩)
  | mk _ _ cs, curr :: key, params, mws, brk =>
    let (r, c) := getNextLoopCost cs curr key params mws brk
    (r, { c with depth := c.depth + 1, moves := c.moves + key.length })
/-- route_trie.rs:460-569: the loop over `child_nodes`, with its cost. -/
def getNextLoopCost : List (Node M H) → (curr : Str) → (key : List Str) → HMap Str Str → List M →
    (isBreakParent : Bool) → Search M H × Cost
  | [], _, key, params, mws, _ => (.notFound key params mws, .zero)
  | node :: rest, curr, key, params, mws, brk =>
    if !brk && node.isParam then
      -- 465-496
      match sliceFrom node.key 1 with
      | none => (.panic .slice, ⟨1, 0, 0, 0⟩)
      | some name =>
        if key.isEmpty then
          match node.value with
          | some v => (.found node (params.insert name curr) (mws ++ v.middlewares), ⟨1, 0, 0, 0⟩)
          | none =>
            let (r, c) := getNextLoopCost rest curr key params mws brk
            (r, .add ⟨1, 0, 0, 0⟩ c)
        else
          match getNextNodeCost node key params mws false with
          | (.panic p, c) => (.panic p, .add ⟨1, 0, 0, 0⟩ c)
          | (.found n params mws, c) =>
            (.found n (params.insert name curr) (mws ++ node.mws), .add ⟨1, 0, 0, 0⟩ c)
          | (.notFound key params mws, c) =>
            let (r, c') := getNextLoopCost rest curr key params mws brk
            (r, .add (.add ⟨1, 0, 0, 0⟩ c) c')
    else if !brk && node.key = ['*'] then
      -- 499-508
      (.found node params (mws ++ node.mws), ⟨1, 0, 0, 0⟩)
    else
      -- 511-565
      let count := matchCount node.key curr
      let c0 : Cost := ⟨1, comparisons node.key curr, 0, 0⟩
      if count = byteLen node.key ∧ count ≠ byteLen curr then
        -- 528-532
        let c0 : Cost := { c0 with moves := key.length }
        match sliceFrom curr count with
        | none => (.panic .slice, c0)
        | some curr' =>
          if count ≠ 0 then
            -- 554-562
            match getNextNodeCost node (curr' :: key) params mws true with
            | (.panic p, c) => (.panic p, .add c0 c)
            | (.found n params mws, c) => (.found n params (mws ++ node.mws), .add c0 c)
            | (.notFound key params mws, c) =>
              let (r, c') := getNextLoopCost rest curr key params mws brk
              (r, .add (.add c0 c) c')
          else
            let (r, c) := getNextLoopCost rest curr (curr' :: key) params mws brk
            (r, .add c0 c)
      else if count ≠ 0 ∧ count = byteLen node.key then
        if key.isEmpty then
          -- 535-553
          match node.value with
          | some v => (.found node params (mws ++ v.middlewares), c0)
          | none =>
            match starChild node.children with
            | some child => (.found child params (mws ++ child.mws), .add c0 ⟨starVisits node.children, 0, 0, 0⟩)
            | none =>
              let (r, c) := getNextLoopCost rest curr key params mws brk
              (r, .add (.add c0 ⟨starVisits node.children, 0, 0, 0⟩) c)
        else
          -- 554-562
          match getNextNodeCost node key params mws false with
          | (.panic p, c) => (.panic p, .add c0 c)
          | (.found n params mws, c) => (.found n params (mws ++ node.mws), .add c0 c)
          | (.notFound key params mws, c) =>
            let (r, c') := getNextLoopCost rest curr key params mws brk
            (r, .add (.add c0 c) c')
      else
        let (r, c) := getNextLoopCost rest curr key params mws brk
        (r, .add c0 c)
end

end Node

/-- route_trie.rs:193-231 `RouteTrie::search_route`, with its cost. -/
def RouteTrie.searchRouteCost (t : RouteTrie M H) (path : Str) :
    Lookup (Option (RouteValueResult M H)) × Cost :=
  if segs path = [] then (.ok (finish t.head HMap.empty t.head.mws), .zero)
  else
    match t.head.getNextNodeCost (segs path) HMap.empty t.head.mws false with
    | (.panic p, c) => (.panic p, c)
    | (.notFound _ _ _, c) => (.ok none, c)
    | (.found node params mws, c) => (.ok (finish node params mws), c)

/-- router.rs:105-107 `Router::search_route`, with its cost. -/
def Router.searchRouteCost (r : Router M H) (path : Str) : Lookup (Option (RouteValueResult M H)) × Cost :=
  r.routes.searchRouteCost path

end Obsidian
