import Verif.Proofs.Serve

/-
Routers without their middlewares: used to lift statements about requests that meet no middleware.
-/
namespace Obsidian
variable {M H : Type}

namespace Node

mutual
/-- The same tree without middlewares. -/
def bare : Node M H → Node M H
  | mk k v cs => mk k (v.map fun v => ⟨[], v.route⟩) (bareAll cs)
/-- The same trees without middlewares. -/
def bareAll : List (Node M H) → List (Node M H)
  | [] => []
  | c :: cs => bare c :: bareAll cs
end

/-- The result of a search in the tree without middlewares. -/
def bareSearch : Search M H → Search M H
  | .panic p => .panic p
  | .notFound key ps _ => .notFound key ps []
  | .found n ps _ => .found n.bare ps []

theorem bare_key (n : Node M H) : n.bare.key = n.key := by cases n; rw [bare]; rfl
theorem bare_value (n : Node M H) : n.bare.value = n.value.map fun v => ⟨[], v.route⟩ := by cases n; rw [bare]; rfl
theorem bare_children (n : Node M H) : n.bare.children = bareAll n.children := by cases n; rw [bare]; rfl
theorem bare_mws (n : Node M H) : n.bare.mws = [] := by
  rw [mws, bare_value]; cases n.value <;> rfl
theorem bare_isParam (n : Node M H) : n.bare.isParam = n.isParam := by rw [isParam, isParam, bare_key]

theorem bare_star (cs : List (Node M H)) : starChild (bareAll cs) = (starChild cs).map bare := by
  induction cs with
  | nil => rfl
  | cons c cs ih =>
    rw [bareAll, starChild, starChild, bare_key, bare_value, Option.isSome_map, ih]
    split <;> rfl

mutual
theorem bare_node : ∀ (n : Node M H) (key : List Str) (ps : HMap Str Str) (ms : List M) (brk : Bool),
    n.bare.getNextNode key ps [] brk = bareSearch (n.getNextNode key ps ms brk)
  | mk k v cs, [], ps, ms, brk => by rw [bare, getNextNode, getNextNode]; rfl
  | mk k v cs, curr :: key, ps, ms, brk => by
    rw [bare, getNextNode, getNextNode]; exact bare_loop cs curr key ps ms brk
theorem bare_loop : ∀ (cs : List (Node M H)) (curr : Str) (key : List Str) (ps : HMap Str Str) (ms : List M) (brk : Bool),
    getNextLoop (bareAll cs) curr key ps [] brk = bareSearch (getNextLoop cs curr key ps ms brk)
  | [], curr, key, ps, ms, brk => by rw [bareAll, getNextLoop, getNextLoop]; rfl
  | node :: rest, curr, key, ps, ms, brk => by
    have down := fun (key : List Str) (ps : HMap Str Str) (ms : List M) => bare_loop rest curr key ps ms brk
    have into := fun (key : List Str) (ps : HMap Str Str) (brk : Bool) => bare_node node key ps ms brk
    rw [bareAll, getNextLoop, getNextLoop, bare_isParam, bare_key, bare_value, bare_mws, bare_children, bare_star]
    split
    · split
      · rfl
      · split
        · cases node.value with
          | none => exact down _ _ _
          | some v => rfl
        · rw [into key ps false]
          cases node.getNextNode key ps ms false with
          | panic => rfl
          | notFound => exact down _ _ _
          | found => rfl
    · split
      · rfl
      · simp only
        split
        · split
          · rfl
          · next curr' _ =>
            split
            · rw [into (curr' :: key) ps true]
              cases node.getNextNode (curr' :: key) ps ms true with
              | panic => rfl
              | notFound => exact down _ _ _
              | found => rfl
            · exact down _ _ _
        · split
          · split
            · cases node.value with
              | none =>
                simp only [Option.map_none]
                cases starChild node.children with
                | none => exact down _ _ _
                | some c => simp only [Option.map_some, bare_mws]; rfl
              | some v => rfl
            · rw [into key ps false]
              cases node.getNextNode key ps ms false with
              | panic => rfl
              | notFound => exact down _ _ _
              | found => rfl
          · exact down _ _ _
end

end Node

/-- The same router without middlewares. -/
def Router.bare (r : Router M H) : Router M H := ⟨⟨r.routes.head.bare⟩⟩

theorem Router.bare_search (r : Router M H) (path : Str) : r.bare.searchRoute path =
    match r.searchRoute path with
    | .panic p => .panic p
    | .ok v => .ok (v.map fun v => ⟨⟨[], v.routeValue.route⟩, v.params⟩) := by
  simp only [Router.searchRoute, RouteTrie.searchRoute, Router.bare]
  split
  · simp only [RouteTrie.finish, Node.bare_value, Node.bare_mws]
    cases r.routes.head.value <;> rfl
  · rw [Node.bare_mws, Node.bare_node _ _ _ r.routes.head.mws]
    cases r.routes.head.getNextNode (segs path) HMap.empty r.routes.head.mws false with
    | panic => rfl
    | notFound => rfl
    | found n ps ms =>
      simp only [Node.bareSearch, RouteTrie.finish, Node.bare_value]
      cases n.value <;> rfl

theorem Router.bare_sees (r : Router M H) (path : Str) :
    (∀ m, Spec.handlerFor r.bare m path = Spec.handlerFor r m path) ∧
    Spec.chainFor r.bare path = (Spec.chainFor r path).map (fun _ => []) ∧
    ∀ x, Spec.paramFor r.bare path x = Spec.paramFor r path x := by
  simp only [Spec.handlerFor, Spec.chainFor, Spec.paramFor, Router.bare_search]
  cases r.searchRoute path with
  | panic => exact ⟨fun _ => rfl, rfl, fun _ => rfl⟩
  | ok v => cases v <;> exact ⟨fun _ => rfl, rfl, fun _ => rfl⟩

end Obsidian
