import Verif.Proofs.WayProg

/-
The values of parameters are whole segments of the request, for paths in any syntax.
-/
namespace Obsidian
namespace Node
open Spec
variable {M H : Type}

/-- A search started with the segments `key` in front of it (the one it works on is `curr`, which has
lost its beginning if `brk`) binds only whole segments, and gives up without inventing any. -/
def Whole (curr : Str) (key : List Str) (ps : HMap Str Str) (brk : Bool) : Search M H → Prop
  | .panic _ => True
  | .notFound key' ps' _ => ps' = ps ∧ ∀ k ∈ key', k ∈ key
  | .found _ ps' _ => ∀ x v, ps'.get x = some v → ps.get x = some v ∨ v ∈ key ∨ (brk = false ∧ v = curr)

theorem Whole.refl (curr : Str) (key : List Str) (ps : HMap Str Str) (brk : Bool) (n : Node M H) (ms : List M) :
    Whole curr key ps brk (.found n ps ms) := fun _ _ h => .inl h

theorem Whole.insert {curr : Str} {key : List Str} {ps ps' : HMap Str Str} {n : Node M H} {ms : List M}
    (h : Whole curr key ps false (.found n ps' ms)) (name : Str) (n' : Node M H) (ms' : List M) :
    Whole curr key ps false (.found n' (ps'.insert name curr) ms') := by
  intro x v hx
  rw [HMap.get_insert] at hx
  split at hx
  · exact .inr (.inr ⟨rfl, by injection hx with hx; exact hx.symm⟩)
  · exact h x v hx

theorem Whole.next {curr c : Str} {key key' : List Str} {ps : HMap Str Str} {brk b : Bool} {ps' : HMap Str Str}
    {n : Node M H} {ms : List M} (h : Whole c key' ps b (.found n ps' ms)) (hk : ∀ k ∈ key', k ∈ key)
    (hc : b = false → c ∈ key) (n' : Node M H) (ms' : List M) : Whole curr key ps brk (.found n' ps' ms') := by
  intro x v hx
  rcases h x v hx with h | h | ⟨h', rfl⟩
  · exact .inl h
  · exact .inr (.inl (hk v h))
  · exact .inr (.inl (hc h'))

theorem Whole.weaken {curr : Str} {key key' : List Str} {ps : HMap Str Str} {brk : Bool} {s : Search M H}
    (h : Whole curr key' ps brk s) (hk : ∀ k ∈ key', k ∈ key) : Whole curr key ps brk s := by
  cases s with
  | panic p => trivial
  | notFound k' ps' _ => exact ⟨h.1, fun k hx => hk k (h.2 k hx)⟩
  | found n ps' ms =>
    intro x v hx
    rcases h x v hx with h | h | h
    · exact .inl h
    · exact .inr (.inl (hk v h))
    · exact .inr (.inr h)

mutual
theorem whole_node : ∀ (n : Node M H) (curr : Str) (key : List Str) (ps : HMap Str Str) (mws : List M) (brk : Bool),
    SWL n.children → Whole curr key ps brk (n.getNextNode (curr :: key) ps mws brk)
  | mk k v cs, curr, key, ps, mws, brk, h => by
    rw [getNextNode]; exact whole_loop cs curr key ps mws brk h
theorem whole_loop : ∀ (cs : List (Node M H)) (curr : Str) (key : List Str) (ps : HMap Str Str) (mws : List M) (brk : Bool),
    SWL cs → Whole curr key ps brk (getNextLoop cs curr key ps mws brk)
  | [], curr, key, ps, mws, brk, _ => by rw [getNextLoop]; exact ⟨rfl, fun _ h => h⟩
  | node :: rest, curr, key, ps, mws, brk, h => by
    have hn : node.key ≠ [] ∧ SWL node.children := ⟨(h.mem (by simp)).1, (h.mem (by simp)).2.1⟩
    have hr : SWL rest := by cases h; assumption
    have down : ∀ (key' : List Str) (ps' : HMap Str Str) (ms' : List M), ps' = ps → (∀ k ∈ key', k ∈ key) →
        Whole curr key ps brk (getNextLoop rest curr key' ps' ms' brk) := by
      rintro key' ps' ms' rfl hk
      exact (whole_loop rest curr key' ps' ms' brk hr).weaken hk
    rw [getNextLoop]
    split
    · next hb =>
      have hb : brk = false := by revert hb; cases brk <;> simp
      subst hb
      split
      · trivial
      · split
        · split
          · exact (Whole.refl curr key ps false node mws).insert _ _ _
          · exact down key ps mws rfl fun _ h => h
        · cases key with
          | nil => simp at *
          | cons c key =>
            have i := whole_node node c key ps mws false hn.2
            split
            · trivial
            · next e =>
              rw [e] at i
              exact (Whole.next i (fun k hk => by simp [hk]) (fun _ => by simp) node mws).insert _ _ _
            · next e => rw [e] at i; exact down _ _ _ i.1 fun k hk => by simp [i.2 k hk]
    · split
      · exact fun _ _ h => .inl h
      · simp only
        split
        · next hc =>
          split
          · trivial
          · next c' _ =>
            split
            · have i := whole_node node c' key ps mws true hn.2
              split
              · trivial
              · next e => rw [e] at i; exact Whole.next i (fun _ h => h) (by simp) _ _
              · next e => rw [e] at i; exact down _ _ _ i.1 i.2
            · next h0 => exact absurd (byteLen_eq_zero.1 (hc.1.symm.trans (Decidable.not_not.1 h0))) hn.1
        · split
          · split
            · split
              · exact fun _ _ h => .inl h
              · split
                · exact fun _ _ h => .inl h
                · exact down _ _ _ rfl fun _ h => h
            · cases key with
              | nil => simp at *
              | cons c key =>
                have i := whole_node node c key ps mws false hn.2
                split
                · trivial
                · next e => rw [e] at i; exact Whole.next i (fun k hk => by simp [hk]) (fun _ => by simp) _ _
                · next e => rw [e] at i; exact down _ _ _ i.1 fun k hk => by simp [i.2 k hk]
          · exact down _ _ _ rfl fun _ h => h
end

end Node
open Spec
variable {M H : Type}

/-- What a lookup binds are segments of the request. -/
theorem Node.Tracks.params {r : Router M H} {L : Log M H} (h : Node.Tracks r.routes.head L) {path : Str}
    {v : RouteValueResult M H} (hs : r.searchRoute path = .ok (some v)) {x y : Str}
    (hx : v.params.get x = some y) : y ∈ segments path := by
  rw [Router.searchRoute, RouteTrie.searchRoute] at hs
  split at hs
  · injection hs with hs
    rw [RouteTrie.finish] at hs
    split at hs
    · injection hs with hs; subst hs; simp at hx
    · simp at hs
  · next hne =>
    cases hp : segs path with
    | nil => exact absurd hp hne
    | cons c key =>
      rw [hp] at hs
      have hw := Node.whole_node r.routes.head c key HMap.empty r.routes.head.mws false h.sw
      split at hs
      · simp at hs
      · simp at hs
      · next e =>
        rw [e] at hw
        injection hs with hs
        rw [RouteTrie.finish] at hs
        split at hs
        · injection hs with hs; subst hs
          rcases hw x y hx with h | h | h
          · simp at h
          · rw [← segs_eq, hp]; simp [h]
          · rw [← segs_eq, hp]; simp [h.2]
        · simp at hs

end Obsidian
