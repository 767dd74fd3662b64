import Verif.Proofs.WayProg

/- Registering the same method at the same path again, for paths of any form. -/
namespace Obsidian
open Spec
variable {M H : Type}
namespace Node

/-! ### Whether an insertion panics depends only on whether the last step does -/

theorem modifyChild_panic {f g : Node M H → Out (Node M H)} (h : ∀ x, (f x).2 = (g x).2) :
    ∀ (cs : List (Node M H)) (i : Nat), (modifyChild f cs i).2 = (modifyChild g cs i).2
  | [], _ => rfl
  | c :: cs, 0 => h c
  | c :: cs, i + 1 => modifyChild_panic h cs i

theorem splitNode_panic {f g : Node M H → Out (Node M H)} (h : ∀ x, (f x).2 = (g x).2) (count : Nat) (key : Str) (n : Node M H) :
    (splitNode count key f n).2 = (splitNode count key g n).2 := by
  unfold splitNode
  split
  · split
    · exact h _
    · exact h _
  · rfl

mutual
theorem insert_panic {f g : Node M H → Out (Node M H)} (h : ∀ x, (f x).2 = (g x).2) (path : Str) :
    ∀ (n : Node M H) (key : Str), (processInsertion path n key f).2 = (processInsertion path n key g).2
  | mk k v cs, key => by
    rw [processInsertion, processInsertion]
    cases insertionAction cs key with
    | createNewNode => simp only; split <;> exact h _
    | nextNode i => exact modifyChild_panic h cs i
    | splitNode c i => exact modifyChild_panic (splitNode_panic h c key) cs i
    | splitKey c i =>
      simp only
      cases sliceFrom key c with
      | none => rfl
      | some key' => exact insertAt_panic h path cs i key'
    | error i => simp only
theorem insertAt_panic {f g : Node M H → Out (Node M H)} (h : ∀ x, (f x).2 = (g x).2) (path : Str) :
    ∀ (cs : List (Node M H)) (i : Nat) (key : Str), (processInsertionAt path cs i key f).2 = (processInsertionAt path cs i key g).2
  | [], _, _ => rfl
  | c :: cs, 0, key => by rw [processInsertionAt, processInsertionAt]; exact insert_panic h path c key
  | c :: cs, i + 1, key => by rw [processInsertionAt, processInsertionAt]; exact insertAt_panic h path cs i key
end

theorem descend_panic {f g : Node M H → Out (Node M H)} (h : ∀ x, (f x).2 = (g x).2) (path : Str) :
    ∀ (ss : List Str) (n : Node M H), (descend path f ss n).2 = (descend path g ss n).2
  | [], n => h n
  | k :: ks, n => insert_panic (descend_panic h path ks) path n k

theorem descend_twice {path : Str} {f : Node M H → Out (Node M H)} {ss : List Str} (hs : SegsOK ss)
    (hn : NoStar ss) {n : Node M H} (hw : SWL n.children) {t : Node M H} {ms : List M} (hat : At n ss t ms)
    (hok : (descend path f ss n).2 = none) : ∃ x : Node M H, Le t.value x.value ∧ (f x).2 = none := by
  let g : Node M H → Out (Node M H) := fun x => (x, (f x).2)
  have hg : Mild g := fun x hw _ => ⟨rfl, Le.refl _, Keeps.refl _, hw⟩
  have hok' : (descend path g ss n).2 = none := by
    rw [← hok]; exact descend_panic (f := g) (g := f) (fun _ => rfl) path ss n
  obtain ⟨x, ms', _, h2, h3, _⟩ := descend_new hg hs hn hw hok'
  have hm := descend_mild (path := path) hg hs n hw hok'
  obtain ⟨t', ms'', h4, h5, _⟩ := hat.keep hm.2.1 hm.2.2.1
  have h3 : At (descend path g ss n).1 (ss ++ []) x ms' := by rw [List.append_nil]; exact h3
  obtain ⟨_, h6, _⟩ := h4.through h3
  rcases h6 with ⟨_, h6, _⟩ | h6
  · exact ⟨x, by rw [show x = t' from h6]; exact h5, h2⟩
  · exact absurd rfl h6.ne

/-- The method is stored at the path already: the call panics. -/
theorem Tracks.twice {r : Router M H} {L : Log M H} (h : Tracks r.routes.head L) {m : Method} {path : Str} {x x' : H}
    (he : ⟨segments path, .route m x⟩ ∈ L) (hn : NoStar (segments path)) : (r.insertRoute m path x').2 ≠ none := by
  intro hok
  obtain ⟨t, ms, hat, rv, hv, hr⟩ := h.has _ he hn
  have key : ∀ q, (descend q (RouteTrie.addRouteNode q ⟨m, x'⟩) (segments path) r.routes.head).2 = none → SegsOK (segments path) → False := by
    intro q hq hs
    obtain ⟨y, h1, h2⟩ := descend_twice hs hn h.sw hat hq
    obtain ⟨rv', h3, h4⟩ := h1.route rv hv m _ hr
    rw [RouteTrie.addRouteNode, h3] at h2
    simp only at h2
    have : (rv'.route.addRoute m ⟨m, x'⟩).2 = some ⟨m, x⟩ := h4
    rw [show rv'.route.addRoute m ⟨m, x'⟩ = ((rv'.route.addRoute m ⟨m, x'⟩).1, some ⟨m, x⟩) from by rw [← this]] at h2
    simp at h2
  simp only [Router.insertRoute, RouteTrie.insertRoute, RouteTrie.insertDefaultRoute, segs_eq] at hok
  cases hcs : checkStars path with
  | some p => simp [hcs] at hok
  | none =>
    have hs := checkStars_none hcs
    simp only [hcs] at hok
    by_cases h0 : segments path = []
    · simp only [if_pos h0] at hok
      refine key ['/'] ?_ hs
      rw [h0]; exact hok
    · simp only [if_neg h0, insertLoop_eq _ _ h0] at hok
      exact key path hok hs

end Node
end Obsidian
