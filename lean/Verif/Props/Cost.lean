import Verif.Proofs.Cost
import Verif.Proofs.Program
import Verif.Spec.Cost
import Verif.Spec.Text

/-
C95: the work of a lookup is bounded by what was registered, whatever the request.
-/
namespace Obsidian.Props
open Obsidian Spec Node
variable {M H : Type}

theorem flat_splitSlash (p : Str) : flat ((splitSlash p).filter (fun k => !k.isEmpty)) = p.filter (· ≠ '/') := by
  have key : ∀ l : List Str, flat (l.filter (fun k => !k.isEmpty)) = flat l := by
    intro l
    induction l with
    | nil => rfl
    | cons a l ih => cases a <;> simp [ih]
  rw [key]
  induction p with
  | nil => rfl
  | cons c s ih =>
    rw [splitSlash]
    by_cases h : c = '/'
    · simp [h, ih]
    · simp only [if_neg h]
      rw [List.filter_cons_of_pos (by simpa using h), ← ih]
      split
      · next e => rw [e]; rfl
      · next e => rw [e]; rfl

theorem flat_segments_length (p : Str) : (flat (segs p)).length = letters p := by
  rw [segs, flat_splitSlash, letters]

/-- The table of a router is at most of this size. -/
structure SizeOK (t : RouteTrie M H) (s : Size) : Prop where
  filled : Filled t.head.children
  nodes : nodesIn t.head.children ≤ 2 * s.segments
  chars : charsIn t.head.children ≤ s.letters
  reach : reachIn t.head.children ≤ s.longest

theorem sizeOK_insert {t : RouteTrie M H} {s u : Size} {path : Str} {f : Node M H → Out (Node M H)}
    (h : SizeOK t s) (hf : Slight f (2 * u.segments) u.letters u.longest) (hs : segs path ≠ []) :
    SizeOK ⟨(insertLoop path f (segs path) t.head).1⟩ (s.and (.under path u)) := by
  have hne : ∀ x ∈ segs path, x ≠ [] := by rw [segs_eq]; exact segments_ne path
  rw [insertLoop_eq _ _ hs]
  obtain ⟨-, f2, f3, f4, f5⟩ := slight_descend (path := path) hf hne _ h.filled
  obtain ⟨-, h1, h2, h3⟩ := h
  rw [flat_segments_length] at f4 f5
  rw [segs_eq] at *
  refine ⟨f2, ?_, ?_, ?_⟩ <;> simp only [Size.and, Size.under] <;> omega

theorem SizeOK.mono {t : RouteTrie M H} {s s' : Size} (h : SizeOK t s) (h1 : s.segments ≤ s'.segments)
    (h2 : s.letters ≤ s'.letters) (h3 : s.longest ≤ s'.longest) : SizeOK t s' :=
  ⟨h.filled, Nat.le_trans h.nodes (by omega), Nat.le_trans h.chars h2, Nat.le_trans h.reach h3⟩

theorem SizeOK.and {t : RouteTrie M H} {s : Size} (h : SizeOK t s) (u : Size) : SizeOK t (s.and u) :=
  h.mono (by simp only [Size.and]; omega) (by simp only [Size.and]; omega) (by simp only [Size.and]; omega)

theorem sizeOK_children {t : RouteTrie M H} {n : Node M H} {s : Size} (h : SizeOK t s)
    (hc : n.children = t.head.children) : SizeOK ⟨n⟩ s :=
  ⟨by rw [hc]; exact h.filled, by rw [hc]; exact h.nodes, by rw [hc]; exact h.chars, by rw [hc]; exact h.reach⟩

theorem slight_same {f : Node M H → Out (Node M H)} (hk : ∀ n, (f n).1.key = n.key)
    (hc : ∀ n, (f n).1.children = n.children) : Slight f (2 * Size.zero.segments) Size.zero.letters Size.zero.longest := by
  intro n hn
  refine ⟨hk n, by rw [hc]; exact hn, ?_, ?_, ?_⟩ <;> rw [hc] <;> simp [Size.zero]

theorem slight_graft {t : RouteTrie M H} {s : Size} (path : Str) (h : SizeOK t s) :
    Slight (RouteTrie.graft path t) (2 * s.segments) s.letters s.longest := by
  intro n hn
  rw [RouteTrie.graft]
  split
  · exact ⟨rfl, hn, by dsimp only; omega, by dsimp only; omega, by dsimp only; omega⟩
  · obtain ⟨h0, h1, h2, h3⟩ := h
    exact ⟨rfl, h0, by simp only [children_mk]; omega, by simp only [children_mk]; omega, by simp only [children_mk]; omega⟩

theorem sizeOK_route {r : Router M H} {s : Size} (m : Method) (p : Str) (x : H) (h : SizeOK r.routes s) :
    SizeOK (r.insertRoute m p x).1.routes (s.and (.under p .zero)) := by
  show SizeOK (r.routes.insertRoute p ⟨m, x⟩).1 _
  rw [RouteTrie.insertRoute]
  split
  · exact h.and _
  · split
    · exact sizeOK_children (h.and _) (addRouteNode_facts _ _ _).2
    · next hs =>
      exact sizeOK_insert h (slight_same (fun n => (addRouteNode_facts _ _ n).1) (fun n => (addRouteNode_facts _ _ n).2)) hs

theorem sizeOK_useServiceTo {r : Router M H} {s : Size} (p : Str) (m : M) (h : SizeOK r.routes s) :
    SizeOK (r.useServiceTo p m).1.routes (s.and (.under p .zero)) := by
  show SizeOK (r.routes.insertMiddleware p m).1 _
  rw [RouteTrie.insertMiddleware]
  split
  · exact h.and _
  · by_cases hs : segs p = []
    · rw [hs]; exact h.and _
    · exact sizeOK_insert h (slight_same (fun n => (pushMiddleware_facts _ n).1) (fun n => (pushMiddleware_facts _ n).2)) hs

theorem sizeOK_useRouter {r s : Router M H} {a b : Size} (p : Str) (h : SizeOK r.routes a) (h' : SizeOK s.routes b) :
    SizeOK (r.useRouter p s).1.routes (a.and (.under p b)) := by
  show SizeOK (r.routes.insertSubRoute p s.routes).1 _
  rw [RouteTrie.insertSubRoute]
  split
  · exact h.and _
  · split
    · exact h'.mono (by simp only [Size.and, Size.under]; omega) (by simp only [Size.and, Size.under]; omega)
        (by simp only [Size.and, Size.under]; omega)
    · next hs => exact sizeOK_insert h (slight_graft p h') hs

theorem under_slash (p : Str) (b : Size) : Size.under ('/' :: p) b = Size.under p b := by
  simp [Size.under, letters, segments_slash]

theorem sizeOK_new : SizeOK (Router.new : Router M H).routes .zero :=
  ⟨.nil, by simp [Router.new, RouteTrie.new, Node.new, nodesIn], by simp [Router.new, RouteTrie.new, Node.new, charsIn],
    by simp [Router.new, RouteTrie.new, Node.new, reachIn]⟩

theorem zero_and (b : Size) : Size.zero.and b = b := by simp [Size.zero, Size.and]

mutual
theorem sizeOK_reg : ∀ (c : Reg M H) (r : Router M H) (s : Size), SizeOK r.routes s →
    SizeOK (c.run r).1.routes (s.and (sizeReg c))
  | .get p x, r, s, h => by rw [Reg.run, sizeReg]; exact sizeOK_route _ p x h
  | .post p x, r, s, h => by rw [Reg.run, sizeReg]; exact sizeOK_route _ p x h
  | .put p x, r, s, h => by rw [Reg.run, sizeReg]; exact sizeOK_route _ p x h
  | .patch p x, r, s, h => by rw [Reg.run, sizeReg]; exact sizeOK_route _ p x h
  | .delete p x, r, s, h => by rw [Reg.run, sizeReg]; exact sizeOK_route _ p x h
  | .useService m, r, s, h => by
    rw [Reg.run, sizeReg]
    exact sizeOK_children (h.and _) (pushMiddleware_facts m _).2
  | .useServiceTo p m, r, s, h => by rw [Reg.run, sizeReg]; exact sizeOK_useServiceTo p m h
  | .useRouter p sub, r, s, h => by
    have ih := sizeOK_regs sub Router.new _ sizeOK_new
    rw [Reg.run, sizeReg]
    split
    · next t e =>
      rw [e, zero_and] at ih
      exact sizeOK_useRouter p h ih
    · exact h.and _
  | .scope p sub, r, s, h => by
    have ih := sizeOK_regs sub Router.new _ sizeOK_new
    rw [Reg.run, sizeReg]
    split
    · next t e =>
      rw [e, zero_and] at ih
      rw [← under_slash]
      exact sizeOK_useRouter _ h ih
    · exact h.and _
theorem sizeOK_regs : ∀ (cs : List (Reg M H)) (r : Router M H) (s : Size), SizeOK r.routes s →
    SizeOK (runRegs cs r).1.routes (s.and (sizeRegs cs))
  | [], r, s, h => h.and _
  | c :: cs, r, s, h => by
    have h1 := sizeOK_reg c r s h
    rw [runRegs, sizeRegs]
    have assoc : s.and ((sizeReg c).and (sizeRegs cs)) = (s.and (sizeReg c)).and (sizeRegs cs) := by
      simp [Size.and, Nat.add_assoc, Nat.max_assoc]
    rw [assoc]
    split
    · next r' e =>
      rw [e] at h1
      exact sizeOK_regs cs r' _ h1
    · next r' _ e =>
      rw [e] at h1
      exact h1.and _
end

theorem searchRouteCost_fst (t : RouteTrie M H) (path : Str) : (t.searchRouteCost path).1 = t.searchRoute path := by
  rw [RouteTrie.searchRouteCost, RouteTrie.searchRoute]
  split
  · rfl
  · rw [← getNextNodeCost_fst]
    generalize t.head.getNextNodeCost (segs path) HMap.empty t.head.mws false = q
    obtain ⟨r, c⟩ := q
    cases r <;> rfl

theorem searchRouteCost_within (t : RouteTrie M H) (path : Str) :
    Within (t.searchRouteCost path).2 (nodesIn t.head.children) (charsIn t.head.children) (1 + levelsIn t.head.children) := by
  rw [RouteTrie.searchRouteCost]
  split
  · exact ⟨Nat.zero_le _, Nat.zero_le _, Nat.zero_le _⟩
  · have := getNextNodeCost_within t.head (segs path) HMap.empty t.head.mws false
    rw [nodesBelow_eq, charsBelow_eq, levelsBelow_eq] at this
    generalize t.head.getNextNodeCost (segs path) HMap.empty t.head.mws false = q at this
    obtain ⟨r, c⟩ := q
    cases r <;> exact this

theorem searchRouteCost_moves {t : RouteTrie M H} (h : Filled t.head.children) (path : Str) :
    (t.searchRouteCost path).2.moves ≤
      (segments path).length + 2 * (segments path).length * nodesIn t.head.children := by
  rw [RouteTrie.searchRouteCost, ← segs_eq]
  split
  · exact Nat.zero_le _
  · have := (getNextNodeCost_moves (N := (segs path).length) t.head (segs path) HMap.empty t.head.mws false h (Nat.le_refl _)).1
    rw [nodesBelow_eq] at this
    generalize t.head.getNextNodeCost (segs path) HMap.empty t.head.mws false = q at this
    obtain ⟨r, c⟩ := q
    cases r <;> exact this

/-- **C95**: whatever is registered, also when a registration panicked, and whatever path is looked up: the counted lookup
finds what the lookup finds; it visits at most two nodes for each segment that was registered; it compares at most as
many characters as were registered; its calls are nested at most one deeper than the longest path has characters; and
for each segment of the path that is looked up, it moves at most four segments for each registered one, and one more. -/
theorem C95_lookup_is_bounded (prog : List (Reg M H)) (path : Str) :
    let r := (build prog).1
    (r.searchRouteCost path).1 = r.searchRoute path ∧
    (r.searchRouteCost path).2.nodes ≤ 2 * (sizeRegs prog).segments ∧
    (r.searchRouteCost path).2.chars ≤ (sizeRegs prog).letters ∧
    (r.searchRouteCost path).2.depth ≤ 1 + (sizeRegs prog).longest ∧
    (r.searchRouteCost path).2.moves ≤ (segments path).length * (4 * (sizeRegs prog).segments + 1) := by
  have h := sizeOK_regs prog Router.new _ (sizeOK_new (M := M) (H := H))
  rw [zero_and] at h
  have hw := searchRouteCost_within (build prog).1.routes path
  have hl := h.filled.levels
  have hm := searchRouteCost_moves h.filled path
  obtain ⟨h0, h1, h2, h3⟩ := h
  obtain ⟨w1, w2, w3⟩ := hw
  refine ⟨searchRouteCost_fst _ _, Nat.le_trans w1 h1, Nat.le_trans w2 h2, Nat.le_trans w3 ?_, Nat.le_trans hm ?_⟩
  · have : levelsIn (build prog).1.routes.head.children ≤ (sizeRegs prog).longest := Nat.le_trans hl h3
    omega
  · have := Nat.mul_le_mul_left (2 * (segments path).length) h1
    have e : 2 * (segments path).length * (2 * (sizeRegs prog).segments) = (segments path).length * (4 * (sizeRegs prog).segments) := by
      rw [Nat.mul_comm 2, Nat.mul_assoc, ← Nat.mul_assoc 2 2]
    rw [Nat.mul_add, Nat.mul_one, ← e, Nat.add_comm]
    exact Nat.add_le_add_right this _

/-- A table with a split key, a parameter, a `*` and a mounted router. -/
private def table : List (Reg Nat Nat) :=
  [.get "/users".toList 1, .get "/user/x/:id/z".toList 2, .post "/a/*".toList 3, .useServiceTo "/ab".toList 9,
    .scope "sub".toList [.get "/x/y".toList 4]]

/-- The table is accepted; 11 segments with 23 characters are registered, the longest path has 9. -/
example : (build table).2 = none ∧ (sizeRegs table).segments = 11 ∧ (sizeRegs table).letters = 23 ∧
    (sizeRegs table).longest = 9 := by
  decide +kernel

/-- A lookup that succeeds, and one with a path of a hundred segments that does not. -/
example :
    ((build table).1.searchRouteCost "/user/x/5/z".toList).2 = ⟨6, 8, 4, 6⟩ ∧
    ((build table).1.searchRouteCost (List.replicate 50 "/user/x".toList).flatten).2 = ⟨7, 9, 4, 390⟩ := by
  decide +kernel

end Obsidian.Props
