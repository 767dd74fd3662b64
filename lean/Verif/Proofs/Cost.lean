import Verif.Model.Cost
import Verif.Proofs.WayInsert

/-
The cost of a lookup is bounded by the size of the tree, and the size of the tree by what was registered.
-/
namespace Obsidian
namespace Node
variable {M H : Type}

/-! ### Counting changes nothing -/

mutual
theorem getNextNodeCost_fst : ∀ (n : Node M H) (key : List Str) (ps : HMap Str Str) (mws : List M) (brk : Bool),
    (n.getNextNodeCost key ps mws brk).1 = n.getNextNode key ps mws brk
  | mk _ _ _, [], _, _, _ => rfl
  | mk _ _ cs, curr :: key, ps, mws, brk => getNextLoopCost_fst cs curr key ps mws brk
theorem getNextLoopCost_fst : ∀ (cs : List (Node M H)) (curr : Str) (key : List Str) (ps : HMap Str Str) (mws : List M)
    (brk : Bool), (getNextLoopCost cs curr key ps mws brk).1 = getNextLoop cs curr key ps mws brk
  | [], _, _, _, _, _ => rfl
  | node :: rest, curr, key, ps, mws, brk => by
    have ih := getNextLoopCost_fst rest curr
    rw [getNextLoopCost, getNextLoop]
    by_cases h1 : (!brk && node.isParam) = true
    · rw [if_pos h1, if_pos h1]
      cases sliceFrom node.key 1 with
      | none => rfl
      | some name =>
        dsimp only
        by_cases h2 : key.isEmpty = true
        · rw [if_pos h2, if_pos h2]
          cases node.value with
          | none => exact ih ..
          | some v => rfl
        · rw [if_neg h2, if_neg h2, ← getNextNodeCost_fst node]
          generalize node.getNextNodeCost key ps mws false = q
          obtain ⟨r, c⟩ := q
          cases r with
          | panic => rfl
          | found => rfl
          | notFound => exact ih ..
    · rw [if_neg h1, if_neg h1]
      by_cases h3 : (!brk && decide (node.key = ['*'])) = true
      · rw [if_pos h3, if_pos h3]
      · rw [if_neg h3, if_neg h3]
        dsimp only
        by_cases h4 : matchCount node.key curr = byteLen node.key ∧ matchCount node.key curr ≠ byteLen curr
        · rw [if_pos h4, if_pos h4]
          cases sliceFrom curr (matchCount node.key curr) with
          | none => rfl
          | some curr' =>
            dsimp only
            by_cases h5 : matchCount node.key curr ≠ 0
            · rw [if_pos h5, if_pos h5, ← getNextNodeCost_fst node]
              generalize node.getNextNodeCost (curr' :: key) ps mws true = q
              obtain ⟨r, c⟩ := q
              cases r with
              | panic => rfl
              | found => rfl
              | notFound => exact ih ..
            · rw [if_neg h5, if_neg h5]
              exact ih ..
        · rw [if_neg h4, if_neg h4]
          by_cases h6 : matchCount node.key curr ≠ 0 ∧ matchCount node.key curr = byteLen node.key
          · rw [if_pos h6, if_pos h6]
            by_cases h2 : key.isEmpty = true
            · rw [if_pos h2, if_pos h2]
              cases node.value with
              | some v => rfl
              | none =>
                dsimp only
                cases starChild node.children with
                | some c => rfl
                | none => exact ih ..
            · rw [if_neg h2, if_neg h2, ← getNextNodeCost_fst node]
              generalize node.getNextNodeCost key ps mws false = q
              obtain ⟨r, c⟩ := q
              cases r with
              | panic => rfl
              | found => rfl
              | notFound => exact ih ..
          · rw [if_neg h6, if_neg h6]
            exact ih ..
end

/-! ### The size of a tree -/

mutual
/-- The nodes below a node. -/
def nodesBelow : Node M H → Nat
  | mk _ _ cs => nodesIn cs
/-- The nodes of a list of trees. -/
def nodesIn : List (Node M H) → Nat
  | [] => 0
  | c :: cs => 1 + nodesBelow c + nodesIn cs
end

mutual
/-- The characters of the keys below a node. -/
def charsBelow : Node M H → Nat
  | mk _ _ cs => charsIn cs
/-- The characters of the keys of a list of trees. -/
def charsIn : List (Node M H) → Nat
  | [] => 0
  | c :: cs => c.key.length + charsBelow c + charsIn cs
end

mutual
/-- The characters of the longest path below a node. -/
def reachBelow : Node M H → Nat
  | mk _ _ cs => reachIn cs
/-- The characters of the longest path in a list of trees. -/
def reachIn : List (Node M H) → Nat
  | [] => 0
  | c :: cs => max (c.key.length + reachBelow c) (reachIn cs)
end

mutual
/-- The levels below a node. -/
def levelsBelow : Node M H → Nat
  | mk _ _ cs => levelsIn cs
/-- The levels of a list of trees. -/
def levelsIn : List (Node M H) → Nat
  | [] => 0
  | c :: cs => max (1 + levelsBelow c) (levelsIn cs)
end

theorem nodesBelow_eq (n : Node M H) : n.nodesBelow = nodesIn n.children := by cases n; rw [nodesBelow]; rfl
theorem charsBelow_eq (n : Node M H) : n.charsBelow = charsIn n.children := by cases n; rw [charsBelow]; rfl
theorem reachBelow_eq (n : Node M H) : n.reachBelow = reachIn n.children := by cases n; rw [reachBelow]; rfl
theorem levelsBelow_eq (n : Node M H) : n.levelsBelow = levelsIn n.children := by cases n; rw [levelsBelow]; rfl

theorem nodesIn_append (a b : List (Node M H)) : nodesIn (a ++ b) = nodesIn a + nodesIn b := by
  induction a with
  | nil => simp [nodesIn]
  | cons c a ih => simp [nodesIn, ih, Nat.add_assoc]

theorem charsIn_append (a b : List (Node M H)) : charsIn (a ++ b) = charsIn a + charsIn b := by
  induction a with
  | nil => simp [charsIn]
  | cons c a ih => simp [charsIn, ih, Nat.add_assoc]

theorem reachIn_append (a b : List (Node M H)) : reachIn (a ++ b) = max (reachIn a) (reachIn b) := by
  induction a with
  | nil => simp [reachIn]
  | cons c a ih => simp [reachIn, ih, Nat.max_assoc]

/-! ### The cost of a lookup -/

theorem comparisons_le : ∀ nk key : Str, comparisons nk key ≤ nk.length
  | [], _ => by simp [comparisons]
  | _ :: _, [] => by simp [comparisons]
  | k :: nk, t :: key => by
    have := comparisons_le nk key
    rw [comparisons]
    split <;> simp <;> omega

theorem starVisits_le : ∀ cs : List (Node M H), starVisits cs ≤ nodesIn cs
  | [] => by simp [starVisits]
  | c :: cs => by
    have := starVisits_le cs
    rw [starVisits, nodesIn]
    split <;> omega

/-- The cost is within bounds. -/
structure Within (c : Cost) (nodes chars depth : Nat) : Prop where
  nodes : c.nodes ≤ nodes
  chars : c.chars ≤ chars
  depth : c.depth ≤ depth

theorem Within.add {a b : Cost} {n₁ n₂ c₁ c₂ d₁ d₂ : Nat} (h : Within a n₁ c₁ d₁) (h' : Within b n₂ c₂ d₂) :
    Within (a.add b) (n₁ + n₂) (c₁ + c₂) (max d₁ d₂) := by
  obtain ⟨h1, h2, h3⟩ := h
  obtain ⟨g1, g2, g3⟩ := h'
  refine ⟨?_, ?_, ?_⟩ <;> simp only [Cost.add] <;> omega

theorem Within.mono {a : Cost} {n₁ n₂ c₁ c₂ d₁ d₂ : Nat} (h : Within a n₁ c₁ d₁) (hn : n₁ ≤ n₂) (hc : c₁ ≤ c₂)
    (hd : d₁ ≤ d₂) : Within a n₂ c₂ d₂ :=
  ⟨Nat.le_trans h.nodes hn, Nat.le_trans h.chars hc, Nat.le_trans h.depth hd⟩

mutual
theorem getNextNodeCost_within : ∀ (n : Node M H) (key : List Str) (ps : HMap Str Str) (mws : List M) (brk : Bool),
    Within (n.getNextNodeCost key ps mws brk).2 n.nodesBelow n.charsBelow (1 + n.levelsBelow)
  | mk _ _ _, [], _, _, _ => ⟨by simp [getNextNodeCost], by simp [getNextNodeCost], by simp [getNextNodeCost]⟩
  | mk _ _ cs, curr :: key, ps, mws, brk => by
    obtain ⟨h1, h2, h3⟩ := getNextLoopCost_within cs curr key ps mws brk
    rw [nodesBelow, charsBelow, levelsBelow]
    refine ⟨?_, ?_, ?_⟩ <;> simp only [getNextNodeCost] <;> omega
theorem getNextLoopCost_within : ∀ (cs : List (Node M H)) (curr : Str) (key : List Str) (ps : HMap Str Str) (mws : List M)
    (brk : Bool), Within (getNextLoopCost cs curr key ps mws brk).2 (nodesIn cs) (charsIn cs) (levelsIn cs)
  | [], _, _, _, _, _ => ⟨Nat.le_refl _, Nat.le_refl _, Nat.le_refl _⟩
  | node :: rest, curr, key, ps, mws, brk => by
    have ih := getNextLoopCost_within rest curr
    have ihn := getNextNodeCost_within node
    have h0 : Within ⟨1, 0, 0, 0⟩ 1 node.key.length 1 := ⟨by simp, by simp, by simp⟩
    have h00 : ∀ k, Within ⟨1, comparisons node.key curr, 0, k⟩ 1 node.key.length 1 :=
      fun _ => ⟨by simp, comparisons_le _ _, by simp⟩
    have hs : Within ⟨starVisits node.children, 0, 0, 0⟩ node.nodesBelow 0 0 :=
      ⟨by rw [nodesBelow_eq]; exact starVisits_le _, by simp, by simp⟩
    rw [nodesIn, charsIn, levelsIn, getNextLoopCost]
    split
    · split
      · exact h0.mono (by omega) (by omega) (by omega)
      · split
        · split
          · exact h0.mono (by omega) (by omega) (by omega)
          · exact (h0.add (ih _ _ _ _)).mono (by omega) (by omega) (by omega)
        · have hn := ihn key ps mws false
          generalize node.getNextNodeCost key ps mws false = q at hn
          obtain ⟨r, c⟩ := q
          cases r with
          | panic => exact (h0.add hn).mono (by omega) (by omega) (by omega)
          | found => exact (h0.add hn).mono (by omega) (by omega) (by omega)
          | notFound => exact ((h0.add hn).add (ih _ _ _ _)).mono (by omega) (by omega) (by omega)
    · split
      · exact h0.mono (by omega) (by omega) (by omega)
      · dsimp only
        split
        · split
          · exact (h00 _).mono (by omega) (by omega) (by omega)
          · next curr' _ =>
            split
            · have hn := ihn (curr' :: key) ps mws true
              generalize node.getNextNodeCost (curr' :: key) ps mws true = q at hn
              obtain ⟨r, c⟩ := q
              cases r with
              | panic => exact ((h00 _).add hn).mono (by omega) (by omega) (by omega)
              | found => exact ((h00 _).add hn).mono (by omega) (by omega) (by omega)
              | notFound => exact (((h00 _).add hn).add (ih _ _ _ _)).mono (by omega) (by omega) (by omega)
            · exact ((h00 _).add (ih _ _ _ _)).mono (by omega) (by omega) (by omega)
        · split
          · split
            · split
              · exact (h00 _).mono (by omega) (by omega) (by omega)
              · split
                · exact ((h00 _).add hs).mono (by omega) (by omega) (by omega)
                · exact (((h00 _).add hs).add (ih _ _ _ _)).mono (by omega) (by omega) (by omega)
            · have hn := ihn key ps mws false
              generalize node.getNextNodeCost key ps mws false = q at hn
              obtain ⟨r, c⟩ := q
              cases r with
              | panic => exact ((h00 _).add hn).mono (by omega) (by omega) (by omega)
              | found => exact ((h00 _).add hn).mono (by omega) (by omega) (by omega)
              | notFound => exact (((h00 _).add hn).add (ih _ _ _ _)).mono (by omega) (by omega) (by omega)
          · exact ((h00 _).add (ih _ _ _ _)).mono (by omega) (by omega) (by omega)
end

/-! ### Moved segments -/

/-- No key is empty. -/
inductive Filled : List (Node M H) → Prop where
  | nil : Filled []
  | cons {c : Node M H} {cs : List (Node M H)} : c.key ≠ [] → Filled c.children → Filled cs → Filled (c :: cs)

theorem Filled.mem {cs : List (Node M H)} (h : Filled cs) {c : Node M H} (hc : c ∈ cs) :
    c.key ≠ [] ∧ Filled c.children := by
  induction h with
  | nil => simp at hc
  | cons h1 h2 _ _ ih =>
    rcases List.mem_cons.1 hc with rfl | hc
    · exact ⟨h1, h2⟩
    · exact ih hc

theorem filled_append {a b : List (Node M H)} : Filled (a ++ b) ↔ Filled a ∧ Filled b := by
  induction a with
  | nil => exact ⟨fun h => ⟨.nil, h⟩, fun h => h.2⟩
  | cons c a ih =>
    constructor
    · intro h
      cases h with
      | cons h1 h2 h3 => exact ⟨.cons h1 h2 (ih.1 h3).1, (ih.1 h3).2⟩
    · rintro ⟨h, hb⟩
      cases h with
      | cons h1 h2 h3 => exact .cons h1 h2 (ih.2 ⟨h3, hb⟩)

theorem Filled.levels {cs : List (Node M H)} (h : Filled cs) : levelsIn cs ≤ reachIn cs := by
  induction h with
  | nil => simp [levelsIn]
  | cons h1 _ _ ih1 ih2 =>
    have := List.length_pos_iff.2 h1
    rw [levelsIn, reachIn, levelsBelow_eq, reachBelow_eq]
    omega

theorem byteLen_pos {x : Str} (h : x ≠ []) : byteLen x ≠ 0 := fun h' => h (byteLen_eq_zero.1 h')

mutual
theorem getNextNodeCost_moves {N : Nat} : ∀ (n : Node M H) (key : List Str) (ps : HMap Str Str) (mws : List M) (brk : Bool),
    Filled n.children → key.length ≤ N →
    (n.getNextNodeCost key ps mws brk).2.moves ≤ N + 2 * N * n.nodesBelow ∧
    ∀ key' ps' mws', (n.getNextNodeCost key ps mws brk).1 = .notFound key' ps' mws' → key'.length + 1 ≤ key.length
  | mk _ _ _, [], _, _, _, _, _ => ⟨Nat.zero_le _, fun _ _ _ h => by simp [getNextNodeCost] at h⟩
  | mk _ _ cs, curr :: key, ps, mws, brk, hf, hk => by
    obtain ⟨h1, h2⟩ := getNextLoopCost_moves (N := N) cs curr key ps mws brk hf (by simpa using hk)
    rw [nodesBelow]
    simp only [List.length_cons] at hk
    refine ⟨?_, fun key' ps' mws' h => ?_⟩
    · simp only [getNextNodeCost]; omega
    · have := h2 key' ps' mws' h
      simp; omega
theorem getNextLoopCost_moves {N : Nat} : ∀ (cs : List (Node M H)) (curr : Str) (key : List Str) (ps : HMap Str Str)
    (mws : List M) (brk : Bool), Filled cs → key.length + 1 ≤ N →
    (getNextLoopCost cs curr key ps mws brk).2.moves ≤ 2 * N * nodesIn cs ∧
    ∀ key' ps' mws', (getNextLoopCost cs curr key ps mws brk).1 = .notFound key' ps' mws' → key'.length ≤ key.length
  | [], _, _, _, _, _, _, _ => ⟨Nat.zero_le _, fun _ _ _ h => by
      simp only [getNextLoopCost, Search.notFound.injEq] at h; rw [h.1]; exact Nat.le_refl _⟩
  | node :: rest, curr, key, ps, mws, brk, hf, hk => by
    have hfr : Filled rest := by cases hf; assumption
    have hfn := hf.mem (c := node) (by simp)
    have ih := getNextLoopCost_moves (N := N) rest curr
    have ihn := getNextNodeCost_moves (N := N) node
    have e : 2 * N * (1 + node.nodesBelow + nodesIn rest) = 2 * N + 2 * N * node.nodesBelow + 2 * N * nodesIn rest := by
      rw [Nat.mul_add, Nat.mul_add, Nat.mul_one]
    rw [nodesIn, e, getNextLoopCost]
    split
    · split
      · exact ⟨Nat.zero_le _, fun _ _ _ h => by cases h⟩
      · split
        · split
          · exact ⟨Nat.zero_le _, fun _ _ _ h => by cases h⟩
          · obtain ⟨i1, i2⟩ := ih key ps mws brk hfr hk
            exact ⟨by simp only [Cost.add]; omega, i2⟩
        · obtain ⟨n1, n2⟩ := ihn key ps mws false hfn.2 (by omega)
          generalize node.getNextNodeCost key ps mws false = q at n1 n2
          obtain ⟨r, c⟩ := q
          dsimp only at n1
          cases r with
          | panic => exact ⟨by simp only [Cost.add]; omega, fun _ _ _ h => by cases h⟩
          | found => exact ⟨by simp only [Cost.add]; omega, fun _ _ _ h => by cases h⟩
          | notFound key' ps' mws' =>
            have hl := n2 _ _ _ rfl
            obtain ⟨i1, i2⟩ := ih key' ps' mws' brk hfr (by omega)
            exact ⟨by simp only [Cost.add]; omega, fun _ _ _ h => Nat.le_trans (i2 _ _ _ h) (by omega)⟩
    · split
      · exact ⟨Nat.zero_le _, fun _ _ _ h => by cases h⟩
      · dsimp only
        split
        · split
          · exact ⟨by dsimp only; omega, fun _ _ _ h => by cases h⟩
          · next hb _ curr' _ =>
            split
            · obtain ⟨n1, n2⟩ := ihn (curr' :: key) ps mws true hfn.2 (by simpa using hk)
              generalize node.getNextNodeCost (curr' :: key) ps mws true = q at n1 n2
              obtain ⟨r, c⟩ := q
              dsimp only at n1
              cases r with
              | panic => exact ⟨by simp only [Cost.add]; omega, fun _ _ _ h => by cases h⟩
              | found => exact ⟨by simp only [Cost.add]; omega, fun _ _ _ h => by cases h⟩
              | notFound key' ps' mws' =>
                have hl := n2 _ _ _ rfl
                simp only [List.length_cons] at hl
                obtain ⟨i1, i2⟩ := ih key' ps' mws' brk hfr (by omega)
                exact ⟨by simp only [Cost.add]; omega, fun _ _ _ h => Nat.le_trans (i2 _ _ _ h) (by omega)⟩
            · next h0 =>
              exact absurd (by rw [← hb.1]; simpa using h0) (byteLen_pos hfn.1)
        · split
          · split
            · split
              · exact ⟨Nat.zero_le _, fun _ _ _ h => by cases h⟩
              · split
                · exact ⟨Nat.zero_le _, fun _ _ _ h => by cases h⟩
                · obtain ⟨i1, i2⟩ := ih key ps mws brk hfr hk
                  exact ⟨by simp only [Cost.add]; omega, i2⟩
            · obtain ⟨n1, n2⟩ := ihn key ps mws false hfn.2 (by omega)
              generalize node.getNextNodeCost key ps mws false = q at n1 n2
              obtain ⟨r, c⟩ := q
              dsimp only at n1
              cases r with
              | panic => exact ⟨by simp only [Cost.add]; omega, fun _ _ _ h => by cases h⟩
              | found => exact ⟨by simp only [Cost.add]; omega, fun _ _ _ h => by cases h⟩
              | notFound key' ps' mws' =>
                have hl := n2 _ _ _ rfl
                obtain ⟨i1, i2⟩ := ih key' ps' mws' brk hfr (by omega)
                exact ⟨by simp only [Cost.add]; omega, fun _ _ _ h => Nat.le_trans (i2 _ _ _ h) (by omega)⟩
          · obtain ⟨i1, i2⟩ := ih key ps mws brk hfr hk
            exact ⟨by simp only [Cost.add]; omega, i2⟩
end

/-! ### The size after an insertion -/

/-- A change of a node that adds at most `a` nodes with `b` characters, and paths of at most `r` characters. -/
structure Adds (n n' : Node M H) (a b r : Nat) : Prop where
  key : n'.key = n.key
  filled : Filled n'.children
  nodes : nodesIn n'.children ≤ nodesIn n.children + a
  chars : charsIn n'.children ≤ charsIn n.children + b
  reach : reachIn n'.children ≤ max (reachIn n.children) r

/-- A function all of whose changes are small. -/
def Slight (f : Node M H → Out (Node M H)) (a b r : Nat) : Prop :=
  ∀ n, Filled n.children → Adds n (f n).1 a b r

theorem slight_processInsertion {path : Str} (N : Nat) : ∀ {key : Str}, key.length ≤ N →
    ∀ {f : Node M H → Out (Node M H)} {a b r : Nat}, key ≠ [] → Slight f a b r →
    Slight (fun n => processInsertion path n key f) (a + 2) (b + key.length) (key.length + r) := by
  induction N with
  | zero =>
    intro key hl f a b r hk
    exact absurd (List.length_eq_zero_iff.1 (by omega)) hk
  | succ N ih =>
    intro key hl f a b r hk hf n hw
    cases n with
    | mk k v cs =>
      simp only [children_mk] at hw
      have hdec := decides_ne (fun _ hc => (hw.mem hc).1) hk
      dsimp only
      rw [processInsertion]
      generalize insertionAction cs key = act at hdec ⊢
      cases hdec with
      | error =>
        dsimp only
        split <;> exact ⟨rfl, hw, by simp only [children_mk]; omega, by simp only [children_mk]; omega,
          by simp only [children_mk]; omega⟩
      | create hp hc =>
        obtain ⟨f1, f2, f3, f4, f5⟩ := hf (Node.new key none) .nil
        have f1 : (f (Node.new key none)).1.key = key := f1
        simp only [Node.new, children_mk, nodesIn, charsIn, reachIn] at f3 f4 f5
        have hn : Filled [(f (Node.new key none)).1] := .cons (by rw [f1]; exact hk) f2 .nil
        dsimp only
        split
        · refine ⟨rfl, filled_append.2 ⟨hw, hn⟩, ?_, ?_, ?_⟩ <;>
            simp only [children_mk, nodesIn_append, charsIn_append, reachIn_append, nodesIn, charsIn, reachIn,
              nodesBelow_eq, charsBelow_eq, reachBelow_eq, f1, Node.new] at * <;> omega
        · refine ⟨rfl, filled_append (a := [_]).2 ⟨hn, hw⟩, ?_, ?_, ?_⟩ <;>
            simp only [children_mk, nodesIn, charsIn, reachIn,
              nodesBelow_eq, charsBelow_eq, reachBelow_eq, f1, Node.new] at * <;> omega
      | @next pre post c e hck hp hc =>
        subst e
        simp only [modifyChild_mid]
        have hcm := hw.mem (c := c) (by simp)
        obtain ⟨f1, f2, f3, f4, f5⟩ := hf c hcm.2
        have hw' := filled_append.1 hw
        have hpost : Filled post := by cases hw'.2; assumption
        refine ⟨rfl, filled_append.2 ⟨hw'.1, .cons (by rw [f1]; exact hcm.1) f2 hpost⟩, ?_, ?_, ?_⟩ <;>
          simp only [children_mk, nodesIn_append, charsIn_append, reachIn_append, nodesIn, charsIn, reachIn,
              nodesBelow_eq, charsBelow_eq, reachBelow_eq, f1, hck] <;> omega
      | @splitKey pre post c rest e hkey hr hp hcp =>
        subst e
        subst hkey
        simp only [sliceFrom_append, processInsertionAt_mid]
        have hcm := hw.mem (c := c) (by simp)
        have hlen : rest.length ≤ N := by
          have := List.length_pos_iff.2 hcm.1
          simp at hl; omega
        obtain ⟨f1, f2, f3, f4, f5⟩ := ih hlen hr hf c hcm.2
        dsimp only at f1 f2 f3 f4 f5
        have hw' := filled_append.1 hw
        have hpost : Filled post := by cases hw'.2; assumption
        refine ⟨rfl, filled_append.2 ⟨hw'.1, .cons (by rw [f1]; exact hcm.1) f2 hpost⟩, ?_, ?_, ?_⟩ <;>
          simp only [children_mk, nodesIn_append, charsIn_append, reachIn_append, nodesIn, charsIn, reachIn,
              nodesBelow_eq, charsBelow_eq, reachBelow_eq, f1, List.length_append] <;> omega
      | @splitNode pre post c L ck nk e hck hkey hL hckn hnk hp hcp =>
        subst e
        subst hkey
        simp only [modifyChild_mid]
        rw [splitNode_eq f hck]
        have hcm := hw.mem (c := c) (by simp)
        have hw' := filled_append.1 hw
        have hpost : Filled post := by cases hw'.2; assumption
        have hi : Filled [mk ck c.value c.children] := .cons hckn hcm.2 .nil
        split
        · next h =>
          subst h
          obtain ⟨f1, f2, f3, f4, f5⟩ := hf (mk L none [mk ck c.value c.children]) hi
          have f1 : (f (mk L none [mk ck c.value c.children])).1.key = L := f1
          refine ⟨rfl, filled_append.2 ⟨hw'.1, .cons (by rw [f1]; exact hL) f2 hpost⟩, ?_, ?_, ?_⟩ <;>
          simp only [children_mk, key_mk, nodesIn_append, charsIn_append, reachIn_append, nodesIn, charsIn, reachIn,
              nodesBelow_eq, charsBelow_eq, reachBelow_eq, f1, hck, List.length_append] at f3 f4 f5 ⊢ <;> omega
        · next h =>
          obtain ⟨f1, f2, f3, f4, f5⟩ := hf (Node.new nk none) .nil
          have f1 : (f (Node.new nk none)).1.key = nk := f1
          refine ⟨rfl, filled_append.2 ⟨hw'.1, .cons hL (.cons (by rw [f1]; exact h) f2 hi) hpost⟩, ?_, ?_, ?_⟩ <;>
          simp only [children_mk, key_mk, nodesIn_append, charsIn_append, reachIn_append, nodesIn, charsIn, reachIn,
              nodesBelow_eq, charsBelow_eq, reachBelow_eq, f1, hck, List.length_append, Node.new] at f3 f4 f5 f1 ⊢ <;> omega

theorem slight_descend {path : Str} {f : Node M H → Out (Node M H)} {a b r : Nat} (hf : Slight f a b r) :
    ∀ {ss : List Str}, (∀ s ∈ ss, s ≠ []) →
      Slight (descend path f ss) (a + 2 * ss.length) (b + (flat ss).length) ((flat ss).length + r)
  | [], _ => by
    intro n hn
    obtain ⟨f1, f2, f3, f4, f5⟩ := hf n hn
    exact ⟨f1, f2, by simpa [descend] using f3, by simpa [descend] using f4, by simpa [descend] using f5⟩
  | s :: ss, hne => by
    have ih := slight_descend (path := path) hf (ss := ss) (fun t ht => hne t (by simp [ht]))
    intro n hn
    obtain ⟨f1, f2, f3, f4, f5⟩ := slight_processInsertion (path := path) s.length (Nat.le_refl _) (hne s (by simp)) ih n hn
    refine ⟨f1, f2, ?_, ?_, ?_⟩ <;> simp only [descend, flat_cons, List.length_append, List.length_cons] at * <;> omega

end Node
end Obsidian
