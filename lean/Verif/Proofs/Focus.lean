import Verif.Proofs.Insert
import Verif.Proofs.Program

/-
Inserting along a path, seen as a focus: the walk reaches one node, does something with it, and puts
the result back; and walking the same path again reaches what was put back.  Nothing is assumed about
the tree or about the path.
-/
namespace Obsidian.Node
open Obsidian Spec
variable {M H : Type}

/-- What the loop of the insertion action decides at one child, if it decides. -/
def stepAction (key ck : Str) (i : Nat) : Option Action :=
  if startsColon ck || startsColon key then
    if key = ck then some (.nextNode i) else some (.error i)
  else if matchCount ck key = byteLen key ∧ matchCount ck key = byteLen ck then some (.nextNode i)
  else if matchCount ck key = byteLen ck then some (.splitKey (matchCount ck key) i)
  else if matchCount ck key ≠ 0 then some (.splitNode (matchCount ck key) i)
  else none

theorem actionFrom_step (key : Str) (c : Node M H) (rest : List (Node M H)) (i : Nat) :
    insertionActionFrom key (c :: rest) i =
      (stepAction key c.key i).getD (insertionActionFrom key rest (i + 1)) := by
  rw [insertionActionFrom, stepAction, isParam]
  by_cases h1 : (startsColon c.key || startsColon key) = true
  · rw [if_pos h1, if_pos h1]; split <;> rfl
  · rw [if_neg h1, if_neg h1]
    dsimp only
    split
    · rfl
    · split
      · rfl
      · split <;> rfl

/-- The children that the loop passes over. -/
def Skips (key : Str) (l : List (Node M H)) : Prop :=
  ∀ r i, insertionActionFrom key (l ++ r) i = insertionActionFrom key r (i + l.length)

theorem action_split (key : Str) (cs : List (Node M H)) (i : Nat) :
    insertionActionFrom key cs i = .createNewNode ∨
    ∃ l₁ c l₂ a, cs = l₁ ++ c :: l₂ ∧ Skips key l₁ ∧ stepAction key c.key (i + l₁.length) = some a ∧
      insertionActionFrom key cs i = a := by
  induction cs generalizing i with
  | nil => exact Or.inl rfl
  | cons c cs ih =>
    rw [actionFrom_step]
    cases h : stepAction key c.key i with
    | some a => exact Or.inr ⟨[], c, cs, a, rfl, fun r i => rfl, h, rfl⟩
    | none =>
      have hn : ∀ j, stepAction key c.key j = none := by
        intro j
        rw [stepAction] at h ⊢
        split at h <;> split at h <;> first | cases h | skip
        split at h <;> first | cases h | skip
        split at h <;> first | cases h | skip
        rw [if_neg (by assumption), if_neg (by assumption), if_neg (by assumption), if_neg (by assumption)]
      rcases ih (i + 1) with h1 | ⟨l₁, d, l₂, a, rfl, h2, h3, h4⟩
      · exact Or.inl h1
      · refine Or.inr ⟨c :: l₁, d, l₂, a, rfl, fun r j => ?_, ?_, h4⟩
        · rw [List.cons_append, actionFrom_step, hn, Option.getD_none, h2]
          congr 1; simp; omega
        · rw [← h3]; congr 1; simp; omega

/-- The loop, at a child that decides. -/
theorem Skips.at {key : Str} {l₁ l₂ : List (Node M H)} {c : Node M H} {a : Action} (h : Skips key l₁)
    (hs : stepAction key c.key l₁.length = some a) : insertionAction (l₁ ++ c :: l₂) key = a := by
  rw [insertionAction, h, actionFrom_step, Nat.zero_add, hs]; rfl

theorem lcp_same (s : Str) : lcp s s = s := by
  induction s with
  | nil => rfl
  | cons c k ih => simp [lcp, ih]

theorem step_self (key : Str) (i : Nat) : stepAction key key i = some (.nextNode i) := by
  rw [stepAction]
  split
  · rw [if_pos rfl]
  · rw [if_pos]
    rw [matchCount_eq, lcp_same]; exact ⟨rfl, rfl⟩

/-- Walking from `n` along `key` reaches `t`, to be put back with `C`; walking there again reaches what
was put back. -/
structure Focus (n : Node M H) (key : Str) (t : Node M H) (C : Node M H → Node M H) : Prop where
  first : ∀ path f, n.processInsertion path key f = (C (f t).1, (f t).2)
  keyEq : ∀ t', (C t').key = n.key
  again : '*' ∉ key → ∀ t', t'.key = t.key → ∀ path f, (C t').processInsertion path key f = (C (f t').1, (f t').2)

theorem sliceFrom_suffix {s t : Str} {n : Nat} (h : sliceFrom s n = some t) : t <:+ s := by
  induction s generalizing n with
  | nil => cases n with
    | zero => rw [sliceFrom] at h; cases h; exact List.suffix_rfl
    | succ n => rw [sliceFrom] at h; cases h
  | cons c s ih =>
    cases n with
    | zero => rw [sliceFrom] at h; cases h; exact List.suffix_rfl
    | succ n =>
      rw [sliceFrom] at h
      split at h
      · exact (ih h).trans (List.suffix_cons ..)
      · cases h

theorem focus_next {k : Str} {v} {l₁ l₂ : List (Node M H)} {c : Node M H} {key : Str}
    (h : ∀ d : Node M H, d.key = c.key → insertionAction (l₁ ++ d :: l₂) key = .nextNode l₁.length) :
    ∃ t C, Focus (mk k v (l₁ ++ c :: l₂)) key t C := by
  refine ⟨c, fun x => mk k v (l₁ ++ x :: l₂), fun path f => ?_, fun _ => rfl, fun _ t' ht path f => ?_⟩
  · rw [processInsertion]; simp only [h c rfl, modifyChild_mid]
  · rw [processInsertion]; simp only [h t' ht, modifyChild_mid]

theorem focus_split {k : Str} {v} {l₁ l₂ : List (Node M H)} {c : Node M H} {key : Str}
    (hs : Skips key l₁) (hk : startsColon key = false) (h0 : matchCount c.key key ≠ 0)
    (h : insertionAction (l₁ ++ c :: l₂) key = .splitNode (matchCount c.key key) l₁.length) :
    ∃ t C, Focus (mk k v (l₁ ++ c :: l₂)) key t C := by
  obtain ⟨ck, hck⟩ := lcp_prefix_left c.key key
  obtain ⟨nk, hnk⟩ := lcp_prefix_right c.key key
  rw [matchCount_eq] at h0 h
  generalize lcp c.key key = L at h0 h hck hnk
  have hL : L ≠ [] := fun e => h0 (by rw [e]; rfl)
  subst hnk
  by_cases hn : nk = []
  · subst hn
    refine ⟨mk L none [mk ck c.value c.children], fun x => mk k v (l₁ ++ x :: l₂), fun path f => ?_, fun _ => rfl,
      fun _ t' ht path f => ?_⟩
    · rw [processInsertion]
      simp only [h, modifyChild_mid, splitNode_eq f hck.symm, if_pos]
    · have e : insertionAction (l₁ ++ t' :: l₂) (L ++ []) = .nextNode l₁.length :=
        hs.at (by rw [show t'.key = L from ht, List.append_nil]; exact step_self L _)
      rw [processInsertion]
      simp only [e, modifyChild_mid]
  · refine ⟨Node.new nk none, fun x => mk k v (l₁ ++ mk L none [x, mk ck c.value c.children] :: l₂), fun path f => ?_,
      fun _ => rfl, fun _ t' ht path f => ?_⟩
    · rw [processInsertion]
      simp only [h, modifyChild_mid, splitNode_eq f hck.symm, if_neg hn]
    · have hLc : startsColon L = false := by
        cases L with
        | nil => exact absurd rfl hL
        | cons a L => simpa [startsColon] using hk
      have e : insertionAction (l₁ ++ mk L none [t', mk ck c.value c.children] :: l₂) (L ++ nk) =
          .splitKey (byteLen L) l₁.length := by
        apply hs.at
        rw [key_mk, stepAction, hLc, hk, matchCount_eq, lcp_self_append]
        simp only [Bool.or_self, Bool.false_eq_true, if_false]
        rw [if_neg, if_pos]
        · trivial
        · intro e
          have := byteLen_append L nk
          exact hn (byteLen_eq_zero.1 (by omega))
      have e2 : insertionAction [t', mk ck c.value c.children] nk = .nextNode 0 := by
        rw [insertionAction, actionFrom_step, show t'.key = nk from ht, step_self]; rfl
      rw [processInsertion]
      simp only [e, sliceFrom_append, processInsertionAt_mid]
      rw [processInsertion]
      simp only [e2, modifyChild]

mutual
/-- Every insertion either panics before anything is done, or has a focus. -/
theorem focus (n : Node M H) (key : Str) :
    (∃ t C, Focus n key t C) ∨ ∀ path f, (n.processInsertion path key f).2 ≠ none := by
  match n with
  | mk k v cs =>
    rcases action_split key cs 0 with h | ⟨l₁, c, l₂, a, rfl, hs, ha, h⟩
    · left
      have h : insertionAction cs key = .createNewNode := h
      by_cases hk : key = ['*']
      · refine ⟨Node.new key none, fun t => mk k v (cs ++ [t]), fun path f => ?_, fun _ => rfl, fun hn => ?_⟩
        · rw [processInsertion]; simp only [h, if_pos hk]
        · rw [hk] at hn; simp at hn
      · refine ⟨Node.new key none, fun t => mk k v (t :: cs), fun path f => ?_, fun _ => rfl, fun _ t' ht path f => ?_⟩
        · rw [processInsertion]; simp only [h, if_neg hk]
        · have e : insertionAction (t' :: cs) key = .nextNode 0 := by
            rw [insertionAction, actionFrom_step, show t'.key = key from ht, step_self]; rfl
          rw [processInsertion]; simp only [e, modifyChild]
    · rw [Nat.zero_add] at ha
      have h : insertionAction (l₁ ++ c :: l₂) key = a := h
      have hfoc := focusAt (l₁ ++ c :: l₂) l₁.length
      have hat : ∀ d : Node M H, d.key = c.key → insertionAction (l₁ ++ d :: l₂) key = a := by
        intro d hd
        exact hs.at (by rw [hd]; exact ha)
      rw [stepAction] at ha
      split at ha
      · split at ha
        · obtain rfl := Option.some.inj ha
          exact Or.inl (focus_next hat)
        · obtain rfl := Option.some.inj ha
          right
          intro path f
          rw [processInsertion]
          simp [h]
      · next hcol =>
        split at ha
        · obtain rfl := Option.some.inj ha
          exact Or.inl (focus_next hat)
        · split at ha
          · obtain rfl := Option.some.inj ha
            cases hsl : sliceFrom key (matchCount c.key key) with
            | none =>
              right
              intro path f
              rw [processInsertion]
              simp [h, hsl]
            | some key' =>
              rcases hfoc c (by simp) key' with ⟨t, C, hC⟩ | hC
              · left
                refine ⟨t, fun x => mk k v (l₁ ++ C x :: l₂), fun path f => ?_, fun _ => rfl, fun hn t' ht path f => ?_⟩
                · rw [processInsertion]
                  simp only [h, hsl, processInsertionAt_mid, hC.first]
                · rw [processInsertion]
                  simp only [hat _ (hC.keyEq t'), hsl, processInsertionAt_mid,
                    hC.again (fun hm => hn ((sliceFrom_suffix hsl).subset hm)) t' ht]
              · right
                intro path f
                rw [processInsertion]
                simp only [h, hsl, processInsertionAt_mid]
                exact hC path f
          · split at ha
            · obtain rfl := Option.some.inj ha
              exact Or.inl (focus_split hs (by simp at hcol; exact hcol.2) (by assumption) h)
            · cases ha
theorem focusAt (cs : List (Node M H)) (i : Nat) : ∀ c, cs[i]? = some c → ∀ key,
    (∃ t C, Focus c key t C) ∨ ∀ path f, (c.processInsertion path key f).2 ≠ none := by
  intro c hc key
  match cs, i with
  | [], _ => simp at hc
  | d :: cs, 0 => simp at hc; rw [← hc]; exact focus d key
  | d :: cs, i + 1 => simp at hc; exact focusAt cs i c hc key
end

/-! ### Paths -/

/-- The same for a list of segments. -/
structure Focuses (n : Node M H) (ks : List Str) (t : Node M H) (C : Node M H → Node M H) : Prop where
  first : ∀ path f, insertLoop path f ks n = (C (f t).1, (f t).2)
  keyEq : ∀ t', (C t').key = n.key
  again : (∀ k ∈ ks, '*' ∉ k) → ∀ t', t'.key = t.key → ∀ path f, insertLoop path f ks (C t') = (C (f t').1, (f t').2)

theorem focuses (ks : List Str) (h0 : ks ≠ []) : ∀ (n : Node M H),
    (∃ t C, Focuses n ks t C) ∨ ∀ path f, (insertLoop path f ks n).2 ≠ none := by
  induction ks with
  | nil => exact absurd rfl h0
  | cons k ks ih =>
    intro n
    rcases focus n k with ⟨t, C, hC⟩ | hC
    · cases ks with
      | nil =>
        exact Or.inl ⟨t, C, fun path f => by rw [insertLoop]; exact hC.first path f, hC.keyEq,
          fun hs t' ht path f => by rw [insertLoop]; exact hC.again (hs k (by simp)) t' ht path f⟩
      | cons k' ks =>
        rcases ih (List.cons_ne_nil _ _) t with ⟨t₂, C₂, hC₂⟩ | hC₂
        · refine Or.inl ⟨t₂, fun x => C (C₂ x), fun path f => ?_, fun x => hC.keyEq _, fun hs t' ht path f => ?_⟩
          · rw [insertLoop, hC.first, hC₂.first]
          · rw [insertLoop, hC.again (hs k (by simp)) _ (hC₂.keyEq t'),
              hC₂.again (fun x hx => hs x (List.mem_cons_of_mem _ hx)) t' ht]
        · right
          intro path f
          rw [insertLoop, hC.first]
          exact hC₂ path f
    · right
      intro path f
      cases ks with
      | nil => exact hC path f
      | cons k' ks => exact hC path _

theorem insertLoop_append (path : Str) (f : Node M H → Out (Node M H)) (ks : List Str) (h : ks ≠ []) :
    ∀ (js : List Str) (n : Node M H), js ≠ [] →
      insertLoop path f (js ++ ks) n = insertLoop path (insertLoop path f ks) js n
  | [], _, hj => absurd rfl hj
  | [j], n, _ => by
    cases ks with
    | nil => exact absurd rfl h
    | cons k ks => rfl
  | j :: j' :: js, n, _ => by
    have : insertLoop path f (j' :: js ++ ks) = insertLoop path (insertLoop path f ks) (j' :: js) :=
      funext fun m => insertLoop_append path f ks h (j' :: js) m (List.cons_ne_nil _ _)
    rw [List.cons_append, List.cons_append, insertLoop, insertLoop, ← List.cons_append, this]

/-! ### The key of a node says nothing about what is below it -/

/-- The node with another key. -/
def rekey (k : Str) (n : Node M H) : Node M H := mk k n.value n.children

theorem processInsertion_rekey (path k key : Str) (f : Node M H → Out (Node M H)) (n : Node M H) :
    (rekey k n).processInsertion path key f =
      (rekey k (n.processInsertion path key f).1, (n.processInsertion path key f).2) := by
  obtain ⟨k', v, cs⟩ := n
  rw [rekey, value_mk, children_mk, processInsertion, processInsertion]
  split
  · split <;> rfl
  · rfl
  · split <;> rfl
  · rfl
  · split <;> rfl

theorem insertLoop_rekey (path k : Str) (f : Node M H → Out (Node M H)) (ks : List Str) (n : Node M H) :
    insertLoop path f ks (rekey k n) = (rekey k (insertLoop path f ks n).1, (insertLoop path f ks n).2) := by
  match ks with
  | [] => rfl
  | [j] => rw [insertLoop, insertLoop]; exact processInsertion_rekey ..
  | j :: j' :: js => rw [insertLoop, insertLoop]; exact processInsertion_rekey ..

/-- An accepted insertion does not depend on what is only used for messages. -/
theorem insertLoop_congr {path path' : Str} {f f' : Node M H → Out (Node M H)} {ks : List Str} {n n' : Node M H}
    (hf : ∀ t t', f t = (t', none) → f' t = (t', none)) (h : insertLoop path f ks n = (n', none)) :
    insertLoop path' f' ks n = (n', none) := by
  by_cases h0 : ks = []
  · subst h0; exact h
  · rcases focuses ks h0 n with ⟨t, C, hC⟩ | hC
    · rw [hC.first, Prod.mk.injEq] at h
      rw [hC.first, hf t _ (Prod.ext rfl h.2)]
      exact Prod.ext h.1 rfl
    · exact absurd (by rw [h]) (hC path f)

end Obsidian.Node
