import Verif.Model.Trie
import Verif.Proofs.Str

/-
Well-formed trees and the view of a tree as a map from character positions to values.

The position of a node is the concatenation of the keys on the way to it.
-/
namespace Obsidian

/-- Keys that well-formed nodes have, and segments that are in the supported pattern syntax: a
parameter `:name`, the wildcard `*`, or a static text without `:` and `*`. -/
def KeyOK (k : Str) : Prop :=
  (∃ x, k = ':' :: x ∧ ':' ∉ x ∧ '*' ∉ x) ∨ k = ['*'] ∨ (k ≠ [] ∧ ':' ∉ k ∧ '*' ∉ k)

theorem KeyOK.ne_nil {k : Str} (h : KeyOK k) : k ≠ [] := by
  rcases h with ⟨x, rfl, _⟩ | rfl | h
  · simp
  · simp
  · exact h.1

namespace Node
variable {M H : Type}

mutual
/-- Children lists: distinct first characters, a parameter is an only child, `*` is last. -/
def WFL : List (Node M H) → Prop
  | [] => True
  | c :: cs => KeyOK c.key ∧ WF c ∧ (∀ d ∈ cs, d.key.head? ≠ c.key.head?) ∧
      (c.isParam = true → cs = []) ∧ (c.key = ['*'] → cs = []) ∧
      (∀ d ∈ cs, d.isParam = false) ∧ WFL cs
/-- Well-formed trees. -/
def WF : Node M H → Prop
  | mk _ _ cs => WFL cs
end

theorem WF_iff {n : Node M H} : n.WF ↔ WFL n.children := by cases n; simp [WF, children]

mutual
/-- The node at a position. -/
def sub : Node M H → Str → Option (Node M H)
  | mk k v cs, s => match s with
    | [] => some (mk k v cs)
    | _ :: _ => subL cs s
/-- The node at a (non-empty) position below a list of siblings. -/
def subL : List (Node M H) → Str → Option (Node M H)
  | [], _ => none
  | c :: cs, s =>
    if c.key <+: s then sub c (s.drop c.key.length) else subL cs s
end

@[simp] theorem sub_nil (n : Node M H) : n.sub [] = some n := by cases n; simp [sub]

theorem sub_ne {n : Node M H} {s : Str} (h : s ≠ []) : n.sub s = subL n.children s := by
  cases n; cases s with
  | nil => simp at h
  | cons a s => simp [sub, children]

@[simp] theorem sub_cons {n : Node M H} {a : Char} {s : Str} :
    n.sub (a :: s) = subL n.children (a :: s) := sub_ne (by simp)

/-- The parameter name of a node's parameter child. -/
def pnL : List (Node M H) → Option Str
  | c :: _ => if c.isParam then some c.key.tail else none
  | [] => none

/-- The parameter name of a node's parameter child. -/
def pn (n : Node M H) : Option Str := pnL n.children

/-- The view of a tree: at each node position its value and the name of its parameter child. -/
def view (n : Node M H) (s : Str) : Option (Option (RouteValue M H) × Option Str) :=
  (n.sub s).map (fun m => (m.value, m.pn))

/-! ### Siblings -/

theorem WFL.keyOK {cs : List (Node M H)} (h : WFL cs) {c : Node M H} (hc : c ∈ cs) :
    KeyOK c.key := by
  induction cs with
  | nil => simp at hc
  | cons d cs ih =>
    rw [WFL] at h
    rcases List.mem_cons.1 hc with rfl | hc
    · exact h.1
    · exact ih h.2.2.2.2.2.2 hc

theorem WFL.wf {cs : List (Node M H)} (h : WFL cs) {c : Node M H} (hc : c ∈ cs) : WF c := by
  induction cs with
  | nil => simp at hc
  | cons d cs ih =>
    rw [WFL] at h
    rcases List.mem_cons.1 hc with rfl | hc
    · exact h.2.1
    · exact ih h.2.2.2.2.2.2 hc

/-- In a well-formed list of siblings either none or exactly one shares its first character with
a given string. -/
theorem WFL.cases {cs : List (Node M H)} (h : WFL cs) (s : Str) :
    (∀ d ∈ cs, d.key.head? ≠ s.head?) ∨
    ∃ l₁ c l₂, cs = l₁ ++ c :: l₂ ∧ c.key.head? = s.head? ∧
      (∀ d ∈ l₁, d.key.head? ≠ s.head?) ∧ (∀ d ∈ l₂, d.key.head? ≠ s.head?) := by
  induction cs with
  | nil => simp
  | cons d cs ih =>
    rw [WFL] at h
    obtain ⟨h1, h2, h3, h4, h5, h6, h7⟩ := h
    by_cases e : d.key.head? = s.head?
    · exact Or.inr ⟨[], d, cs, rfl, e, by simp, fun x hx => e ▸ h3 x hx⟩
    · rcases ih h7 with h | ⟨l₁, c, l₂, rfl, hc, ha, hb⟩
      · left; intro x hx
        rcases List.mem_cons.1 hx with rfl | hx
        · exact e
        · exact h x hx
      · right
        refine ⟨d :: l₁, c, l₂, rfl, hc, ?_, hb⟩
        intro x hx
        rcases List.mem_cons.1 hx with rfl | hx
        · exact e
        · exact ha x hx

theorem head_of_prefix {k s : Str} (hk : k ≠ []) (h : k <+: s) : k.head? = s.head? := by
  obtain ⟨t, rfl⟩ := h
  cases k with
  | nil => simp at hk
  | cons a k => simp

theorem subL_skip {c : Node M H} {cs : List (Node M H)} {s : Str} (hk : c.key ≠ [])
    (h : c.key.head? ≠ s.head?) : subL (c :: cs) s = subL cs s := by
  rw [subL, if_neg]
  intro hp; exact h (head_of_prefix hk hp)

theorem subL_none {cs : List (Node M H)} {s : Str} (hk : ∀ d ∈ cs, d.key ≠ [])
    (h : ∀ d ∈ cs, d.key.head? ≠ s.head?) : subL cs s = none := by
  induction cs with
  | nil => rfl
  | cons c cs ih =>
    rw [subL_skip (hk c (by simp)) (h c (by simp))]
    exact ih (fun d hd => hk d (by simp [hd])) (fun d hd => h d (by simp [hd]))

theorem subL_mid {l₁ l₂ : List (Node M H)} {c : Node M H} {s : Str}
    (hk : ∀ d ∈ l₁ ++ c :: l₂, d.key ≠ [])
    (h1 : ∀ d ∈ l₁, d.key.head? ≠ s.head?) (h2 : ∀ d ∈ l₂, d.key.head? ≠ s.head?) :
    subL (l₁ ++ c :: l₂) s =
      if c.key <+: s then sub c (s.drop c.key.length) else none := by
  induction l₁ with
  | nil =>
    simp only [List.nil_append]
    rw [subL]
    split
    · rfl
    · exact subL_none (fun d hd => hk d (by simp [hd])) h2
  | cons d l₁ ih =>
    rw [List.cons_append, subL_skip (hk d (by simp)) (h1 d (by simp))]
    exact ih (fun x hx => hk x (List.mem_cons_of_mem _ hx)) (fun x hx => h1 x (by simp [hx]))

theorem WFL.ne {cs : List (Node M H)} (h : WFL cs) : ∀ d ∈ cs, d.key ≠ [] :=
  fun _ hd => (h.keyOK hd).ne_nil

/-- Replacing one sibling by another with the same first character. -/
theorem WFL.replace {l₁ l₂ : List (Node M H)} {c c' : Node M H} (h : WFL (l₁ ++ c :: l₂))
    (hk : KeyOK c'.key) (hw : WF c') (hh : c'.key.head? = c.key.head?)
    (hp : c'.isParam = c.isParam) (hs : c'.key = ['*'] → c.key = ['*']) : WFL (l₁ ++ c' :: l₂) := by
  induction l₁ with
  | nil =>
    simp only [List.nil_append, WFL] at h ⊢
    obtain ⟨h1, h2, h3, h4, h5, h6, h7⟩ := h
    exact ⟨hk, hw, hh ▸ h3, hp ▸ h4, fun e => h5 (hs e), h6, h7⟩
  | cons d l₁ ih =>
    simp only [List.cons_append, WFL] at h ⊢
    obtain ⟨h1, h2, h3, h4, h5, h6, h7⟩ := h
    refine ⟨h1, h2, ?_, ?_, ?_, ?_, ih h7⟩
    · intro x hx
      simp only [List.mem_append, List.mem_cons] at hx
      rcases hx with hx | rfl | hx
      · exact h3 x (by simp [hx])
      · rw [hh]; exact h3 c (by simp)
      · exact h3 x (by simp [hx])
    · intro e; have := h4 e; simp at this
    · intro e; have := h5 e; simp at this
    · intro x hx
      simp only [List.mem_append, List.mem_cons] at hx
      rcases hx with hx | rfl | hx
      · exact h6 x (by simp [hx])
      · rw [hp]; exact h6 c (by simp)
      · exact h6 x (by simp [hx])

/-- Removing siblings. -/
theorem WFL.tail {c : Node M H} {cs : List (Node M H)} (h : WFL (c :: cs)) : WFL cs := by
  rw [WFL] at h; exact h.2.2.2.2.2.2

end Node
end Obsidian
