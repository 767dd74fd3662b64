import Verif.Model.Str

/- Lemmas about strings, byte lengths, slices and path segments. -/
namespace Obsidian

/-- Longest common prefix. -/
def lcp : Str → Str → Str
  | [], _ => []
  | _ :: _, [] => []
  | a :: s, b :: t => if b = a then a :: lcp s t else []

theorem utf8Size_pos (c : Char) : 0 < c.utf8Size := Char.utf8Size_pos c

@[simp] theorem byteLen_nil : byteLen [] = 0 := rfl
@[simp] theorem byteLen_cons (c : Char) (s : Str) : byteLen (c :: s) = c.utf8Size + byteLen s := rfl

theorem byteLen_append (s t : Str) : byteLen (s ++ t) = byteLen s + byteLen t := by
  induction s with
  | nil => simp
  | cons c s ih => simp [ih, Nat.add_assoc]

theorem byteLen_eq_zero {s : Str} : byteLen s = 0 ↔ s = [] := by
  cases s with
  | nil => simp
  | cons c s => have := utf8Size_pos c; simp; omega

/-- On prefixes of one string, the byte length determines the prefix. -/
theorem prefix_eq_of_byteLen {s t : Str} (h : s <+: t) (e : byteLen s = byteLen t) : s = t := by
  obtain ⟨u, rfl⟩ := h
  rw [byteLen_append] at e
  have : u = [] := byteLen_eq_zero.1 (by omega)
  simp [this]

theorem lcp_prefix_left (s t : Str) : lcp s t <+: s := by
  induction s generalizing t with
  | nil => simp [lcp]
  | cons a s ih =>
    cases t with
    | nil => simp [lcp]
    | cons b t =>
      simp only [lcp]; split
      · simp [ih]
      · simp

theorem lcp_prefix_right (s t : Str) : lcp s t <+: t := by
  induction s generalizing t with
  | nil => simp [lcp]
  | cons a s ih =>
    cases t with
    | nil => simp [lcp]
    | cons b t =>
      simp only [lcp]; split
      · next h => subst h; simp [ih]
      · simp

theorem matchLoop_eq (nk key : Str) (n : Nat) : matchLoop nk key n = n + byteLen (lcp nk key) := by
  induction nk generalizing key n with
  | nil => simp [matchLoop, lcp]
  | cons k nk ih =>
    cases key with
    | nil => simp [matchLoop, lcp]
    | cons t key =>
      simp only [matchLoop, lcp]
      split
      · next h => subst h; rw [ih]; simp; omega
      · simp

theorem matchCount_eq (nk key : Str) : matchCount nk key = byteLen (lcp nk key) := by
  simp [matchCount, matchLoop_eq]

theorem sliceFrom_append (s t : Str) : sliceFrom (s ++ t) (byteLen s) = some t := by
  induction s with
  | nil => simp [sliceFrom]
  | cons c s ih =>
    have hc := utf8Size_pos c
    have : byteLen (c :: s) = (c.utf8Size - 1 + byteLen s) + 1 := by simp; omega
    rw [this]
    simp only [List.cons_append, sliceFrom]
    rw [if_pos (by omega)]
    have e : c.utf8Size - 1 + byteLen s + 1 - c.utf8Size = byteLen s := by omega
    rw [e, ih]

theorem sliceTo_append (s t : Str) : sliceTo (s ++ t) (byteLen s) = some s := by
  induction s with
  | nil => simp [sliceTo]
  | cons c s ih =>
    have hc := utf8Size_pos c
    have : byteLen (c :: s) = (c.utf8Size - 1 + byteLen s) + 1 := by simp; omega
    rw [this]
    simp only [List.cons_append, sliceTo]
    rw [if_pos (by omega)]
    have e : c.utf8Size - 1 + byteLen s + 1 - c.utf8Size = byteLen s := by omega
    rw [e, ih]
    rfl

/-- The three cases of comparing two keys. -/
theorem lcp_eq_left {s t : Str} : byteLen (lcp s t) = byteLen s ↔ s <+: t := by
  constructor
  · intro h
    have := prefix_eq_of_byteLen (lcp_prefix_left s t) h
    rw [← this]; exact lcp_prefix_right s t
  · intro h
    obtain ⟨u, rfl⟩ := h
    congr 1
    induction s with
    | nil => simp [lcp]
    | cons a s ih => simp [lcp, ih]

theorem lcp_eq_right {s t : Str} : byteLen (lcp s t) = byteLen t ↔ t <+: s := by
  constructor
  · intro h
    have := prefix_eq_of_byteLen (lcp_prefix_right s t) h
    rw [← this]; exact lcp_prefix_left s t
  · intro h
    obtain ⟨u, rfl⟩ := h
    congr 1
    induction t with
    | nil => cases u <;> simp [lcp]
    | cons a s ih => simp [lcp, ih]

theorem lcp_eq_nil {s t : Str} (hs : s ≠ []) (ht : t ≠ []) : lcp s t = [] ↔ s.head? ≠ t.head? := by
  cases s with
  | nil => simp at hs
  | cons a s =>
    cases t with
    | nil => simp at ht
    | cons b t =>
      simp only [lcp, List.head?_cons, ne_eq, Option.some.injEq]
      split
      · next h => simp [h]
      · next h => simp; intro h'; exact h h'.symm

theorem lcp_self_append (s t : Str) : lcp s (s ++ t) = s := by
  induction s with
  | nil => simp [lcp]
  | cons a s ih => simp [lcp, ih]

/-- The remainders after the common prefix start differently (if both are non-empty). -/
theorem lcp_split (s t : Str) :
    ∃ s' t', s = lcp s t ++ s' ∧ t = lcp s t ++ t' ∧ (s' = [] ∨ t' = [] ∨ s'.head? ≠ t'.head?) := by
  induction s generalizing t with
  | nil => exact ⟨[], t, by simp [lcp]⟩
  | cons a s ih =>
    cases t with
    | nil => exact ⟨a :: s, [], by simp [lcp]⟩
    | cons b t =>
      simp only [lcp]
      split
      · next h =>
        subst h
        obtain ⟨s', t', h1, h2, h3⟩ := ih t
        exact ⟨s', t', by simp [← h1], by simp [← h2], h3⟩
      · next h =>
        refine ⟨a :: s, b :: t, by simp, by simp, ?_⟩
        right; right; simp; intro h'; exact h h'.symm

end Obsidian
