import Verif.Spec.Form

/- Texts of scalars. -/
namespace Obsidian
open Spec

/-! ### Integers -/

theorem digitVal_some {c : Char} {d : Nat} : digitVal c = some d ↔ ('0' ≤ c ∧ c ≤ '9') ∧ d = c.toNat - 48 := by
  unfold digitVal
  split
  · next h => simp [h]; exact eq_comm
  · next h => simp [h]

theorem digitVal_none {c : Char} : digitVal c = none ↔ ¬ ('0' ≤ c ∧ c ≤ '9') := by
  unfold digitVal
  split
  · next h => simp [h]
  · next h => simp [h]

/-- Continuing a number with digits. -/
def numberFrom (n : Nat) (ds : Str) : Nat := ds.foldl (fun n c => 10 * n + (c.toNat - 48)) n

theorem numberFrom_ge (n : Nat) (ds : Str) : n ≤ numberFrom n ds := by
  induction ds generalizing n with
  | nil => exact Nat.le_refl n
  | cons c ds ih =>
    have := ih (10 * n + (c.toNat - 48))
    simp only [numberFrom, List.foldl_cons] at this ⊢
    omega

/-- The sign. -/
def signed' (neg : Bool) (n : Nat) : Int := if neg then -(n : Int) else n

theorem inRange_mono {s : Bool} {bits : Nat} {neg : Bool} {n n' : Nat} (h : n ≤ n')
    (hr : inRange s bits (signed' neg n') = true) : inRange s bits (signed' neg n) = true := by
  have h1 : (0 : Int) < 2 ^ bits := Int.pow_pos (by decide)
  have h2 : (0 : Int) < 2 ^ (bits - 1) := Int.pow_pos (by decide)
  unfold inRange signed' at *
  cases s <;> cases neg <;> simp at hr ⊢ <;> omega

theorem parseDigits_ok {s : Bool} {bits : Nat} {neg : Bool} {ds : Str} {n : Nat} {i : Int}
    (hn : inRange s bits (signed' neg n) = true) :
    parseDigits s bits neg (signed' neg n) ds = .ok i ↔
      (∀ c ∈ ds, '0' ≤ c ∧ c ≤ '9') ∧ i = signed' neg (numberFrom n ds) ∧ inRange s bits i = true := by
  induction ds generalizing n with
  | nil =>
    rw [parseDigits]
    constructor
    · intro h; injection h with h; subst h; exact ⟨by simp, rfl, hn⟩
    · rintro ⟨_, rfl, _⟩; rfl
  | cons c ds ih =>
    rw [parseDigits]
    cases hd : digitVal c with
    | none =>
      constructor
      · intro h; exact nomatch h
      · rintro ⟨h, _⟩; exact absurd (h c (by simp)) (digitVal_none.1 hd)
    | some d =>
      obtain ⟨hc, hd'⟩ := digitVal_some.1 hd
      have e1 : signed' neg n * 10 = signed' neg (10 * n) := by
        unfold signed'; cases neg <;> simp <;> omega
      have e2 : (if neg = true then signed' neg n * 10 - (d : Int) else signed' neg n * 10 + d) =
          signed' neg (10 * n + d) := by
        unfold signed'; cases neg <;> simp <;> omega
      have e3 : numberFrom n (c :: ds) = numberFrom (10 * n + d) ds := by
        rw [hd']; rfl
      dsimp only
      rw [e2, e1, e3]
      have hmono : inRange s bits (signed' neg (numberFrom (10 * n + d) ds)) = true →
          inRange s bits (signed' neg (10 * n + d)) = true := inRange_mono (numberFrom_ge _ _)
      have hmono2 : inRange s bits (signed' neg (10 * n + d)) = true →
          inRange s bits (signed' neg (10 * n)) = true := inRange_mono (by omega)
      constructor
      · intro h
        split at h
        · split at h
          · next h4 =>
            obtain ⟨g1, g2, g3⟩ := (ih h4).1 h
            refine ⟨fun x hx => ?_, g2, g3⟩
            rcases List.mem_cons.1 hx with rfl | hx
            · exact hc
            · exact g1 x hx
          · exact nomatch h
        · exact nomatch h
      · rintro ⟨h1, rfl, h3⟩
        rw [if_pos (hmono2 (hmono h3)), if_pos (hmono h3)]
        exact (ih (hmono h3)).2 ⟨fun x hx => h1 x (by simp [hx]), rfl, h3⟩

theorem inRange_zero (s : Bool) (bits : Nat) (neg : Bool) : inRange s bits (signed' neg 0) = true := by
  have h1 : (0 : Int) < 2 ^ bits := Int.pow_pos (by decide)
  have h2 : (0 : Int) < 2 ^ (bits - 1) := Int.pow_pos (by decide)
  unfold inRange signed'
  cases s <;> cases neg <;> simp <;> omega

theorem parseDigits_ok' {s : Bool} {bits : Nat} {neg : Bool} {ds : Str} {i : Int} :
    parseDigits s bits neg 0 ds = .ok i ↔
      (∀ c ∈ ds, '0' ≤ c ∧ c ≤ '9') ∧ i = signed' neg (number ds) ∧ inRange s bits i = true := by
  have h := parseDigits_ok (ds := ds) (i := i) (inRange_zero s bits neg)
  have e : signed' neg 0 = 0 := by cases neg <;> rfl
  rw [e] at h
  exact h

theorem parseInt_ok {s : Bool} {bits : Nat} {x : Str} {i : Int} :
    parseInt s bits x = .ok i ↔ Denotes s x i ∧ inRange s bits i = true := by
  have plus : ¬ ('0' ≤ '+' ∧ '+' ≤ '9') := by decide
  have minus : ¬ ('0' ≤ '-' ∧ '-' ≤ '9') := by decide
  have sgn : ∀ (c : Char) (cs : Str), cs ≠ [] →
      parseInt s bits (c :: cs) = if c = '+' then parseDigits s bits false 0 cs
        else if c = '-' ∧ s then parseDigits s bits true 0 cs else parseDigits s bits false 0 (c :: cs) := by
    intro c cs hne
    rw [parseInt]
    · rintro rfl rfl; exact hne rfl
    · rintro rfl rfl; exact hne rfl
  match x with
  | [] =>
    constructor
    · intro h; simp [parseInt] at h
    · rintro ⟨⟨ds, hne, _, ⟨h, _⟩ | ⟨h, _⟩ | ⟨_, h, _⟩⟩, _⟩
      · exact absurd h.symm hne
      · simp at h
      · simp at h
  | [c] =>
    by_cases hp : c = '+'
    · subst hp
      constructor
      · intro h; simp [parseInt] at h
      · rintro ⟨⟨ds, hne, hd, ⟨h, _⟩ | ⟨h, _⟩ | ⟨_, h, _⟩⟩, _⟩
        · subst h; exact absurd (hd '+' (by simp)) plus
        · injection h with _ h; exact absurd h.symm hne
        · simp at h
    · by_cases hm : c = '-'
      · subst hm
        constructor
        · intro h; simp [parseInt] at h
        · rintro ⟨⟨ds, hne, hd, ⟨h, _⟩ | ⟨h, _⟩ | ⟨_, h, _⟩⟩, _⟩
          · subst h; exact absurd (hd '-' (by simp)) minus
          · simp at h
          · injection h with _ h; exact absurd h.symm hne
      · have e : parseInt s bits [c] = parseDigits s bits false 0 [c] := by
          rw [parseInt]
          · rw [if_neg hp, if_neg (by simp [hm])]
          · rintro rfl _; exact hp rfl
          · rintro rfl _; exact hm rfl
        rw [e, parseDigits_ok']
        constructor
        · rintro ⟨h1, h2, h3⟩
          exact ⟨⟨[c], by simp, h1, .inl ⟨rfl, h2⟩⟩, h3⟩
        · rintro ⟨⟨ds, hne, hd, ⟨h, hi⟩ | ⟨h, _⟩ | ⟨_, h, _⟩⟩, h3⟩
          · subst h; exact ⟨hd, hi, h3⟩
          · injection h with h; exact absurd h hp
          · injection h with h; exact absurd h hm
  | c :: c' :: cs =>
    rw [sgn c (c' :: cs) (by simp)]
    by_cases hp : c = '+'
    · subst hp
      rw [if_pos rfl, parseDigits_ok']
      constructor
      · rintro ⟨h1, h2, h3⟩
        exact ⟨⟨c' :: cs, by simp, h1, .inr (.inl ⟨rfl, h2⟩)⟩, h3⟩
      · rintro ⟨⟨ds, hne, hd, ⟨h, hi⟩ | ⟨h, hi⟩ | ⟨_, h, _⟩⟩, h3⟩
        · subst h; exact absurd (hd '+' (by simp)) plus
        · injection h with _ h; subst h; exact ⟨hd, hi, h3⟩
        · simp at h
    · rw [if_neg hp]
      by_cases hm : c = '-' ∧ s = true
      · obtain ⟨rfl, rfl⟩ := hm
        rw [if_pos ⟨rfl, rfl⟩, parseDigits_ok']
        constructor
        · rintro ⟨h1, h2, h3⟩
          exact ⟨⟨c' :: cs, by simp, h1, .inr (.inr ⟨rfl, rfl, h2⟩)⟩, h3⟩
        · rintro ⟨⟨ds, hne, hd, ⟨h, hi⟩ | ⟨h, hi⟩ | ⟨_, h, hi⟩⟩, h3⟩
          · subst h; exact absurd (hd '-' (by simp)) minus
          · simp at h
          · injection h with _ h; subst h; exact ⟨hd, hi, h3⟩
      · rw [if_neg hm, parseDigits_ok']
        constructor
        · rintro ⟨h1, h2, h3⟩
          exact ⟨⟨c :: c' :: cs, by simp, h1, .inl ⟨rfl, h2⟩⟩, h3⟩
        · rintro ⟨⟨ds, hne, hd, ⟨h, hi⟩ | ⟨h, _⟩ | ⟨hs, h, _⟩⟩, h3⟩
          · subst h; exact ⟨hd, hi, h3⟩
          · injection h with h; exact absurd h hp
          · injection h with h; exact absurd ⟨h, hs⟩ hm

theorem inRange_iff {signed : Bool} {bits : Nat} {i : Int} : inRange signed bits i = true ↔ IntRange signed bits i := by
  unfold inRange IntRange
  cases signed <;> simp <;> omega

/-! ### All scalars -/

theorem parseBool_ok {x : Str} {b : Bool} :
    parseBool x = .ok b ↔ x = (if b = true then "true".toList else "false".toList) := by
  have h1 : "true".toList ≠ "false".toList := by decide
  unfold parseBool
  split
  · next h => subst h; cases b <;> simp only [Except.ok.injEq, if_true, h1, iff_self, reduceCtorEq, if_false] <;> decide
  · next h =>
    split
    · next h' => subst h'; cases b <;> simp only [Except.ok.injEq, if_true, h1.symm, iff_self, reduceCtorEq, if_false] <;> decide
    · next h' => cases b <;> simp only [reduceCtorEq, if_true, if_false, h, h', Bool.false_eq_true]

/-- The parsers accept exactly the texts of the values. -/
theorem parse_ok {k : Scalar} {x : Str} {v : Val} : k.parse x = .ok v ↔ Written k x v := by
  cases k with
  | bool =>
    simp only [Scalar.parse, Written, ← parseBool_ok]
    cases parseBool x <;> simp [eq_comm]
  | int s n =>
    simp only [Scalar.parse, Written, ← inRange_iff, ← parseInt_ok]
    cases parseInt s n x <;> simp [eq_comm]
  | float p =>
    simp only [Scalar.parse, Written]
    cases p x <;> simp [eq_comm]
  | char => cases x <;> simp [Scalar.parse, Written, eq_comm]
  | string => simp [Scalar.parse, Written, eq_comm]
  | ofString f => simp [Scalar.parse, Written]

end Obsidian
