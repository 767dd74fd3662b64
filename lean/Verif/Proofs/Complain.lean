import Verif.Proofs.FormStruct
import Verif.Spec.Complain

/- The errors of the decoder are those that `Spec.Complains` describes. -/
namespace Obsidian
open Spec

/-! ### Integers -/

theorem digit_iff {c : Char} : (∃ d, digitVal c = some d) ↔ Digit c := by
  constructor
  · rintro ⟨d, h⟩; exact (digitVal_some.1 h).1
  · intro h; exact ⟨_, digitVal_some.2 ⟨h, rfl⟩⟩

/-- The text of overflow. -/
def overflowText (neg : Bool) : Str :=
  if neg then "number too small to fit in target type".toList else "number too large to fit in target type".toList

theorem parseDigits_error {s : Bool} {bits : Nat} {neg : Bool} {ds : Str} {n : Nat} {m : Str}
    (hn : inRange s bits (signed' neg n) = true) :
    parseDigits s bits neg (signed' neg n) ds = .error m ↔
      ∃ pre c rest, ds = pre ++ c :: rest ∧ (∀ c ∈ pre, Digit c) ∧
        inRange s bits (signed' neg (numberFrom n pre)) = true ∧
        ((¬ Digit c ∧ m = "invalid digit found in string".toList) ∨
          (Digit c ∧ inRange s bits (signed' neg (numberFrom n (pre ++ [c]))) = false ∧ m = overflowText neg)) := by
  induction ds generalizing n with
  | nil =>
    rw [parseDigits]
    constructor
    · intro h; exact nomatch h
    · rintro ⟨pre, c, rest, h, _⟩; simp at h
  | cons c ds ih =>
    rw [parseDigits]
    cases hd : digitVal c with
    | none =>
      have hc : ¬ Digit c := digitVal_none.1 hd
      constructor
      · intro h; injection h with h
        exact ⟨[], c, ds, rfl, by simp, hn, .inl ⟨hc, h.symm⟩⟩
      · rintro ⟨pre, c', rest, h1, h2, h3, h4⟩
        cases pre with
        | nil =>
          simp at h1; obtain ⟨rfl, rfl⟩ := h1
          rcases h4 with ⟨_, rfl⟩ | ⟨h, _⟩
          · rfl
          · exact absurd h hc
        | cons p pre =>
          simp at h1; obtain ⟨rfl, rfl⟩ := h1
          exact absurd (h2 c (by simp)) hc
    | some d =>
      obtain ⟨hc, hd'⟩ := digitVal_some.1 hd
      have e1 : signed' neg n * 10 = signed' neg (10 * n) := by
        unfold signed'; cases neg <;> simp <;> omega
      have e2 : (if neg = true then signed' neg n * 10 - (d : Int) else signed' neg n * 10 + d) =
          signed' neg (10 * n + d) := by
        unfold signed'; cases neg <;> simp <;> omega
      have e3 : ∀ pre, numberFrom n (c :: pre) = numberFrom (10 * n + d) pre := by
        intro pre; rw [hd']; rfl
      have hmono : inRange s bits (signed' neg (10 * n + d)) = true →
          inRange s bits (signed' neg (10 * n)) = true := inRange_mono (by omega)
      dsimp only
      rw [e2, e1]
      have hov : inRange s bits (signed' neg (10 * n + d)) = false →
          ((.error (overflowText neg) : Except Str Int) = .error m ↔
            ∃ pre c' rest, c :: ds = pre ++ c' :: rest ∧ (∀ c ∈ pre, Digit c) ∧
              inRange s bits (signed' neg (numberFrom n pre)) = true ∧
              ((¬ Digit c' ∧ m = "invalid digit found in string".toList) ∨
                (Digit c' ∧ inRange s bits (signed' neg (numberFrom n (pre ++ [c']))) = false ∧ m = overflowText neg))) := by
        intro hf
        constructor
        · intro h; injection h with h
          refine ⟨[], c, ds, rfl, by simp, hn, .inr ⟨hc, ?_, h.symm⟩⟩
          rw [List.nil_append, e3]; exact hf
        · rintro ⟨pre, c', rest, h1, h2, h3, h4⟩
          cases pre with
          | nil =>
            simp at h1; obtain ⟨rfl, rfl⟩ := h1
            rcases h4 with ⟨h, _⟩ | ⟨_, _, rfl⟩
            · exact absurd hc h
            · rfl
          | cons p pre =>
            simp at h1; obtain ⟨rfl, rfl⟩ := h1
            rw [e3] at h3
            rw [inRange_mono (numberFrom_ge _ _) h3] at hf
            simp at hf
      by_cases h4 : inRange s bits (signed' neg (10 * n + d)) = true
      · rw [if_pos (hmono h4), if_pos h4, ih h4]
        constructor
        · rintro ⟨pre, c', rest, rfl, g2, g3, g4⟩
          refine ⟨c :: pre, c', rest, rfl, ?_, by rw [e3]; exact g3, ?_⟩
          · intro x hx
            rcases List.mem_cons.1 hx with rfl | hx
            · exact hc
            · exact g2 x hx
          · rw [List.cons_append, e3]; exact g4
        · rintro ⟨pre, c', rest, h1, h2, h3, h5⟩
          cases pre with
          | nil =>
            simp at h1; obtain ⟨rfl, rfl⟩ := h1
            rcases h5 with ⟨h, _⟩ | ⟨_, h, _⟩
            · exact absurd hc h
            · rw [List.nil_append, e3] at h
              have : inRange s bits (signed' neg (10 * n + d)) = false := h
              rw [h4] at this; simp at this
          | cons p pre =>
            simp at h1; obtain ⟨rfl, rfl⟩ := h1
            rw [List.cons_append, e3] at h5
            rw [e3] at h3
            exact ⟨pre, c', rest, rfl, fun x hx => h2 x (by simp [hx]), h3, h5⟩
      · have hf : inRange s bits (signed' neg (10 * n + d)) = false := by simpa using h4
        rw [if_neg h4, ← hov hf]
        split <;> exact Iff.rfl

theorem afterSign_unique {s : Bool} {x : Str} {m m' : Bool} {r r' : Str} (h : AfterSign s x m r)
    (h' : AfterSign s x m' r') : m' = m ∧ r' = r := by
  rcases h with ⟨rfl, rfl⟩ | ⟨rfl, hs, rfl⟩ | ⟨rfl, rfl, h1, h2⟩ <;>
    rcases h' with ⟨h3, rfl⟩ | ⟨h3, hs', rfl⟩ | ⟨h3, rfl, h4, h5⟩
  · simp at h3; exact ⟨rfl, h3.symm⟩
  · simp at h3
  · simp at h4
  · simp at h3
  · simp at h3; exact ⟨rfl, h3.symm⟩
  · exact absurd rfl (h5 hs)
  · rw [h3] at h1; simp at h1
  · rw [h3] at h2; exact absurd rfl (h2 hs')
  · exact ⟨rfl, h3.symm⟩

theorem parseInt_afterSign {s : Bool} {bits : Nat} {x : Str} (hx : x ≠ []) :
    ∃ minus rest, AfterSign s x minus rest ∧
      (rest = [] → parseInt s bits x = .error "invalid digit found in string".toList) ∧
      (rest ≠ [] → parseInt s bits x = parseDigits s bits minus 0 rest) := by
  match x with
  | [] => exact absurd rfl hx
  | [c] =>
    by_cases hp : c = '+'
    · subst hp; exact ⟨false, [], .inl ⟨rfl, rfl⟩, fun _ => rfl, fun h => absurd rfl h⟩
    · by_cases hm : c = '-'
      · subst hm
        cases s with
        | true => exact ⟨true, [], .inr (.inl ⟨rfl, rfl, rfl⟩), fun _ => rfl, fun h => absurd rfl h⟩
        | false =>
          refine ⟨false, ['-'], .inr (.inr ⟨rfl, rfl, by simp, by simp⟩), by simp, fun _ => ?_⟩
          have : digitVal '-' = none := by decide
          rw [parseDigits, this]; rfl
      · refine ⟨false, [c], .inr (.inr ⟨rfl, rfl, by simpa using hp, by simp [hm]⟩), by simp, fun _ => ?_⟩
        rw [parseInt]
        · rw [if_neg hp, if_neg (by simp [hm])]
        · rintro rfl _; exact hp rfl
        · rintro rfl _; exact hm rfl
  | c :: c' :: cs =>
    have sgn : parseInt s bits (c :: c' :: cs) = if c = '+' then parseDigits s bits false 0 (c' :: cs)
        else if c = '-' ∧ s then parseDigits s bits true 0 (c' :: cs) else parseDigits s bits false 0 (c :: c' :: cs) := by
      rw [parseInt]
      · rintro rfl h; simp at h
      · rintro rfl h; simp at h
    by_cases hp : c = '+'
    · subst hp
      exact ⟨false, c' :: cs, .inl ⟨rfl, rfl⟩, by simp, fun _ => by rw [sgn, if_pos rfl]⟩
    · by_cases hm : c = '-' ∧ s = true
      · obtain ⟨rfl, rfl⟩ := hm
        exact ⟨true, c' :: cs, .inr (.inl ⟨rfl, rfl, rfl⟩), by simp, fun _ => by rw [sgn, if_neg hp, if_pos ⟨rfl, rfl⟩]⟩
      · refine ⟨false, c :: c' :: cs, .inr (.inr ⟨rfl, rfl, by simpa using hp, fun hs => ?_⟩), by simp,
          fun _ => by rw [sgn, if_neg hp, if_neg hm]⟩
        simp only [List.head?_cons, ne_eq, Option.some.injEq]
        exact fun h => hm ⟨h, hs⟩

theorem inRange_false {signed : Bool} {bits : Nat} {i : Int} :
    inRange signed bits i = false ↔ ¬ IntRange signed bits i := by
  rw [← inRange_iff]; simp

theorem parseInt_error {s : Bool} {bits : Nat} {x m : Str} :
    parseInt s bits x = .error m ↔ IntComplaint s bits x m := by
  by_cases hx : x = []
  · subst hx
    constructor
    · intro h; rw [parseInt] at h; injection h with h; subst h; exact .empty rfl
    · intro h
      have no : ∀ {m d c r}, ¬ AfterSign s [] m (d ++ c :: r) := by
        rintro m d c r (⟨h, _⟩ | ⟨h, _⟩ | ⟨h, _⟩) <;> simp at h
      cases h with
      | empty => rw [parseInt]
      | sign h => exact absurd rfl h
      | digit h => exact absurd h no
      | large h => exact absurd h no
      | small h => exact absurd h no
  · obtain ⟨minus, rest, h1, h2, h3⟩ := parseInt_afterSign (s := s) (bits := bits) hx
    by_cases hr : rest = []
    · subst hr
      rw [h2 rfl]
      have no : ∀ {m d c r}, ¬ AfterSign s x m (d ++ c :: r) := by
        intro m d c r h
        have := (afterSign_unique h1 h).2
        simp at this
      constructor
      · intro h; injection h with h; subst h; exact .sign hx h1
      · intro h
        cases h with
        | empty h => exact absurd h hx
        | sign => rfl
        | digit h => exact absurd h no
        | large h => exact absurd h no
        | small h => exact absurd h no
    · have e0 : signed' minus 0 = 0 := by cases minus <;> rfl
      have key := parseDigits_error (ds := rest) (m := m) (inRange_zero s bits minus)
      rw [e0] at key
      rw [h3 hr, key]
      have hw : ∀ n, signed' minus n = withSign minus n := fun _ => rfl
      have hnum : ∀ ds, numberFrom 0 ds = number ds := fun _ => rfl
      simp only [hw, hnum, inRange_iff, inRange_false]
      constructor
      · rintro ⟨pre, c, r, rfl, g2, g3, ⟨g4, rfl⟩ | ⟨g4, g5, rfl⟩⟩
        · exact .digit h1 g2 g3 g4
        · cases minus with
          | false => exact .large h1 g2 g3 g4 g5
          | true => exact .small h1 g2 g3 g4 g5
      · intro h
        cases h with
        | empty h => exact absurd h hx
        | sign _ h => exact absurd (afterSign_unique h h1).2 hr
        | digit h g2 g3 g4 =>
          obtain ⟨rfl, rfl⟩ := afterSign_unique h1 h
          exact ⟨_, _, _, rfl, g2, g3, .inl ⟨g4, rfl⟩⟩
        | large h g2 g3 g4 g5 =>
          obtain ⟨rfl, rfl⟩ := afterSign_unique h1 h
          exact ⟨_, _, _, rfl, g2, g3, .inr ⟨g4, g5, rfl⟩⟩
        | small h g2 g3 g4 g5 =>
          obtain ⟨rfl, rfl⟩ := afterSign_unique h1 h
          exact ⟨_, _, _, rfl, g2, g3, .inr ⟨g4, g5, rfl⟩⟩

theorem parse_error {k : Scalar} {x : Str} {e : FormError} : k.parse x = .error e ↔ ScalarComplaint k x e := by
  cases k with
  | bool =>
    simp only [Scalar.parse, ScalarComplaint, parseBool]
    by_cases h1 : x = "true".toList
    · simp [h1]
    · by_cases h2 : x = "false".toList
      · rw [if_neg h1, if_pos h2]; simp [h2]
      · rw [if_neg h1, if_neg h2]
        exact ⟨fun h => ⟨h1, h2, by injection h with h; exact h.symm⟩, fun h => by rw [h.2.2]⟩
  | int s n =>
    simp only [Scalar.parse, ScalarComplaint, ← parseInt_error]
    cases parseInt s n x <;> simp [eq_comm]
  | float p =>
    simp only [Scalar.parse, ScalarComplaint]
    cases p x <;> simp [eq_comm]
  | char => cases x <;> simp [Scalar.parse, ScalarComplaint, eq_comm]
  | string => simp [Scalar.parse, ScalarComplaint]
  | ofString f => simp [Scalar.parse, ScalarComplaint]

/-! ### Values -/

theorem Res.bind_eq_err {α β : Type} {x : Res α} {f : α → Res β} {e : FormError} :
    x.bind f = .err e ↔ x = .err e ∨ ∃ a, x = .ok a ∧ f a = .err e := by
  cases x <;> simp [Res.bind]

theorem seqLoop_err {f : List Str → Res (Val × List Str)} {R : List Str → Val → List Str → Prop}
    {C : List Str → FormError → Prop} {P : List Str → Prop} (hsuf : ∀ xs ys, xs <:+ ys → P ys → P xs)
    (hs : Shrinks f) (hf : ∀ xs, xs ≠ [] → P xs → Good f R xs)
    (hC : ∀ xs, xs ≠ [] → P xs → ∀ e, f xs = .err e ↔ C xs e) :
    ∀ fuel y r acc e, r.length + 1 < fuel → P (y :: r) →
      (seqLoop f fuel false (y :: r) acc = .err e ↔ r ≠ [] ∧ ComplainsAll R C r e) := by
  intro fuel
  induction fuel with
  | zero => intro y r acc e h; simp at h
  | succ fuel ih =>
    intro y r acc e hl hP
    rw [seqLoop]
    cases r with
    | nil =>
      have hn : nextElement false [y] = .ok none := by simp [nextElement]
      rw [hn]; simp
    | cons x r =>
      have hn : nextElement false (y :: x :: r) = .ok (some (x :: r)) := by simp [nextElement]
      rw [hn]
      simp only [Res.bind_ok]
      have hP' : P (x :: r) := hsuf _ _ (List.suffix_cons y (x :: r)) hP
      have g := hf (x :: r) (by simp) hP'
      have step : ∀ v z rest', f (x :: r) = .ok (v, z :: rest') → (seqLoop f fuel false (z :: rest') (acc ++ [v]) = .err e ↔
          rest' ≠ [] ∧ ComplainsAll R C rest' e) := by
        intro v z rest' h1
        have hsu := (hs (x :: r)).2 _ _ h1
        have := hsu.length_le
        exact ih z rest' _ e (by simp at this hl; omega) (hsuf _ _ hsu hP')
      rw [Res.bind_eq_err]
      constructor
      · rintro (h | ⟨⟨v, rest⟩, h1, h2⟩)
        · exact ⟨by simp, .here ((hC _ (by simp) hP' e).1 h)⟩
        · obtain ⟨hne, hr⟩ := g.sound v rest h1
          obtain ⟨z, rest', rfl⟩ := List.exists_cons_of_ne_nil hne
          obtain ⟨h3, h4⟩ := (step v z rest' h1).1 h2
          exact ⟨by simp, .later hr h3 h4⟩
      · rintro ⟨_, h⟩
        cases h with
        | here h => exact .inl ((hC _ (by simp) hP' e).2 h)
        | later h1 h2 h3 =>
          obtain ⟨z, h4⟩ := g.complete _ _ h1
          exact .inr ⟨_, h4, (step _ _ _ h4).2 ⟨h2, h3⟩⟩

theorem seqLoop_err_first {f : List Str → Res (Val × List Str)} {R : List Str → Val → List Str → Prop}
    {C : List Str → FormError → Prop} {P : List Str → Prop} (hsuf : ∀ xs ys, xs <:+ ys → P ys → P xs)
    (hs : Shrinks f) (hf : ∀ xs, xs ≠ [] → P xs → Good f R xs)
    (hC : ∀ xs, xs ≠ [] → P xs → ∀ e, f xs = .err e ↔ C xs e) (xs : List Str) (hne : xs ≠ []) (hP : P xs)
    (e : FormError) : seqLoop f (xs.length + 2) true xs [] = .err e ↔ ComplainsAll R C xs e := by
  have hn : nextElement true xs = .ok (some xs) := by simp [nextElement]
  have g := hf xs hne hP
  have hd : seqLoop f (xs.length + 2) true xs [] =
      (f xs).bind fun (v, rest) => seqLoop f (xs.length + 1) false rest [v] := by
    rw [seqLoop, hn]; rfl
  have step : ∀ v z rest', f xs = .ok (v, z :: rest') → (seqLoop f (xs.length + 1) false (z :: rest') [v] = .err e ↔
      rest' ≠ [] ∧ ComplainsAll R C rest' e) := by
    intro v z rest' h1
    have hsu := (hs xs).2 _ _ h1
    have := hsu.length_le
    exact seqLoop_err hsuf hs hf hC _ z rest' _ e (by simp at this; omega) (hsuf _ _ hsu hP)
  rw [hd, Res.bind_eq_err]
  constructor
  · rintro (h | ⟨⟨v, rest⟩, h1, h2⟩)
    · exact .here ((hC _ hne hP e).1 h)
    · obtain ⟨hne', hr⟩ := g.sound v rest h1
      obtain ⟨z, rest', rfl⟩ := List.exists_cons_of_ne_nil hne'
      obtain ⟨h3, h4⟩ := (step v z rest' h1).1 h2
      exact .later hr h3 h4
  · intro h
    cases h with
    | here h => exact .inl ((hC _ hne hP e).2 h)
    | later h1 h2 h3 =>
      obtain ⟨z, h4⟩ := g.complete _ _ h1
      exact .inr ⟨_, h4, (step _ _ _ h4).2 ⟨h2, h3⟩⟩

mutual
theorem decode_err : ∀ t xs, xs ≠ [] → Ready (Steady t) xs → ∀ e, decode t xs = .err e ↔ Complains t xs e
  | .scalar k, xs, hne, hP, e => by
    obtain ⟨x, xs, rfl⟩ := List.exists_cons_of_ne_nil hne
    have hd : decode (.scalar k) (x :: xs) = match k.parse x with
      | .ok v => .ok (v, x :: xs) | .error e => .err e := by
      simp only [decode, decodeScalar]; cases k.parse x <;> rfl
    rw [hd, Complains]
    constructor
    · intro h
      cases hk : k.parse x with
      | ok v => rw [hk] at h; simp at h
      | error e' =>
        rw [hk] at h; simp at h; subst h
        exact ⟨x, xs, rfl, parse_error.1 hk⟩
    · rintro ⟨x', r, h1, h2⟩
      injection h1 with h1 h3
      subst h1
      rw [parse_error.2 h2]
  | .unit, xs, hne, hP, e => by rw [decode, Complains]; simp
  | .option t, xs, hne, hP, e => by
    have hP' : Ready (Steady t) xs := by
      rcases hP with h | h
      · simp [Steady] at h
      · exact .inr h
    have ih := decode_err t xs hne hP' e
    obtain ⟨x, xs, rfl⟩ := List.exists_cons_of_ne_nil hne
    have hse := startsEmpty_of_ready hP
    have hx : x ≠ [] := by rintro rfl; simp [startsEmpty] at hse
    rw [decode, hse, Complains, ← ih]
    simp only [Bool.false_eq_true, if_false, Res.bind_eq_err, List.head?_cons, ne_eq, Option.some.injEq, hx, not_false_eq_true,
      true_and, reduceCtorEq, and_false, exists_false, or_false]
  | .newtype t, xs, hne, hP, e => by rw [decode, Complains]; exact decode_err t xs hne hP e
  | .seq t, xs, hne, hP, e => by
    rw [decode, Complains]
    exact seqLoop_err_first (P := Ready (Steady t)) (fun _ _ h => Ready.suffix h) (decode_shrinks t)
      (decode_good t) (decode_err t) xs hne hP e
  | .tuple ex [], xs, hne, hP, e => by rw [decode, decodeTuple, Complains, ComplainsEach]; simp
  | .tuple ex (t :: ts), xs, hne, hP, e => by
    rw [Steady, SteadyAll] at hP
    have hPt : Ready (Steady t) xs := by
      rcases hP with h | h
      · simp at h; exact .inl h.1
      · exact .inr h
    have hPts : Ready (SteadyAll ts) xs := by
      rcases hP with h | h
      · simp at h; exact .inl h.2
      · exact .inr h
    have g := decode_good t xs hne hPt
    have ih := decode_err t xs hne hPt e
    have hn : nextElement true xs = .ok (some xs) := by simp [nextElement]
    rw [decode, decodeTuple, hn, Complains, ComplainsEach]
    simp only [Res.bind_ok, Res.bind_eq_err, ih, hne, false_and, false_or, ne_eq, not_false_eq_true, true_and]
    refine or_congr Iff.rfl ⟨?_, ?_⟩
    · rintro ⟨⟨v, rest⟩, h1, h2⟩
      obtain ⟨hr, hR⟩ := g.sound v rest h1
      obtain ⟨z, r', rfl⟩ := List.exists_cons_of_ne_nil hr
      exact ⟨v, r', hR, (decodeTuple_err ex ts 1 z r' _ e (hPts.suffix ((decode_shrinks t xs).2 _ _ h1))).1 h2⟩
    · rintro ⟨v, r, h1, h2⟩
      obtain ⟨z, h3⟩ := g.complete _ _ h1
      exact ⟨_, h3, (decodeTuple_err ex ts 1 z r _ e (hPts.suffix ((decode_shrinks t xs).2 _ _ h3))).2 h2⟩
  | .fails e', xs, hne, hP, e => by
    rw [decode, Complains]
    exact ⟨fun h => by injection h with h; exact h.symm, fun h => by rw [h]⟩
theorem decodeTuple_err (ex : Str) : ∀ ts i z r acc e, Ready (SteadyAll ts) (z :: r) →
    (decodeTuple ex ts i false (z :: r) acc = .err e ↔ ComplainsEach ex ts i r e)
  | [], i, z, r, acc, e, _ => by rw [decodeTuple, ComplainsEach]; simp
  | t :: ts, i, z, [], acc, e, _ => by
    have hn : nextElement false [z] = .ok none := by simp [nextElement]
    rw [decodeTuple, hn, ComplainsEach]
    simp only [Res.bind_ok, true_and, ne_eq, not_true_eq_false, false_and, or_false]
    exact ⟨fun h => by injection h with h; exact h.symm, fun h => by rw [h]⟩
  | t :: ts, i, z, x :: r, acc, e, hP => by
    have hn : nextElement false (z :: x :: r) = .ok (some (x :: r)) := by simp [nextElement]
    rw [SteadyAll] at hP
    have hP0 := Ready.suffix (List.suffix_cons z (x :: r)) hP
    have hPt : Ready (Steady t) (x :: r) := by
      rcases hP0 with h | h
      · simp at h; exact .inl h.1
      · exact .inr h
    have hPts : Ready (SteadyAll ts) (x :: r) := by
      rcases hP0 with h | h
      · simp at h; exact .inl h.2
      · exact .inr h
    have g := decode_good t (x :: r) (by simp) hPt
    have ih := decode_err t (x :: r) (by simp) hPt e
    rw [decodeTuple, hn, ComplainsEach]
    simp only [Res.bind_ok, Res.bind_eq_err, ih, reduceCtorEq, false_and, false_or, ne_eq, not_false_eq_true, true_and]
    refine or_congr Iff.rfl ⟨?_, ?_⟩
    · rintro ⟨⟨v, rest⟩, h1, h2⟩
      obtain ⟨hr, hR⟩ := g.sound v rest h1
      obtain ⟨z, r', rfl⟩ := List.exists_cons_of_ne_nil hr
      exact ⟨v, r', hR, (decodeTuple_err ex ts (i + 1) z r' _ e (hPts.suffix ((decode_shrinks t _).2 _ _ h1))).1 h2⟩
    · rintro ⟨v, r, h1, h2⟩
      obtain ⟨z, h3⟩ := g.complete _ _ h1
      exact ⟨_, h3, (decodeTuple_err ex ts (i + 1) z r _ e (hPts.suffix ((decode_shrinks t _).2 _ _ h3))).2 h2⟩
end

/-! ### Structs -/

theorem putField_err {fields : List Field} {k : Str} {vals : List Str} {seen : List (Option Val)} {err : FormError}
    (hl : seen.length = fields.length) (h : putField k vals fields seen = some (.err err)) :
    ∃ f ∈ fields, f.has k = true ∧ (decode f.ty vals = .err err ∨
      ((∃ v, (f, some v) ∈ fields.zip seen) ∧ err = .message ("duplicate field `".toList ++ f.name ++ ['`']))) := by
  induction fields generalizing seen with
  | nil => simp [putField] at h
  | cons f fs ih =>
    cases seen with
    | nil => simp at hl
    | cons s ss =>
      rw [putField_cons] at h
      by_cases hk : f.has k = true
      · rw [if_pos hk] at h
        refine ⟨f, by simp, hk, ?_⟩
        cases s with
        | some v =>
          simp at h
          exact .inr ⟨⟨v, by simp⟩, by rw [← h]; simp⟩
        | none =>
          simp only [Option.some.injEq, Res.bind_eq_err, reduceCtorEq, and_false, exists_false, or_false] at h
          exact .inl h
      · rw [if_neg hk] at h
        cases hp : putField k vals fs ss with
        | none => rw [hp] at h; simp at h
        | some r =>
          rw [hp] at h
          simp only [Option.some.injEq, Res.bind_eq_err, reduceCtorEq, and_false, exists_false, or_false] at h
          rw [h] at hp
          obtain ⟨g, hg, h1, h2⟩ := ih (by simpa using hl) hp
          refine ⟨g, by simp [hg], h1, h2.imp id ?_⟩
          rintro ⟨⟨v, hv⟩, h3⟩
          exact ⟨⟨v, by simp [hv]⟩, h3⟩

theorem zip_mem_steps {k : Str} {vals : List Str} {fields : List Field} {seen seen' : List (Option Val)}
    (h : All3 (OneStep k vals) fields seen seen') {f : Field} {v : Val} (hm : (f, some v) ∈ fields.zip seen') :
    f.has k = true ∨ ∃ v', (f, some v') ∈ fields.zip seen := by
  induction h with
  | nil => simp at hm
  | @cons a b c as bs cs h1 _ ih =>
    simp only [List.zip_cons_cons, List.mem_cons, Prod.mk.injEq] at hm ⊢
    rcases hm with ⟨rfl, hv⟩ | hm
    · by_cases hk : f.has k = true
      · exact .inl hk
      · rw [OneStep, if_neg hk] at h1
        exact .inr ⟨v, .inl ⟨rfl, by rw [hv, h1]⟩⟩
    · rcases ih hm with h | ⟨v', h⟩
      · exact .inl h
      · exact .inr ⟨v', .inr h⟩

/-- Errors of the loop are about entries. -/
theorem structLoop_err {fields : List Field} {deny : Option (Str → Str)} (hd : Distinct fields)
    {all : List (Str × List Str)} (hk : KeysDistinct all) (hne : ∀ e ∈ all, e.2 ≠ [])
    (hC : ∀ f ∈ fields, ∀ e ∈ all, ∀ err, decode f.ty e.2 = .err err → Complains f.ty e.2 err) {err : FormError} :
    ∀ {entries done : List (Str × List Str)} {seen : List (Option Val)}, all = done ++ entries →
    seen.length = fields.length →
    (∀ f v, (f, some v) ∈ fields.zip seen → ∃ e ∈ done, f.has e.1 = true) →
    structLoop fields deny entries seen = .err err → EntryComplaint fields deny all err := by
  intro entries
  induction entries with
  | nil => intro done seen _ _ _ h; simp [structLoop] at h
  | cons e es ih =>
    intro done seen ha hl hseen h
    obtain ⟨k, vals⟩ := e
    have hmem : (k, vals) ∈ all := by rw [ha]; simp
    rw [structLoop_cons] at h
    cases hp : putField k vals fields seen with
    | some r =>
      rw [hp] at h
      simp only [Res.bind_eq_err] at h
      rcases h with rfl | ⟨seen', rfl, h⟩
      · obtain ⟨f, hf, hfk, h1 | ⟨⟨v, hv⟩, rfl⟩⟩ := putField_err hl hp
        · exact .value hf hmem hfk (hC f hf _ hmem _ h1)
        · obtain ⟨e', he', hfe⟩ := hseen f v hv
          refine .twice hf (by rw [ha]; simp [he']) hmem ?_ hfe hfk
          rintro rfl
          rw [ha, KeysDistinct, List.map_append, List.nodup_append] at hk
          exact hk.2.2 _ (List.mem_map_of_mem he') _ (List.mem_map_of_mem (List.mem_cons_self ..)) rfl
      · obtain ⟨_, h3⟩ := (putField_ok hd hl).1 hp
        refine ih (done := done ++ [(k, vals)]) (by rw [ha]; simp) (by rw [h3.length.2]) ?_ h
        intro f v hv
        rcases zip_mem_steps h3 hv with h4 | ⟨v', h4⟩
        · exact ⟨(k, vals), by simp, h4⟩
        · obtain ⟨e', he', h5⟩ := hseen f v' h4
          exact ⟨e', by simp [he'], h5⟩
    | none =>
      rw [hp] at h
      have hno := (putField_none hl).1 hp
      cases deny with
      | some text =>
        simp at h; subst h
        exact .unknown rfl hmem hno
      | none =>
        dsimp only at h
        rw [decode_ignored.2 ⟨hne _ hmem, rfl⟩, Res.bind_ok] at h
        refine ih (done := done ++ [(k, vals)]) (by rw [ha]; simp) hl ?_ h
        intro f v hv
        obtain ⟨e', he', h5⟩ := hseen f v hv
        exact ⟨e', by simp [he'], h5⟩

theorem finishFields_err {fields : List Field} {err : FormError} : ∀ {seen : List (Option Val)},
    seen.length = fields.length →
    (finishFields fields seen = .err err ↔
      ∃ pre f post, fields.zip seen = pre ++ (f, none) :: post ∧
        (∀ g ∈ pre, g.2 = none → g.1.default ≠ none ∨ ∃ t, g.1.ty = .option t) ∧
        f.default = none ∧ (∀ t, f.ty ≠ .option t) ∧ err = .message ("missing field `".toList ++ f.name ++ ['`'])) := by
  have miss : ∀ f : Field, (missingField f = .err err ↔ f.default = none ∧ (∀ t, f.ty ≠ .option t) ∧
      err = .message ("missing field `".toList ++ f.name ++ ['`'])) := by
    intro f
    unfold missingField
    cases f.default with
    | some v => simp
    | none =>
      cases f.ty with
      | option t => simp
      | _ => simp [eq_comm]
  induction fields with
  | nil => intro seen _; simp [finishFields]
  | cons f fs ih =>
    intro seen hl
    cases seen with
    | nil => simp at hl
    | cons s ss =>
      have ih' := ih (seen := ss) (by simpa using hl)
      rw [finishFields_cons, List.zip_cons_cons]
      cases s with
      | some v =>
        simp only [Res.bind_ok, Res.bind_eq_err, reduceCtorEq, and_false, exists_false, or_false, ih']
        constructor
        · rintro ⟨pre, g, post, h1, h2, h3⟩
          refine ⟨(f, some v) :: pre, g, post, by rw [h1]; rfl, ?_, h3⟩
          intro x hx
          rcases List.mem_cons.1 hx with rfl | hx
          · simp
          · exact h2 x hx
        · rintro ⟨pre, g, post, h1, h2, h3⟩
          cases pre with
          | nil => simp at h1
          | cons p pre =>
            simp at h1
            exact ⟨pre, g, post, h1.2, fun x hx => h2 x (by simp [hx]), h3⟩
      | none =>
        simp only [Res.bind_eq_err, reduceCtorEq, and_false, exists_false, or_false, ih', miss]
        constructor
        · rintro (h | ⟨v, hv, pre, g, post, h1, h2, h3⟩)
          · exact ⟨[], f, _, rfl, by simp, h⟩
          · refine ⟨(f, none) :: pre, g, post, by rw [h1]; rfl, ?_, h3⟩
            intro x hx
            rcases List.mem_cons.1 hx with rfl | hx
            · intro _
              rcases missingField_ok.1 hv with h | ⟨_, h, _⟩
              · exact .inl (by rw [h]; simp)
              · exact .inr h
            · exact h2 x hx
        · rintro ⟨pre, g, post, h1, h2, h3⟩
          cases pre with
          | nil => simp at h1; obtain ⟨⟨rfl, _⟩, _⟩ := h1; exact .inl h3
          | cons p pre =>
            simp at h1
            obtain ⟨rfl, h1⟩ := h1
            refine .inr ?_
            have : ∃ v, missingField f = .ok v := by
              rcases h2 _ (List.mem_cons_self ..) rfl with h | h
              · obtain ⟨v, hv⟩ := Option.ne_none_iff_exists'.1 h
                exact ⟨v, missingField_ok.2 (.inl hv)⟩
              · cases hdef : f.default with
                | some v => exact ⟨v, missingField_ok.2 (.inl hdef)⟩
                | none => exact ⟨.none, missingField_ok.2 (.inr ⟨hdef, h, rfl⟩)⟩
            obtain ⟨v, hv⟩ := this
            exact ⟨v, hv, pre, g, post, h1, fun x hx => h2 x (by simp [hx]), h3⟩

end Obsidian
