import Verif.Proofs.Scalar

/- The value decoder: it ends, and it reads what `Spec.Reads` says. -/
namespace Obsidian
open Spec

@[simp] theorem Res.bind_ok {α β : Type} (a : α) (f : α → Res β) : (Res.ok a).bind f = f a := rfl
@[simp] theorem Res.bind_err {α β : Type} (e : FormError) (f : α → Res β) : (Res.err e).bind f = .err e := rfl
@[simp] theorem Res.bind_crash {α β : Type} (c : Crash) (f : α → Res β) :
    (Res.crash c).bind f = .crash c := rfl

theorem Res.bind_eq_ok {α β : Type} {x : Res α} {f : α → Res β} {b : β} :
    x.bind f = .ok b ↔ ∃ a, x = .ok a ∧ f a = .ok b := by
  cases x <;> simp [Res.bind]

theorem Res.bind_eq_crash {α β : Type} {x : Res α} {f : α → Res β} {c : Crash} :
    x.bind f = .crash c ↔ x = .crash c ∨ ∃ a, x = .ok a ∧ f a = .crash c := by
  cases x <;> simp [Res.bind]

/-! ### Termination -/

/-- Decoding leaves a suffix of the input and ends. -/
def Shrinks (f : List Str → Res (Val × List Str)) : Prop :=
  ∀ inp, f inp ≠ .crash .diverges ∧ ∀ v r, f inp = .ok (v, r) → r <:+ inp

theorem nextElement_ok {first : Bool} {input inp : List Str} (h : nextElement first input = .ok (some inp)) :
    (first = true ∧ inp = input) ∨ (first = false ∧ ∃ x, input = x :: inp ∧ inp ≠ []) := by
  unfold nextElement at h
  cases first with
  | true => simp at h; exact .inl ⟨rfl, h.symm⟩
  | false =>
    right
    refine ⟨rfl, ?_⟩
    match input, h with
    | [], h => simp at h
    | [x], h => simp at h
    | x :: y :: r, h => simp at h; exact ⟨x, by rw [h], by rw [← h]; simp⟩

theorem nextElement_diverges {first : Bool} {input : List Str} :
    nextElement first input ≠ .crash .diverges := by
  unfold nextElement
  split
  · simp
  · split
    · split <;> simp
    · simp

theorem seqLoop_shrinks {f : List Str → Res (Val × List Str)} (hf : Shrinks f) :
    ∀ fuel input acc, input.length < fuel →
      seqLoop f fuel false input acc ≠ .crash .diverges ∧
      ∀ v r, seqLoop f fuel false input acc = .ok (v, r) → r <:+ input := by
  intro fuel
  induction fuel with
  | zero => intro input acc h; simp at h
  | succ fuel ih =>
    intro input acc h
    rw [seqLoop]
    cases hn : nextElement false input with
    | err e => simp
    | crash c =>
      refine ⟨?_, by simp⟩
      intro h'; simp only [Res.bind_crash] at h'; injection h' with h'; subst h'
      exact nextElement_diverges hn
    | ok o =>
      cases o with
      | none => simp
      | some inp =>
        simp only [Res.bind_ok]
        rcases nextElement_ok hn with ⟨h1, _⟩ | ⟨_, x, h1, _⟩
        · simp at h1
        subst h1
        obtain ⟨f1, f2⟩ := hf inp
        cases hfi : f inp with
        | err e => simp
        | crash c => rw [hfi] at f1; simpa using f1
        | ok p =>
          obtain ⟨v, rest⟩ := p
          have hs := f2 v rest hfi
          have hl : rest.length < fuel := by
            have := hs.length_le; simp at h; omega
          obtain ⟨g1, g2⟩ := ih rest (acc ++ [v]) hl
          simp only [Res.bind_ok]
          exact ⟨g1, fun v' r' h' => (g2 v' r' h').trans (hs.trans (List.suffix_cons x inp))⟩

theorem seqLoop_shrinks_first {f : List Str → Res (Val × List Str)} (hf : Shrinks f) :
    Shrinks (fun input => seqLoop f (input.length + 2) true input []) := by
  intro input
  show seqLoop f (input.length + 2) true input [] ≠ _ ∧ ∀ v r, seqLoop f (input.length + 2) true input [] = _ → _
  rw [seqLoop]
  have hn : nextElement true input = .ok (some input) := by simp [nextElement]
  rw [hn]
  simp only [Res.bind_ok]
  obtain ⟨f1, f2⟩ := hf input
  cases hfi : f input with
  | err e => simp
  | crash c => rw [hfi] at f1; simpa using f1
  | ok p =>
    obtain ⟨v, rest⟩ := p
    have hs := f2 v rest hfi
    have hl : rest.length < input.length + 1 := by have := hs.length_le; omega
    obtain ⟨g1, g2⟩ := seqLoop_shrinks hf (input.length + 1) rest ([] ++ [v]) hl
    simp only [Res.bind_ok]
    exact ⟨g1, fun v' r' h' => (g2 v' r' h').trans hs⟩

theorem drop_one_suffix (input : List Str) : input.drop 1 <:+ input := List.drop_suffix 1 input

mutual
theorem decode_shrinks : ∀ t, Shrinks (decode t)
  | .scalar k => by
    intro input
    cases input with
    | nil => simp [decode, decodeScalar]
    | cons x xs =>
      simp only [decode, decodeScalar]
      cases k.parse x <;> simp
  | .unit => by
    intro input
    rw [decode]
    refine ⟨by simp, fun v r h => ?_⟩
    injection h with h; injection h with _ h
    rw [← h]
    split
    · exact drop_one_suffix input
    · exact List.suffix_refl _
  | .option t => by
    intro input
    rw [decode]
    obtain ⟨f1, f2⟩ := decode_shrinks t input
    split
    · refine ⟨by simp, fun v r h => ?_⟩
      injection h with h; injection h with _ h
      rw [← h]; exact drop_one_suffix input
    · cases h : decode t input with
      | err e => simp
      | crash c => rw [h] at f1; simpa using f1
      | ok p =>
        obtain ⟨v, r⟩ := p
        refine ⟨by simp, fun v' r' h' => ?_⟩
        simp at h'
        rw [← h'.2]; exact f2 v r h
  | .newtype t => by
    intro input; rw [decode]; exact decode_shrinks t input
  | .seq t => by
    intro input; rw [decode]; exact seqLoop_shrinks_first (decode_shrinks t) input
  | .tuple e ts => by
    intro input; rw [decode]; exact decodeTuple_shrinks e ts 0 true input []
  | .fails e => by
    intro input; rw [decode]; simp
theorem decodeTuple_shrinks (e : Str) : ∀ ts i first input acc,
    decodeTuple e ts i first input acc ≠ .crash .diverges ∧
    ∀ v r, decodeTuple e ts i first input acc = .ok (v, r) → r <:+ input
  | [], i, first, input, acc => by
    rw [decodeTuple]
    refine ⟨by simp, fun v r h => ?_⟩
    injection h with h; injection h with _ h
    rw [h]; exact List.suffix_refl _
  | t :: ts, i, first, input, acc => by
    rw [decodeTuple]
    cases hn : nextElement first input with
    | err e => simp
    | crash c =>
      refine ⟨?_, by simp⟩
      intro h'; simp only [Res.bind_crash] at h'; injection h' with h'; subst h'
      exact nextElement_diverges hn
    | ok o =>
      cases o with
      | none => simp
      | some inp =>
        simp only [Res.bind_ok]
        have hsuf : inp <:+ input := by
          rcases nextElement_ok hn with ⟨_, rfl⟩ | ⟨_, x, rfl, _⟩
          · exact List.suffix_refl _
          · exact List.suffix_cons x inp
        obtain ⟨f1, f2⟩ := decode_shrinks t inp
        cases hfi : decode t inp with
        | err e => simp
        | crash c => rw [hfi] at f1; simpa using f1
        | ok p =>
          obtain ⟨v, rest⟩ := p
          obtain ⟨g1, g2⟩ := decodeTuple_shrinks e ts (i + 1) false rest (acc ++ [v])
          simp only [Res.bind_ok]
          exact ⟨g1, fun v' r' h' => (g2 v' r' h').trans ((f2 v rest hfi).trans hsuf)⟩
end

/-! ### Refinement -/

/-- On the input `xs`, `f` does not panic and reads what `R` says; of the input, it keeps the last value
it read. -/
structure Good (f : List Str → Res (Val × List Str)) (R : List Str → Val → List Str → Prop)
    (xs : List Str) : Prop where
  noCrash : ∀ c, f xs ≠ .crash c
  sound : ∀ v r, f xs = .ok (v, r) → r ≠ [] ∧ R xs v r.tail
  complete : ∀ v r, R xs v r → ∃ y, f xs = .ok (v, y :: r)

theorem seqLoop_good {f : List Str → Res (Val × List Str)} {R : List Str → Val → List Str → Prop}
    {P : List Str → Prop} (hsuf : ∀ xs ys, xs <:+ ys → P ys → P xs) (hs : Shrinks f)
    (hR : ∀ v r, ¬ R [] v r)
    (hf : ∀ xs, xs ≠ [] → P xs → Good f R xs) :
    ∀ fuel y r acc, r.length + 1 < fuel → P (y :: r) →
      (∀ c, seqLoop f fuel false (y :: r) acc ≠ .crash c) ∧
      (∀ v out, seqLoop f fuel false (y :: r) acc = .ok (v, out) → (∃ z, out = [z]) ∧
        ((r = [] ∧ v = .list acc) ∨ ∃ vs, v = .list (acc ++ vs) ∧ ReadsAll R r vs)) ∧
      (r = [] → ∃ z, seqLoop f fuel false (y :: r) acc = .ok (.list acc, [z])) ∧
      (∀ vs, ReadsAll R r vs → ∃ z, seqLoop f fuel false (y :: r) acc = .ok (.list (acc ++ vs), [z])) := by
  intro fuel
  induction fuel with
  | zero => intro y r acc h; simp at h
  | succ fuel ih =>
    intro y r acc hl hP
    rw [seqLoop]
    cases r with
    | nil =>
      have hn : nextElement false [y] = .ok none := by simp [nextElement]
      rw [hn]
      refine ⟨by simp, fun v out h => ?_, fun _ => ⟨y, rfl⟩, fun vs h => ?_⟩
      · simp only [Res.bind_ok] at h
        injection h with h; injection h with h1 h2
        exact ⟨⟨y, h2.symm⟩, .inl ⟨rfl, h1.symm⟩⟩
      · cases h with
        | last h => exact absurd h (hR _ _)
        | more h _ => exact absurd h (hR _ _)
    | cons x r =>
      have hn : nextElement false (y :: x :: r) = .ok (some (x :: r)) := by simp [nextElement]
      rw [hn]
      simp only [Res.bind_ok]
      have hP' : P (x :: r) := hsuf _ _ (List.suffix_cons y (x :: r)) hP
      have g := hf (x :: r) (by simp) hP'
      refine ⟨?_, ?_, by simp, ?_⟩
      · intro c h
        rcases Res.bind_eq_crash.1 h with h | ⟨⟨v, rest⟩, h1, h2⟩
        · exact g.noCrash c h
        · obtain ⟨hne, _⟩ := g.sound v rest h1
          obtain ⟨z, rest', rfl⟩ := List.exists_cons_of_ne_nil hne
          have hsu := (hs (x :: r)).2 _ _ h1
          have := hsu.length_le
          refine (ih z rest' (acc ++ [v]) ?_ (hsuf _ _ hsu hP')).1 c h2
          simp at this hl; omega
      · intro v out h
        obtain ⟨⟨v1, rest⟩, h1, h2⟩ := Res.bind_eq_ok.1 h
        obtain ⟨hne, hr⟩ := g.sound v1 rest h1
        obtain ⟨z, rest', rfl⟩ := List.exists_cons_of_ne_nil hne
        have hsu := (hs (x :: r)).2 _ _ h1
        have := hsu.length_le
        obtain ⟨hz, h3⟩ := (ih z rest' (acc ++ [v1]) (by simp at this hl; omega) (hsuf _ _ hsu hP')).2.1 v out h2
        refine ⟨hz, .inr ?_⟩
        rcases h3 with ⟨rfl, rfl⟩ | ⟨vs, rfl, h4⟩
        · exact ⟨[v1], rfl, .last hr⟩
        · exact ⟨v1 :: vs, by simp, .more hr h4⟩
      · intro vs h
        cases h with
        | @last _ v h =>
          obtain ⟨z, h1⟩ := g.complete _ _ h
          rw [h1]; simp only [Res.bind_ok]
          have hsu := (hs (x :: r)).2 _ _ h1
          have := hsu.length_le
          exact (ih z [] (acc ++ [v]) (by simp at this hl ⊢; omega) (hsuf _ _ hsu hP')).2.2.1 rfl
        | @more _ v rest vs h h' =>
          obtain ⟨z, h1⟩ := g.complete _ _ h
          rw [h1]; simp only [Res.bind_ok]
          have hsu := (hs (x :: r)).2 _ _ h1
          have := hsu.length_le
          obtain ⟨z', h2⟩ := (ih z rest (acc ++ [v]) (by simp at this hl; omega) (hsuf _ _ hsu hP')).2.2.2 vs h'
          exact ⟨z', by simpa using h2⟩

theorem seqLoop_good_first {f : List Str → Res (Val × List Str)} {R : List Str → Val → List Str → Prop}
    {P : List Str → Prop} (hsuf : ∀ xs ys, xs <:+ ys → P ys → P xs) (hs : Shrinks f)
    (hR : ∀ v r, ¬ R [] v r)
    (hf : ∀ xs, xs ≠ [] → P xs → Good f R xs) (xs : List Str) (hne : xs ≠ []) (hP : P xs) :
    Good (fun input => seqLoop f (input.length + 2) true input [])
      (fun xs v r => r = [] ∧ ∃ vs, v = .list vs ∧ ReadsAll R xs vs) xs := by
  have hn : nextElement true xs = .ok (some xs) := by simp [nextElement]
  have g := hf xs hne hP
  have hd : seqLoop f (xs.length + 2) true xs [] =
      (f xs).bind fun (v, rest) => seqLoop f (xs.length + 1) false rest [v] := by
    rw [seqLoop, hn]; rfl
  have step : ∀ z rest' v1, f xs = .ok (v1, z :: rest') → rest'.length + 1 < xs.length + 1 ∧ P (z :: rest') := by
    intro z rest' v1 h1
    have hsu := (hs xs).2 _ _ h1
    have := hsu.length_le
    exact ⟨by simp at this; omega, hsuf _ _ hsu hP⟩
  constructor
  · intro c h
    rw [hd] at h
    rcases Res.bind_eq_crash.1 h with h | ⟨⟨v, rest⟩, h1, h2⟩
    · exact g.noCrash c h
    · obtain ⟨hne, _⟩ := g.sound v rest h1
      obtain ⟨z, rest', rfl⟩ := List.exists_cons_of_ne_nil hne
      obtain ⟨s1, s2⟩ := step _ _ _ h1
      exact (seqLoop_good hsuf hs hR hf _ z rest' _ s1 s2).1 c h2
  · intro v out h
    rw [hd] at h
    obtain ⟨⟨v1, rest⟩, h1, h2⟩ := Res.bind_eq_ok.1 h
    obtain ⟨hne, hr⟩ := g.sound v1 rest h1
    obtain ⟨z, rest', rfl⟩ := List.exists_cons_of_ne_nil hne
    obtain ⟨s1, s2⟩ := step _ _ _ h1
    obtain ⟨⟨z', rfl⟩, h3⟩ := (seqLoop_good hsuf hs hR hf _ z rest' _ s1 s2).2.1 v out h2
    refine ⟨by simp, rfl, ?_⟩
    rcases h3 with ⟨rfl, rfl⟩ | ⟨vs, rfl, h4⟩
    · exact ⟨[v1], rfl, .last hr⟩
    · exact ⟨v1 :: vs, by simp, .more hr h4⟩
  · rintro v r ⟨rfl, vs, rfl, h⟩
    rw [hd]
    cases h with
    | @last _ v h =>
      obtain ⟨z, h1⟩ := g.complete _ _ h
      rw [h1]; simp only [Res.bind_ok]
      obtain ⟨s1, s2⟩ := step _ _ _ h1
      exact (seqLoop_good hsuf hs hR hf _ z [] _ s1 s2).2.2.1 rfl
    | @more _ v rest vs h h' =>
      obtain ⟨z, h1⟩ := g.complete _ _ h
      rw [h1]; simp only [Res.bind_ok]
      obtain ⟨s1, s2⟩ := step _ _ _ h1
      obtain ⟨z', h2⟩ := (seqLoop_good hsuf hs hR hf _ z rest _ s1 s2).2.2.2 vs h'
      exact ⟨z', h2⟩

mutual
theorem not_reads_nil : ∀ t v r, ¬ Reads t [] v r
  | .scalar k, v, r => by simp [Reads]
  | .unit, v, r => by simp [Reads]
  | .option t, v, r => by
    rw [Reads]
    rintro (⟨h, _⟩ | ⟨_, v', _, h⟩)
    · simp at h
    · exact not_reads_nil t v' r h
  | .newtype t, v, r => by rw [Reads]; exact not_reads_nil t v r
  | .seq t, v, r => by
    rw [Reads]
    rintro ⟨_, vs, _, h⟩
    cases h with
    | last h => exact not_reads_nil t _ _ h
    | more h _ => exact not_reads_nil t _ _ h
  | .tuple e ts, v, r => by
    rw [Reads]
    rintro ⟨vs, _, ⟨_, _, x, h⟩ | ⟨hne, h⟩⟩
    · simp at h
    · exact not_readsEach_nil ts hne vs r h
  | .fails e, v, r => by simp [Reads]
theorem not_readsEach_nil : ∀ ts, ts ≠ [] → ∀ vs r, ¬ ReadsEach ts [] vs r
  | [], h, _, _ => absurd rfl h
  | t :: ts, _, vs, r => by
    rw [ReadsEach]
    rintro ⟨v, vs', r', _, h, _⟩
    exact not_reads_nil t v r' h
end

/-- Empty values only for steady types. -/
def Ready (steady : Bool) (xs : List Str) : Prop := steady = true ∨ ∀ x ∈ xs, x ≠ []

theorem Ready.suffix {b : Bool} {xs ys : List Str} (h : xs <:+ ys) : Ready b ys → Ready b xs
  | .inl h' => .inl h'
  | .inr h' => .inr (fun x hx => h' x (h.subset hx))

theorem startsEmpty_eq {xs : List Str} : startsEmpty xs = true ↔ ∃ r, xs = [] :: r := by
  match xs with
  | [] => simp [startsEmpty]
  | [] :: r => simp [startsEmpty]
  | (c :: x) :: r => simp [startsEmpty]

theorem startsEmpty_of_ready {x : Str} {xs : List Str} (h : Ready false (x :: xs)) :
    startsEmpty (x :: xs) = false := by
  rcases h with h | h
  · simp at h
  · cases x with
    | nil => exact absurd rfl (h [] (by simp))
    | cons c x => rfl

mutual
theorem decode_good : ∀ t xs, xs ≠ [] → Ready (Steady t) xs → Good (decode t) (Reads t) xs
  | .scalar k, xs, hne, hP => by
    obtain ⟨x, xs, rfl⟩ := List.exists_cons_of_ne_nil hne
    have hd : decode (.scalar k) (x :: xs) = match k.parse x with
      | .ok v => .ok (v, x :: xs) | .error e => .err e := by
      simp only [decode, decodeScalar]; cases k.parse x <;> rfl
    constructor
    · intro c; rw [hd]; cases k.parse x <;> simp
    · intro v r h; rw [hd] at h
      cases hk : k.parse x with
      | error e => rw [hk] at h; simp at h
      | ok v' =>
        rw [hk] at h; simp at h
        rw [← h.2, ← h.1]
        exact ⟨by simp, by rw [Reads]; exact ⟨x, rfl, parse_ok.1 hk⟩⟩
    · intro v r h
      rw [Reads] at h
      obtain ⟨x', h1, h2⟩ := h
      injection h1 with h1 h3
      subst h1; subst h3
      exact ⟨x, by rw [hd, parse_ok.2 h2]⟩
  | .unit, xs, hne, hP => by
    obtain ⟨x, xs, rfl⟩ := List.exists_cons_of_ne_nil hne
    have hd : decode .unit (x :: xs) = .ok (.unit, x :: xs) := by
      rw [decode, startsEmpty_of_ready hP]; rfl
    constructor
    · intro c; rw [hd]; simp
    · intro v r h; rw [hd] at h; simp at h
      rw [← h.2, ← h.1]
      exact ⟨by simp, by rw [Reads]; exact ⟨x, rfl, rfl⟩⟩
    · intro v r h
      rw [Reads] at h
      obtain ⟨x', h1, rfl⟩ := h
      injection h1 with h1 h3
      subst h1; subst h3
      exact ⟨x, hd⟩
  | .option t, xs, hne, hP => by
    have hP' : Ready (Steady t) xs := by
      rcases hP with h | h
      · simp [Steady] at h
      · exact .inr h
    have g := decode_good t xs hne hP'
    obtain ⟨x, xs, rfl⟩ := List.exists_cons_of_ne_nil hne
    have hse := startsEmpty_of_ready hP
    have hd : decode (.option t) (x :: xs) = (decode t (x :: xs)).bind fun (v, rest) => .ok (.some v, rest) := by
      rw [decode, hse]; rfl
    have hx : x ≠ [] := by rintro rfl; simp [startsEmpty] at hse
    constructor
    · intro c h; rw [hd] at h
      rcases Res.bind_eq_crash.1 h with h | ⟨_, _, h⟩
      · exact g.noCrash c h
      · simp at h
    · intro v r h; rw [hd] at h
      obtain ⟨⟨v', r'⟩, h1, h2⟩ := Res.bind_eq_ok.1 h
      injection h2 with h2; injection h2 with h2 h3
      subst h2; subst h3
      obtain ⟨g1, g2⟩ := g.sound _ _ h1
      refine ⟨g1, ?_⟩
      rw [Reads]
      exact .inr ⟨by simpa using hx, v', rfl, g2⟩
    · intro v r h
      rw [Reads] at h
      rcases h with ⟨h, _⟩ | ⟨_, v', rfl, h⟩
      · injection h with h; exact absurd h hx
      · obtain ⟨y, h1⟩ := g.complete _ _ h
        exact ⟨y, by rw [hd, h1]; rfl⟩
  | .newtype t, xs, hne, hP => by
    have g := decode_good t xs hne hP
    exact ⟨by rw [decode]; exact g.noCrash, by rw [decode]; intro v r h; rw [Reads]; exact g.sound v r h,
      by rw [decode]; intro v r h; rw [Reads] at h; exact g.complete v r h⟩
  | .seq t, xs, hne, hP => by
    have g := seqLoop_good_first (f := decode t) (R := Reads t) (P := Ready (Steady t))
      (fun _ _ h => Ready.suffix h) (decode_shrinks t) (not_reads_nil t) (decode_good t) xs hne hP
    exact ⟨by rw [decode]; exact g.noCrash, by rw [decode]; intro v r h; rw [Reads]; exact g.sound v r h,
      by rw [decode]; intro v r h; rw [Reads] at h; exact g.complete v r h⟩
  | .tuple e [], xs, hne, hP => by
    obtain ⟨x, xs, rfl⟩ := List.exists_cons_of_ne_nil hne
    have hd : decode (.tuple e []) (x :: xs) = .ok (.list [], x :: xs) := by rw [decode, decodeTuple]
    constructor
    · intro c; rw [hd]; simp
    · intro v r h; rw [hd] at h; simp at h
      rw [← h.2, ← h.1]
      exact ⟨by simp, by rw [Reads]; exact ⟨[], rfl, .inl ⟨rfl, rfl, x, rfl⟩⟩⟩
    · intro v r h
      rw [Reads] at h
      obtain ⟨vs, rfl, ⟨_, rfl, x', h1⟩ | ⟨h1, _⟩⟩ := h
      · injection h1 with h1 h3
        subst h1; subst h3
        exact ⟨x, hd⟩
      · exact absurd rfl h1
  | .tuple e (t :: ts), xs, hne, hP => by
    rw [Steady, SteadyAll] at hP
    have hPt : Ready (Steady t) xs := by
      rcases hP with h | h
      · simp at h; exact .inl h.1
      · exact .inr h
    have hPts : Ready (SteadyAll ts) xs := by
      rcases hP with h | h
      · simp at h; exact .inl h.2
      · exact .inr h
    have g := decode_good t xs hne hPt
    have hn : nextElement true xs = .ok (some xs) := by simp [nextElement]
    have hd : decode (.tuple e (t :: ts)) xs = (decode t xs).bind fun (v, rest) =>
        decodeTuple e ts 1 false rest [v] := by
      simp only [decode, decodeTuple, hn, Res.bind_ok]; rfl
    constructor
    · intro c h; rw [hd] at h
      rcases Res.bind_eq_crash.1 h with h | ⟨⟨v, rest⟩, h1, h2⟩
      · exact g.noCrash c h
      · obtain ⟨hr, _⟩ := g.sound v rest h1
        obtain ⟨z, r', rfl⟩ := List.exists_cons_of_ne_nil hr
        exact (decodeTuple_good e ts 1 z r' [v] (hPts.suffix ((decode_shrinks t xs).2 _ _ h1))).1 c h2
    · intro v r h; rw [hd] at h
      obtain ⟨⟨v', r'⟩, h1, h2⟩ := Res.bind_eq_ok.1 h
      obtain ⟨hr, hR⟩ := g.sound v' r' h1
      obtain ⟨z, r', rfl⟩ := List.exists_cons_of_ne_nil hr
      obtain ⟨h3, vs, rfl, h4⟩ := (decodeTuple_good e ts 1 z r' [v'] (hPts.suffix ((decode_shrinks t xs).2 _ _ h1))).2.1 v r h2
      refine ⟨h3, ?_⟩
      rw [Reads]
      exact ⟨v' :: vs, rfl, .inr ⟨by simp, by rw [ReadsEach]; exact ⟨v', vs, r', rfl, hR, h4⟩⟩⟩
    · intro v r h
      rw [Reads] at h
      obtain ⟨vs, rfl, ⟨h1, _⟩ | ⟨_, h1⟩⟩ := h
      · simp at h1
      · rw [ReadsEach] at h1
        obtain ⟨v', vs', r', rfl, h2, h3⟩ := h1
        obtain ⟨z, h4⟩ := g.complete _ _ h2
        rw [hd, h4]
        obtain ⟨y, h5⟩ := (decodeTuple_good e ts 1 z r' [v'] (hPts.suffix ((decode_shrinks t xs).2 _ _ h4))).2.2 vs' r h3
        exact ⟨y, h5⟩
  | .fails e, xs, hne, hP => by
    constructor
    · intro c; rw [decode]; simp
    · intro v r h; rw [decode] at h; simp at h
    · intro v r h; rw [Reads] at h; exact h.elim
theorem decodeTuple_good (e : Str) : ∀ ts i z r acc, Ready (SteadyAll ts) (z :: r) →
    (∀ c, decodeTuple e ts i false (z :: r) acc ≠ .crash c) ∧
    (∀ v out, decodeTuple e ts i false (z :: r) acc = .ok (v, out) →
      out ≠ [] ∧ ∃ vs, v = .list (acc ++ vs) ∧ ReadsEach ts r vs out.tail) ∧
    (∀ vs out, ReadsEach ts r vs out → ∃ y, decodeTuple e ts i false (z :: r) acc = .ok (.list (acc ++ vs), y :: out))
  | [], i, z, r, acc, _ => by
    rw [decodeTuple]
    refine ⟨by simp, fun v out h => ?_, fun vs out h => ?_⟩
    · injection h with h; injection h with h1 h2
      rw [← h1, ← h2]
      exact ⟨by simp, [], by simp, by rw [ReadsEach]; exact ⟨rfl, rfl⟩⟩
    · rw [ReadsEach] at h
      obtain ⟨rfl, rfl⟩ := h
      exact ⟨z, by simp⟩
  | t :: ts, i, z, [], acc, _ => by
    have hn : nextElement false [z] = .ok none := by simp [nextElement]
    rw [decodeTuple, hn]
    refine ⟨by simp, by simp, fun vs out h => ?_⟩
    exact absurd h (not_readsEach_nil _ (by simp) _ _)
  | t :: ts, i, z, x :: r, acc, hP => by
    have hn : nextElement false (z :: x :: r) = .ok (some (x :: r)) := by simp [nextElement]
    rw [SteadyAll] at hP
    have hP0 := Ready.suffix (List.suffix_cons z (x :: r)) hP
    have hPt : Ready (Steady t) (x :: r) := by
      rcases hP0 with h | h
      · simp at h; exact .inl h.1
      · exact .inr h
    have hPts : Ready (SteadyAll ts) (x :: r) := by
      rcases hP0 with h | h
      · simp at h; exact .inl h.2
      · exact .inr h
    have g := decode_good t (x :: r) (by simp) hPt
    rw [decodeTuple, hn]
    simp only [Res.bind_ok]
    refine ⟨fun c h => ?_, fun v out h => ?_, fun vs out h => ?_⟩
    · rcases Res.bind_eq_crash.1 h with h | ⟨⟨v, rest⟩, h1, h2⟩
      · exact g.noCrash c h
      · obtain ⟨hr, _⟩ := g.sound v rest h1
        obtain ⟨z, r', rfl⟩ := List.exists_cons_of_ne_nil hr
        exact (decodeTuple_good e ts (i + 1) z r' (acc ++ [v]) (hPts.suffix ((decode_shrinks t _).2 _ _ h1))).1 c h2
    · obtain ⟨⟨v', r'⟩, h1, h2⟩ := Res.bind_eq_ok.1 h
      obtain ⟨hr, hR⟩ := g.sound v' r' h1
      obtain ⟨z, r', rfl⟩ := List.exists_cons_of_ne_nil hr
      obtain ⟨h3, vs, rfl, h4⟩ := (decodeTuple_good e ts (i + 1) z r' (acc ++ [v']) (hPts.suffix ((decode_shrinks t _).2 _ _ h1))).2.1 v out h2
      refine ⟨h3, v' :: vs, by simp, ?_⟩
      rw [ReadsEach]; exact ⟨v', vs, r', rfl, hR, h4⟩
    · rw [ReadsEach] at h
      obtain ⟨v', vs', r', rfl, h2, h3⟩ := h
      obtain ⟨z, h4⟩ := g.complete _ _ h2
      rw [h4]
      obtain ⟨y, h5⟩ := (decodeTuple_good e ts (i + 1) z r' (acc ++ [v']) (hPts.suffix ((decode_shrinks t _).2 _ _ h4))).2.2 vs' out h3
      exact ⟨y, by simpa using h5⟩
end

/-- The value decoder on the whole value list of a key. -/
theorem decode_spec : ∀ t vals, Fits t vals → (∀ c, decode t vals ≠ .crash c) ∧
    ∀ v, (∃ r, decode t vals = .ok (v, r)) ↔ ∃ r, Reads t vals v r
  | .option t, vals, ⟨hne, h⟩ => by
    by_cases hs : startsEmpty vals = true
    · obtain ⟨r, rfl⟩ := startsEmpty_eq.1 hs
      have hd : decode (.option t) ([] :: r) = .ok (.none, r) := by rw [decode, if_pos hs]; rfl
      refine ⟨by rw [hd]; simp, fun v => ⟨?_, ?_⟩⟩
      · rintro ⟨r', h'⟩
        rw [hd] at h'; injection h' with h'; injection h' with h1 h2
        exact ⟨r, by rw [Reads]; exact .inl ⟨rfl, h1.symm⟩⟩
      · rintro ⟨r', h'⟩
        rw [Reads] at h'
        rcases h' with ⟨_, rfl⟩ | ⟨h', _⟩
        · exact ⟨r, hd⟩
        · exact absurd rfl h'
    · have hF : Fits t vals := ⟨hne, by simpa [Safe] using h⟩
      obtain ⟨g1, g2⟩ := decode_spec t vals hF
      have hd : decode (.option t) vals = (decode t vals).bind fun (v, rest) => .ok (.some v, rest) := by
        rw [decode, if_neg hs]
      refine ⟨fun c h => ?_, fun v => ⟨?_, ?_⟩⟩
      · rw [hd] at h
        rcases Res.bind_eq_crash.1 h with h | ⟨_, _, h⟩
        · exact g1 c h
        · simp at h
      · rintro ⟨r, h⟩
        rw [hd] at h
        obtain ⟨⟨v', r'⟩, h1, h2⟩ := Res.bind_eq_ok.1 h
        injection h2 with h2; injection h2 with h2 h3
        obtain ⟨r2, h4⟩ := (g2 v').1 ⟨r', h1⟩
        refine ⟨r2, ?_⟩
        rw [Reads]
        refine .inr ⟨?_, v', h2.symm, h4⟩
        intro h'
        cases vals with
        | nil => simp at h'
        | cons x xs => simp at h'; subst h'; exact hs rfl
      · rintro ⟨r, h⟩
        rw [Reads] at h
        rcases h with ⟨rfl, _⟩ | ⟨_, v', rfl, h⟩
        · exact absurd rfl hs
        · obtain ⟨r', h'⟩ := (g2 v').2 ⟨r, h⟩
          exact ⟨r', by rw [hd, h']; rfl⟩
  | .unit, vals, ⟨hne, h⟩ => by
    obtain ⟨x, xs, rfl⟩ := List.exists_cons_of_ne_nil hne
    refine ⟨by rw [decode]; simp, fun v => ⟨?_, ?_⟩⟩
    · rintro ⟨r, h⟩; rw [decode] at h; injection h with h; injection h with h _
      exact ⟨xs, by rw [Reads]; exact ⟨x, rfl, h.symm⟩⟩
    · rintro ⟨r, h⟩; rw [Reads] at h
      obtain ⟨_, _, rfl⟩ := h
      exact ⟨_, by rw [decode]⟩
  | .newtype t, vals, ⟨hne, h⟩ => by
    rw [decode]
    simp only [Reads]
    exact decode_spec t vals ⟨hne, by simpa [Safe] using h⟩
  | .scalar k, vals, ⟨hne, h⟩ => spec_of_good (decode_good _ vals hne (.inl rfl))
  | .seq t, vals, ⟨hne, h⟩ => spec_of_good (decode_good _ vals hne (by simpa [Safe, Ready, Steady] using h))
  | .tuple e ts, vals, ⟨hne, h⟩ => spec_of_good (decode_good _ vals hne (by simpa [Safe, Ready, Steady] using h))
  | .fails e, vals, ⟨hne, h⟩ => spec_of_good (decode_good _ vals hne (.inl rfl))
where
  spec_of_good {f R xs} (g : Good f R xs) : (∀ c, f xs ≠ .crash c) ∧
      ∀ v, (∃ r, f xs = .ok (v, r)) ↔ ∃ r, R xs v r :=
    ⟨g.noCrash, fun v => ⟨fun ⟨_, h⟩ => ⟨_, (g.sound _ _ h).2⟩,
      fun ⟨_, h⟩ => let ⟨_, h'⟩ := g.complete _ _ h; ⟨_, h'⟩⟩⟩

end Obsidian
