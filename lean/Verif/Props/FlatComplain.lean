import Verif.Props.Flatten
import Verif.Spec.FlatComplain

/- C98: what the errors about structs with flattened parts say. -/
namespace Obsidian.Props
open Obsidian Spec

theorem glue {L A B R C D : Str} (h1 : L = A ++ B) (h2 : R = C ++ D) (x : Str) :
    A ++ (B ++ x ++ C) ++ D = L ++ x ++ R := by subst h1 h2; simp

theorem invalid_type (x y : Str) : invalidType (foundString x) y =
    .message ("invalid type: string \"".toList ++ x ++ "\", expected ".toList ++ y) :=
  congrArg (fun z => FormError.message (z ++ y))
    (glue (L := "invalid type: string \"".toList) (R := "\", expected ".toList) (by decide +kernel) (by decide +kernel) x)

theorem invalid_char (x : Str) :
    "invalid value: ".toList ++ foundString x ++ ", expected a character".toList =
    "invalid value: string \"".toList ++ x ++ "\", expected a character".toList :=
  glue (L := "invalid value: string \"".toList) (R := "\", expected a character".toList) (by decide +kernel) (by decide +kernel) x

theorem error_iff {a e : FormError} : (Except.error a : Except FormError Val) = .error e ↔ e = a :=
  ⟨fun h => by injection h with h; exact h.symm, fun h => by rw [h]⟩

theorem decodeContent_error (tx : Texts) : ∀ (t : Ty) (x : Str) (e : FormError),
    decodeContent tx t x = .error e ↔ RejectsText tx t x e
  | .scalar .string, x, e => ⟨(nomatch ·), False.elim⟩
  | .scalar .char, [], e => by
    rw [show decodeContent tx (.scalar .char) [] = .error (.message ("invalid value: ".toList ++ foundString [] ++ ", expected a character".toList)) from rfl,
      invalid_char, error_iff]
    exact ⟨fun h => ⟨by simp, h⟩, And.right⟩
  | .scalar .char, [c], e => ⟨(nomatch ·), fun h => absurd rfl h.1⟩
  | .scalar .char, c :: d :: x, e => by
    rw [show decodeContent tx (.scalar .char) (c :: d :: x) = .error (.message ("invalid value: ".toList ++ foundString (c :: d :: x) ++ ", expected a character".toList)) from rfl,
      invalid_char, error_iff]
    exact ⟨fun h => ⟨by simp, h⟩, And.right⟩
  | .scalar (.ofString f), x, e => Iff.rfl
  | .scalar .bool, x, e => by
    rw [show decodeContent tx (.scalar .bool) x = .error (invalidType (foundString x) (tx.expected _)) from rfl, invalid_type]
    exact error_iff
  | .scalar (.int a b), x, e => by
    rw [show decodeContent tx (.scalar (.int a b)) x = .error (invalidType (foundString x) (tx.expected _)) from rfl, invalid_type]
    exact error_iff
  | .scalar (.float p), x, e => by
    rw [show decodeContent tx (.scalar (.float p)) x = .error (invalidType (foundString x) (tx.expected _)) from rfl, invalid_type]
    exact error_iff
  | .unit, x, e => by
    rw [show decodeContent tx .unit x = .error (invalidType (foundString x) (tx.expected _)) from rfl, invalid_type]
    exact error_iff
  | .seq t, x, e => by
    rw [show decodeContent tx (.seq t) x = .error (invalidType (foundString x) (tx.expected _)) from rfl, invalid_type]
    exact error_iff
  | .tuple a b, x, e => by
    rw [show decodeContent tx (.tuple a b) x = .error (invalidType (foundString x) (tx.expected _)) from rfl, invalid_type]
    exact error_iff
  | .fails _, x, e => error_iff
  | .newtype t, x, e => decodeContent_error tx t x e
  | .option t, x, e => by
    have ih := decodeContent_error tx t x e
    rw [show RejectsText tx (.option t) x e ↔ RejectsText tx t x e from Iff.rfl, ← ih, decodeContent]
    cases decodeContent tx t x <;> simp

theorem decodeFlat_error (tx : Texts) (t : FlatTy) (x : Str) (e : FormError) :
    decodeFlat tx t x = .error e ↔ RejectsFlat tx t x e := by
  cases t with
  | of t => exact decodeContent_error tx t x e
  | enum vs =>
    rw [decodeFlat, RejectsFlat]
    cases h : vs.findIdx? (fun y => decide (y = x)) with
    | none =>
      have : x ∉ vs := by
        rw [List.findIdx?_eq_none_iff] at h
        intro hx
        have := h x hx
        simp at this
      simp [this, eq_comm]
    | some i =>
      have : x ∈ vs := by
        rw [List.findIdx?_eq_some_iff_getElem] at h
        obtain ⟨hi, h, _⟩ := h
        simp only [decide_eq_true_eq] at h
        rw [← h]; exact List.getElem_mem hi
      simp [this]

/-- A text is taken or refused. -/
theorem taken_or_refused (tx : Texts) (t : FlatTy) (x : Str) :
    (∃ v, TakenFlat t x v) ∨ ∃ e, RejectsFlat tx t x e := by
  cases h : decodeFlat tx t x with
  | ok v => exact .inl ⟨v, (decodeFlat_ok tx t x v).1 h⟩
  | error e => exact .inr ⟨e, (decodeFlat_error tx t x e).1 h⟩

theorem not_both (tx : Texts) {t : FlatTy} {x : Str} {v : Val} {e : FormError} (h : TakenFlat t x v)
    (h' : RejectsFlat tx t x e) : False := by
  rw [← decodeFlat_ok tx] at h
  rw [← decodeFlat_error, h] at h'
  cases h'

theorem putFlat_error (tx : Texts) {k x : Str} {e : FormError} : ∀ {fs : List FlatField} {seen : List (Option Val)},
    putFlat tx k x fs seen = some (.error e) →
    ∃ p ∈ fs.zip seen, p.1.name = k ∧ (p.2 ≠ none ∨ decodeFlat tx p.1.ty x = .error e)
  | [], _, h => by simp [putFlat] at h
  | _ :: _, [], h => by simp [putFlat] at h
  | f :: fs, s :: ss, h => by
    rw [putFlat_cons] at h
    by_cases hk : f.name = k
    · rw [if_pos hk] at h
      refine ⟨(f, s), by simp, hk, ?_⟩
      cases s with
      | some v => exact .inl nofun
      | none =>
        right
        dsimp only at h ⊢
        cases hd : decodeFlat tx f.ty x with
        | ok v => rw [hd] at h; simp at h
        | error e' => rw [hd] at h; simpa using h
    · rw [if_neg hk] at h
      cases hp : putFlat tx k x fs ss with
      | none => rw [hp] at h; simp at h
      | some r =>
        rw [hp] at h
        cases r with
        | ok ss' => simp at h
        | error e' =>
          simp only [Option.some.injEq, Except.error.injEq] at h
          subst h
          obtain ⟨p, hp, h1⟩ := putFlat_error tx hp
          exact ⟨p, by simp [hp], h1⟩

theorem putFlat_others (tx : Texts) {k x : Str} : ∀ {fs : List FlatField} {seen seen' : List (Option Val)},
    putFlat tx k x fs seen = some (.ok seen') → ∀ p ∈ fs.zip seen', p.1.name ≠ k → p ∈ fs.zip seen
  | [], _, _, h => by simp [putFlat] at h
  | _ :: _, [], _, h => by simp [putFlat] at h
  | f :: fs, s :: ss, seen', h => by
    rw [putFlat_cons] at h
    intro p hp hne
    by_cases hk : f.name = k
    · rw [if_pos hk] at h
      cases s with
      | some v => simp at h
      | none =>
        dsimp only at h
        cases hd : decodeFlat tx f.ty x with
        | error e' => rw [hd] at h; simp at h
        | ok v =>
          rw [hd] at h
          simp only [Option.some.injEq, Except.ok.injEq] at h
          subst h
          rw [List.zip_cons_cons, List.mem_cons] at hp ⊢
          rcases hp with rfl | hp
          · exact absurd hk hne
          · exact .inr hp
    · rw [if_neg hk] at h
      cases hp' : putFlat tx k x fs ss with
      | none => rw [hp'] at h; simp at h
      | some r =>
        rw [hp'] at h
        cases r with
        | error e' => simp at h
        | ok ss' =>
          simp only [Option.some.injEq, Except.ok.injEq] at h
          subst h
          rw [List.zip_cons_cons, List.mem_cons] at hp ⊢
          rcases hp with rfl | hp
          · exact .inl rfl
          · exact .inr (putFlat_others tx hp' p hp hne)

theorem partLoop_error (tx : Texts) {fs : List FlatField} {e : FormError} :
    ∀ {kept : List (Str × Str)} {seen : List (Option Val)}, (kept.map (·.1)).Nodup →
    (∀ p ∈ fs.zip seen, p.1.name ∈ kept.map (·.1) → p.2 = none) →
    (partLoop tx fs kept seen).1 = .error e →
    ∃ f ∈ fs, ∃ x, (f.name, x) ∈ kept ∧ decodeFlat tx f.ty x = .error e := by
  intro kept
  induction kept with
  | nil => intro seen _ _ h; simp [partLoop] at h
  | cons a kept ih =>
    intro seen hk hfresh h
    obtain ⟨k, x⟩ := a
    obtain ⟨hk1, hk2⟩ := List.nodup_cons.1 hk
    have hfresh' : ∀ p ∈ fs.zip seen, p.1.name ∈ kept.map (·.1) → p.2 = none :=
      fun p hp h => hfresh p hp (by rw [List.map_cons]; exact List.mem_cons_of_mem _ h)
    rw [partLoop] at h
    cases hp : putFlat tx k x fs seen with
    | none =>
      rw [hp] at h
      obtain ⟨f, hf, y, hy, h1⟩ := ih hk2 hfresh' h
      exact ⟨f, hf, y, List.mem_cons_of_mem _ hy, h1⟩
    | some r =>
      rw [hp] at h
      cases r with
      | error e' =>
        dsimp only at h
        injection h with h; subst h
        obtain ⟨p, hp1, hp2, hp3⟩ := putFlat_error tx hp
        have hn := hfresh p hp1 (by simp [hp2])
        rcases hp3 with hp3 | hp3
        · exact absurd hn hp3
        · exact ⟨p.1, (List.of_mem_zip hp1).1, x, by rw [hp2]; exact List.mem_cons_self, hp3⟩
      | ok seen' =>
        dsimp only at h
        obtain ⟨f, hf, y, hy, h1⟩ := ih hk2 (fun p hp1 hp2 =>
          hfresh' p (putFlat_others tx hp p hp1 (fun hpk => hk1 (hpk ▸ hp2))) hp2) h
        exact ⟨f, hf, y, List.mem_cons_of_mem _ hy, h1⟩

theorem missingFlat_error {f : FlatField} {e : FormError} (h : missingFlat f = .error e) :
    f.default = none ∧ (∀ t, f.ty ≠ .of (.option t)) ∧ e = .message ("missing field `".toList ++ f.name ++ ['`']) := by
  rw [missingFlat] at h
  cases hdf : f.default with
  | some d => rw [hdf] at h; cases h
  | none =>
    rw [hdf] at h
    dsimp only at h
    have hno : ∀ t, f.ty ≠ .of (.option t) := by
      intro t ht; rw [ht] at h; cases h
    refine ⟨rfl, hno, ?_⟩
    split at h
    · rename_i t ht; exact absurd ht (hno t)
    · injection h with h; exact h.symm

theorem finishFlat_error {avail : Str → Option Str} {e : FormError} {fs : List FlatField}
    {ns seen : List (Option Val)}
    (h3 : All3 (fun f s s' => s = none ∧ ((avail f.name = none ∧ s' = none) ∨ (avail f.name ≠ none ∧ s' ≠ none))) fs ns seen) :
    finishFlat fs seen = .error e →
    ∃ pre f post, fs = pre ++ f :: post ∧ (∀ g ∈ pre, ¬ LacksFlat avail g) ∧ LacksFlat avail f ∧
      e = .message ("missing field `".toList ++ f.name ++ ['`']) := by
  induction h3 with
  | nil => intro h; cases h
  | @cons f s0 s fs _ ss h1 h2 ih =>
    intro h
    have rest : ¬ LacksFlat avail f → finishFlat fs ss = .error e → ∃ pre g post, f :: fs = pre ++ g :: post ∧
        (∀ g ∈ pre, ¬ LacksFlat avail g) ∧ LacksFlat avail g ∧ e = .message ("missing field `".toList ++ g.name ++ ['`']) := by
      intro hf hr
      obtain ⟨pre, g, post, rfl, h3, h4⟩ := ih hr
      refine ⟨f :: pre, g, post, rfl, ?_, h4⟩
      intro g hg
      rcases List.mem_cons.1 hg with rfl | hg
      · exact hf
      · exact h3 g hg
    have step : ∀ {v : Val}, (match finishFlat fs ss with | .ok vs => .ok (v :: vs) | .error e => .error e :
        Except FormError (List Val)) = .error e → finishFlat fs ss = .error e := by
      intro v h
      cases hr : finishFlat fs ss with
      | ok vs => rw [hr] at h; cases h
      | error e' => rw [hr] at h; injection h with h; rw [h]
    rw [finishFlat_cons] at h
    cases s with
    | some v =>
      dsimp only at h
      refine rest ?_ (step h)
      rintro ⟨_, _, ha⟩
      rcases h1.2 with h1 | h1
      · cases h1.2
      · exact h1.1 ha
    | none =>
      dsimp only at h
      cases hm : missingFlat f with
      | error e' =>
        rw [hm] at h
        dsimp only at h
        injection h with h; subst h
        obtain ⟨m1, m2, m3⟩ := missingFlat_error hm
        refine ⟨[], f, fs, rfl, nofun, ⟨m1, m2, ?_⟩, m3⟩
        rcases h1.2 with h1 | h1
        · exact h1.1
        · exact absurd rfl h1.2
      | ok v =>
        rw [hm] at h
        refine rest ?_ (step h)
        rintro ⟨hdf, ho, _⟩
        rw [missingFlat, hdf] at hm
        dsimp only at hm
        split at hm
        · rename_i t ht; exact ho t ht
        · cases hm

theorem structPart_error (tx : Texts) {fs : List FlatField} (hd : (fs.map (·.name)).Nodup)
    {kept : List (Str × Str)} (hk : (kept.map (·.1)).Nodup) {e : FormError}
    (h : (structPart tx fs kept).1 = .error e) : StructComplaint tx (fun k => kept.lookup k) fs e := by
  have hl : (fs.map (fun _ => (none : Option Val))).length = fs.length := by simp
  rw [structPart] at h
  cases hp : partLoop tx fs kept (fs.map (fun _ => none)) with
  | mk r left =>
    rw [hp] at h
    cases r with
    | error e' =>
      dsimp only at h
      injection h with h; subst h
      obtain ⟨f, hf, x, hx, h1⟩ := partLoop_error tx hk (seen := fs.map (fun _ => none)) (by
        intro p hp _
        have := (List.of_mem_zip hp).2
        simp only [List.mem_map] at this
        obtain ⟨_, _, h⟩ := this
        exact h.symm) (by rw [hp])
      exact .inl ⟨f, hf, x, (lookup_some_iff hk).2 hx, (decodeFlat_error tx _ _ _).1 h1⟩
    | ok seen =>
      dsimp only at h
      have h3 := (partLoop_ok tx hd hk hl (seen' := seen)).1 (by rw [hp])
      refine .inr ⟨?_, ?_⟩
      · intro f hf x hx
        clear h hp hl hd
        generalize fs.map (fun _ => (none : Option Val)) = ns at h3
        induction h3 with
        | nil => cases hf
        | cons h1 _ ih =>
          rcases List.mem_cons.1 hf with rfl | hf
          · dsimp only at hx
            rw [FlatSteps, hx] at h1
            obtain ⟨_, v, hv, _⟩ := h1
            exact ⟨v, (decodeFlat_ok tx _ _ _).1 hv⟩
          · exact ih hf
      · have h0 : All3 (fun (_ : FlatField) (s s' : Option Val) => s = none ∧ s' = s) fs
            (fs.map (fun _ => (none : Option Val))) (fs.map (fun _ => none)) := by
          clear h hp h3 hl hd
          induction fs with
          | nil => exact .nil
          | cons f fs ih => exact .cons ⟨rfl, rfl⟩ ih
        refine finishFlat_error ((All3.comp.1 ⟨_, h0, h3⟩).imp ?_) h
        rintro f _ s s' ⟨_, ⟨rfl, rfl⟩, h5⟩
        rw [FlatSteps] at h5
        cases hlk : kept.lookup f.name with
        | some x =>
          rw [hlk] at h5
          obtain ⟨_, v, _, rfl⟩ := h5
          exact ⟨rfl, .inr ⟨nofun, nofun⟩⟩
        | none => rw [hlk] at h5; exact ⟨rfl, .inl ⟨rfl, h5⟩⟩

theorem mapPart_error (tx : Texts) {t : FlatTy} {e : FormError} : ∀ {kept : List (Str × Str)} {m : HMap Str Val},
    mapPart tx t kept m = .error e → ∃ k x, (k, x) ∈ kept ∧ decodeFlat tx t x = .error e
  | [], m, h => by simp [mapPart] at h
  | (k, x) :: kept, m, h => by
    rw [mapPart] at h
    cases hv : decodeFlat tx t x with
    | error e' => rw [hv] at h; injection h with h; subst h; exact ⟨k, x, List.mem_cons_self, hv⟩
    | ok v =>
      rw [hv] at h
      obtain ⟨k', x', h1, h2⟩ := mapPart_error tx h
      exact ⟨k', x', List.mem_cons_of_mem _ h1, h2⟩

theorem structComplaint_congr (tx : Texts) {a b : Str → Option Str} {fs : List FlatField} {e : FormError}
    (h : ∀ f ∈ fs, a f.name = b f.name) (hc : StructComplaint tx a fs e) : StructComplaint tx b fs e := by
  rcases hc with ⟨f, hf, x, hx, h1⟩ | ⟨h0, pre, f, post, rfl, h1, ⟨h2, h3, h4⟩, h5⟩
  · exact .inl ⟨f, hf, x, by rw [← h f hf]; exact hx, h1⟩
  · refine .inr ⟨fun f hf x hx => h0 f hf x (by rw [h f hf]; exact hx), pre, f, post, rfl, ?_, ⟨h2, h3, by rw [← h f (by simp)]; exact h4⟩, h5⟩
    rintro g hg ⟨g1, g2, g3⟩
    exact h1 g hg ⟨g1, g2, by rw [h g (by simp [hg])]; exact g3⟩

theorem partComplaint_congr (tx : Texts) {fs : List FlatField} {e : FormError} : ∀ {ps : List Part} {a b : Str → Option Str},
    (∀ p ∈ ps, Apart fs p) → (∀ k, (∀ f ∈ fs, f.name ≠ k) → a k = b k) → PartComplaint tx ps a e → PartComplaint tx ps b e
  | [], _, _, _, _, h => h
  | .struct gs :: ps, a, b, hp, h, hc => by
    have hg : ∀ g ∈ gs, a g.name = b g.name := fun g hg => h _ fun f hf e => hp (.struct gs) (by simp) g hg f hf e.symm
    rcases hc with hc | ⟨⟨vs, hv⟩, hc⟩
    · exact .inl (structComplaint_congr tx hg hc)
    · exact .inr ⟨⟨vs, (each_flat_congr hg).1 hv⟩, partComplaint_congr tx (fun p h => hp p (by simp [h])) (without_agree h) hc⟩
  | .option gs :: ps, a, b, hp, h, hc =>
    partComplaint_congr tx (ps := ps) (fun p h => hp p (by simp [h])) (without_agree h) hc
  | .map t :: ps, _, _, hp, _, _ => absurd (hp (.map t) (by simp)) id

theorem decodeParts_error (tx : Texts) {e : FormError} : ∀ {ps : List Part} {kept : List (Str × Str)},
    PartsDistinct ps → OptionApart ps → (kept.map (·.1)).Nodup → decodeParts tx ps kept = .error e →
    PartComplaint tx ps (fun k => kept.lookup k) e
  | [], kept, _, _, _, h => by simp [decodeParts] at h
  | .struct fs :: ps, kept, hd, ho, hk, h => by
    have hdf : (fs.map (·.name)).Nodup := hd (.struct fs) (by simp)
    have hv := @structPart_ok tx fs hdf kept hk
    have hleft := @structPart_left tx fs hdf kept hk
    have herr := fun e => @structPart_error tx fs hdf kept hk e
    simp only [decodeParts, decodePart] at h
    cases hs : structPart tx fs kept with
    | mk x left =>
      rw [hs] at h hv hleft herr
      cases x with
      | error e' => injection h with h; subst h; exact .inl (herr _ rfl)
      | ok vs =>
        dsimp only at h hv hleft
        obtain ⟨l1, l2⟩ := hleft rfl
        cases hp : decodeParts tx ps left with
        | ok r => rw [hp] at h; cases h
        | error e' =>
          rw [hp] at h; injection h with h; subst h
          have := decodeParts_error tx (ps := ps) (fun p hp => hd p (by simp [hp])) ho l1 hp
          rw [l2] at this
          exact .inr ⟨⟨vs, hv.1 rfl⟩, this⟩
  | .option fs :: ps, kept, hd, ho, hk, h => by
    obtain ⟨l1, l2⟩ := structPart_other tx (fields := fs) hk
    simp only [decodeParts, decodePart] at h
    cases hs : structPart tx fs kept with
    | mk x left =>
      rw [hs] at h l1 l2
      have hp : decodeParts tx ps left = .error e := by
        cases hp : decodeParts tx ps left with
        | ok r => cases x <;> (dsimp only at h; rw [hp] at h; cases h)
        | error e' => cases x <;> (dsimp only at h; rw [hp] at h; injection h with h; rw [h])
      show PartComplaint tx ps (without fs (fun k => kept.lookup k)) e
      exact partComplaint_congr tx ho.1 l2 (decodeParts_error tx (ps := ps) (fun p hp => hd p (by simp [hp])) ho.2 l1 hp)
  | .map t :: ps, kept, hd, ho, hk, h => by
    simp only [decodeParts, decodePart] at h
    cases hm : mapPart tx t kept HMap.empty with
    | error e' =>
      rw [hm] at h; injection h with h; subst h
      obtain ⟨k, x, h1, h2⟩ := mapPart_error tx hm
      exact .inl ⟨k, x, (lookup_some_iff hk).2 h1, (decodeFlat_error tx _ _ _).1 h2⟩
    | ok m =>
      rw [hm] at h
      dsimp only at h
      cases hp : decodeParts tx ps kept with
      | ok r => rw [hp] at h; cases h
      | error e' =>
        rw [hp] at h; injection h with h; subst h
        refine .inr ⟨fun k x hx => ?_, decodeParts_error tx (fun p hp => hd p (by simp [hp])) ho hk hp⟩
        obtain ⟨v, hv, _⟩ := ((mapPart_ok tx (t := t) (m := HMap.empty) hk).1 m hm k).1 x hx
        exact ⟨v, hv⟩

theorem each_mem {α β : Type} {R : α → β → Prop} {as : List α} {bs : List β} (h : Each R as bs) :
    ∀ a ∈ as, ∃ b, R a b := by
  induction h with
  | nil => intro a ha; cases ha
  | cons h1 _ ih =>
    intro a ha
    rcases List.mem_cons.1 ha with rfl | ha
    · exact ⟨_, h1⟩
    · exact ih a ha

theorem struct_complaint_not (tx : Texts) {avail : Str → Option Str} {fs : List FlatField} {e : FormError}
    {vs : List Val} (h : StructComplaint tx avail fs e) (hv : Each (FlatValue avail) fs vs) : False := by
  have hv := each_mem hv
  rcases h with ⟨f, hf, x, hx, h⟩ | ⟨_, pre, f, post, rfl, _, ⟨h1, h2, h3⟩, _⟩
  · obtain ⟨v, hv⟩ := hv f hf
    rw [FlatValue, hx] at hv
    exact not_both tx hv h
  · obtain ⟨v, hv⟩ := hv f (by simp)
    rw [FlatValue, h3] at hv
    rcases hv with hv | ⟨_, ⟨t, ht⟩, _⟩
    · rw [h1] at hv; cases hv
    · exact h2 t ht

/-- Parts that can be read are not complained about. -/
theorem complaint_not_value (tx : Texts) {e : FormError} : ∀ {ps : List Part} {avail : Str → Option Str}
    {r : List PartVal}, PartComplaint tx ps avail e → PartsValue ps avail r → False
  | [], _, _, h, _ => h
  | .struct fs :: ps, avail, r, h, ⟨vs, r', _, h1, h2⟩ => by
    rcases h with h | ⟨_, h⟩
    · exact struct_complaint_not tx h h1
    · exact complaint_not_value tx h h2
  | .option fs :: ps, avail, r, h, ⟨_, r', _, _, h2⟩ => complaint_not_value tx (ps := ps) h h2
  | .map t :: ps, avail, r, h, ⟨m, r', _, h1, h2⟩ => by
    rcases h with ⟨k, x, hx, h⟩ | ⟨_, h⟩
    · obtain ⟨v, hv, _⟩ := (h1 k).1 x hx
      exact not_both tx hv h
    · exact complaint_not_value tx h h2

/-- If the own fields cannot be read, the parts do not matter. -/
theorem fromCowMapFlat_own {tx : Texts} {own : List Field} {parts : List Part} {es : List (Str × List Str)}
    {e : FormError} (h : fromCowMap (.struct own none) es = .err e) : fromCowMapFlat tx own parts es = .err e := by
  rw [fromCowMapFlat, flatLoop_eq _ _ _ _ (by simp)]
  rw [fromCowMap] at h
  cases hs : structLoop own none es (own.map (fun _ => none)) with
  | err e' => rw [hs] at h; simpa using h
  | crash c => rw [hs] at h; simp at h
  | ok seen =>
    rw [hs] at h
    simp only [Res.bind_ok, List.nil_append] at h ⊢
    cases hf : finishFields own seen with
    | err e' => rw [hf] at h; simpa using h
    | crash c => rw [hf] at h; simp at h
    | ok vs => rw [hf] at h; simp at h

/-- If the own fields can be read, the result is that of the parts. -/
theorem fromCowMapFlat_parts {tx : Texts} {own : List Field} {parts : List Part} {es : List (Str × List Str)}
    {vs : List Val} (h : fromCowMap (.struct own none) es = .ok (.struct vs)) :
    fromCowMapFlat tx own parts es =
      match decodeParts tx parts (keptOf own es) with | .ok ps => .ok ⟨vs, ps⟩ | .error e => .err e := by
  rw [fromCowMapFlat, flatLoop_eq _ _ _ _ (by simp)]
  rw [fromCowMap] at h
  cases hs : structLoop own none es (own.map (fun _ => none)) with
  | err e' => rw [hs] at h; simp at h
  | crash c => rw [hs] at h; simp at h
  | ok seen =>
    rw [hs] at h
    simp only [Res.bind_ok, List.nil_append] at h ⊢
    cases hf : finishFields own seen with
    | err e' => rw [hf] at h; simp at h
    | crash c => rw [hf] at h; simp at h
    | ok vs' =>
      rw [hf] at h
      simp only [Res.bind_ok, Res.ok.injEq, Decoded.struct.injEq] at h
      subst h
      rfl

/-- **C98**: the errors about structs with flattened parts are true.  First the own fields are looked at: if
they cannot be read, the error is the one of a struct without the parts (see C84).  If they can, the error is
about the first part that cannot be read.  And whenever there is something to complain about, there is an
error. -/
theorem C98_errors {urlParse : Bytes → List (Str × Str)} {i1 i2 : Iter} (h1 : Visits i1) (h2 : Visits i2)
    (tx : Texts) (own : List Field) {parts : List Part} (hd : PartsDistinct parts) (ho : OptionApart parts) (q : Bytes) :
    let avail := spare own (fun k => (valuesOf (urlParse q) k).head?)
    (∀ err, parseQueries urlParse i1 i2 (.struct own none) q = .ok (.error err) →
      parseQueriesFlat urlParse i1 i2 tx own parts q = .ok (.error err)) ∧
    (∀ vs, parseQueries urlParse i1 i2 (.struct own none) q = .ok (.ok (.struct vs)) →
      (∀ err, parseQueriesFlat urlParse i1 i2 tx own parts q = .ok (.error err) →
        ∃ e, err = .formError e ∧ PartComplaint tx parts avail e) ∧
      ((∃ e, PartComplaint tx parts avail e) →
        ∃ e, parseQueriesFlat urlParse i1 i2 tx own parts q = .ok (.error (.formError e))) ∧
      ((∀ e, ¬ PartComplaint tx parts avail e) →
        ∃ r, parseQueriesFlat urlParse i1 i2 tx own parts q = .ok (.ok ⟨vs, r⟩))) := by
  intro avail
  obtain ⟨hk, hm⟩ := entries_spec h1 h2 (urlParse q)
  have hav : (fun k => (keptOf own (i2 (cowMap (i1 (groupPairs (urlParse q)))))).lookup k) = avail := spare_of_entries hk hm
  refine ⟨fun err h => ?_, fun vs h => ?_⟩
  · rw [parseQueries] at h
    rw [parseQueriesFlat]
    cases hr : fromCowMap (.struct own none) (i2 (cowMap (i1 (groupPairs (urlParse q))))) with
    | err e => rw [hr] at h; rw [fromCowMapFlat_own hr]; injection h with h; injection h with h; rw [← h]; rfl
    | ok d => rw [hr] at h; cases h
    | crash c => rw [hr] at h; cases h
  · rw [parseQueries, toExcept_ok] at h
    have hx := fromCowMapFlat_parts (tx := tx) (parts := parts) h
    have hpe := fun e => @decodeParts_error tx e parts _ hd ho (keptOf_nodup own hk)
    have hps := fun r => @decodeParts_sound tx parts _ r hd ho (keptOf_nodup own hk)
    simp only [parseQueriesFlat, hx]
    rw [hav] at hpe hps
    cases hp : decodeParts tx parts (keptOf own (i2 (cowMap (i1 (groupPairs (urlParse q)))))) with
    | error e =>
      have hc := hpe e hp
      refine ⟨fun err h => ⟨e, ?_, hc⟩, fun _ => ⟨e, rfl⟩, fun h => absurd hc (h e)⟩
      injection h with h; injection h with h; exact h.symm
    | ok r =>
      have hv := hps r hp
      refine ⟨fun err h => ?_, fun ⟨e, h⟩ => (complaint_not_value tx h hv).elim, fun _ => ⟨r, rfl⟩⟩
      injection h with h; cases h

/-! ### Examples -/

/-- Three queries that are refused: for a text in an own field, for the first of two lacking fields of the
part, and for a number in the part; then one where the optional part is not complained about. -/
example :
    parseQueriesFlat (fun _ => [(s "id", s "x"), (s "page", s "5")]) forwards backwards demoTexts
      [⟨s "id", [], .scalar (.int false 32), none⟩] [.struct [⟨s "page", .of (.scalar (.int false 32)), none⟩]] [] =
      .ok (.error (.formError (.message (s "invalid digit found in string")))) ∧
    parseQueriesFlat (fun _ => [(s "name", s "x")]) forwards backwards demoTexts flatOwn
      [.struct [⟨s "sort", .of (.scalar .string), none⟩, ⟨s "page", .of (.scalar .string), none⟩]] [] =
      .ok (.error (.formError (.message (s "missing field `sort`")))) ∧
    parseQueriesFlat (fun _ => flatPairs) forwards backwards demoTexts flatOwn
      [.struct [⟨s "sort", .of (.scalar .string), none⟩, ⟨s "page", .of (.scalar (.int false 32)), none⟩]] [] =
      .ok (.error (.formError (.message (s "invalid type: string \"5\", expected u32")))) ∧
    parseQueriesFlat (fun _ => flatPairs) forwards backwards demoTexts flatOwn
      [.option [⟨s "page", .of (.scalar (.int false 32)), none⟩]] [] =
      .ok (.ok ⟨[.str (s "a")], [.option none]⟩) := ⟨rfl, rfl, rfl, rfl⟩

end Obsidian.Props
