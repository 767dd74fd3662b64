import Verif.Proofs.FormGroup
import Verif.Spec.Flatten

/- Flattened parts of structs. -/
namespace Obsidian
open Spec

/-! ### Values -/

theorem decodeContent_ok (tx : Texts) : ∀ (t : Ty) (x : Str) (v : Val),
    decodeContent tx t x = .ok v ↔ Taken t x v
  | .scalar .string, x, v => by simp [decodeContent, Taken, eq_comm]
  | .scalar .char, [], v => by simp [decodeContent, Taken]
  | .scalar .char, [c], v => by simp [decodeContent, Taken, eq_comm]
  | .scalar .char, c :: d :: x, v => by simp [decodeContent, Taken]
  | .scalar (.ofString f), x, v => by simp [decodeContent, Taken]
  | .scalar .bool, x, v => by simp [decodeContent, Taken]
  | .scalar (.int _ _), x, v => by simp [decodeContent, Taken]
  | .scalar (.float _), x, v => by simp [decodeContent, Taken]
  | .unit, x, v => by simp [decodeContent, Taken]
  | .seq t, x, v => by simp [decodeContent, Taken]
  | .tuple _ _, x, v => by simp [decodeContent, Taken]
  | .fails _, x, v => by simp [decodeContent, Taken]
  | .newtype t, x, v => by rw [decodeContent, Taken]; exact decodeContent_ok tx t x v
  | .option t, x, v => by
    have ih := decodeContent_ok tx t x
    rw [decodeContent, Taken]
    cases h : decodeContent tx t x with
    | error e =>
      simp only [reduceCtorEq, false_iff, not_exists, not_and]
      intro v' _ h'
      have := (ih v').2 h'
      rw [h] at this; cases this
    | ok w =>
      have hw := (ih w).1 h
      simp only [Except.ok.injEq]
      constructor
      · rintro rfl; exact ⟨w, rfl, hw⟩
      · rintro ⟨v', rfl, h'⟩
        have := (ih v').2 h'
        rw [h] at this; injection this with this; rw [this]

theorem decodeFlat_ok (tx : Texts) (t : FlatTy) (x : Str) (v : Val) :
    decodeFlat tx t x = .ok v ↔ TakenFlat t x v := by
  cases t with
  | of t => exact decodeContent_ok tx t x v
  | enum vs =>
    rw [decodeFlat, TakenFlat]
    have key : ∀ i, vs.findIdx? (fun y => decide (y = x)) = some i ↔
        vs[i]? = some x ∧ ∀ j < i, vs[j]? ≠ some x := by
      intro i
      rw [List.findIdx?_eq_some_iff_getElem]
      constructor
      · rintro ⟨hi, h1, h2⟩
        refine ⟨by simpa [List.getElem?_eq_getElem hi] using h1, fun j hj => ?_⟩
        have := h2 j hj
        rw [List.getElem?_eq_getElem (by omega)]
        simpa using this
      · rintro ⟨h1, h2⟩
        obtain ⟨hi, h3⟩ := List.getElem?_eq_some_iff.1 h1
        refine ⟨hi, by simpa using h3, fun j hj => ?_⟩
        have := h2 j hj
        rw [List.getElem?_eq_getElem (by omega)] at this
        simpa using this
    cases h : vs.findIdx? (fun y => decide (y = x)) with
    | none =>
      simp only [reduceCtorEq, false_iff, not_exists, not_and]
      intro i _ h1 h2
      have := (key i).2 ⟨h1, h2⟩
      rw [h] at this; cases this
    | some i =>
      simp only [Except.ok.injEq]
      constructor
      · rintro rfl; exact ⟨i, rfl, (key i).1 h⟩
      · rintro ⟨j, rfl, h1⟩
        have := (key j).2 h1
        rw [h] at this; injection this with this; rw [this]

/-! ### One flattened struct -/

/-- What one kept entry does to one field. -/
def FlatStep (tx : Texts) (k x : Str) (f : FlatField) (s s' : Option Val) : Prop :=
  if f.name = k then s = none ∧ ∃ v, decodeFlat tx f.ty x = .ok v ∧ s' = some v else s' = s

theorem putFlat_cons (tx : Texts) (k x : Str) (f : FlatField) (fs : List FlatField) (s : Option Val)
    (ss : List (Option Val)) : putFlat tx k x (f :: fs) (s :: ss) =
    if f.name = k then
      some (match s with
        | some _ => .error (.message ("duplicate field `".toList ++ f.name ++ ['`']))
        | none => match decodeFlat tx f.ty x with | .ok v => .ok (some v :: ss) | .error e => .error e)
    else
      match putFlat tx k x fs ss with
      | none => none
      | some (.ok ss') => some (.ok (s :: ss'))
      | some (.error e) => some (.error e) := rfl

theorem putFlat_none (tx : Texts) {fields : List FlatField} {k x : Str} {seen : List (Option Val)}
    (hl : seen.length = fields.length) :
    putFlat tx k x fields seen = none ↔ ∀ f ∈ fields, f.name ≠ k := by
  induction fields generalizing seen with
  | nil => simp [putFlat]
  | cons f fs ih =>
    cases seen with
    | nil => simp at hl
    | cons s ss =>
      rw [putFlat_cons]
      by_cases hk : f.name = k
      · simp [hk]
      · rw [if_neg hk]
        have := ih (seen := ss) (by simpa using hl)
        cases h : putFlat tx k x fs ss with
        | none => rw [h] at this; simpa [hk] using this
        | some r =>
          rw [h] at this; simp only [reduceCtorEq, false_iff] at this
          cases r <;> simpa [hk] using this

theorem putFlat_ok (tx : Texts) {fields : List FlatField} {k x : Str} {seen seen' : List (Option Val)}
    (hd : (fields.map (·.name)).Nodup) (hl : seen.length = fields.length) :
    putFlat tx k x fields seen = some (.ok seen') ↔
      (∃ f ∈ fields, f.name = k) ∧ All3 (FlatStep tx k x) fields seen seen' := by
  induction fields generalizing seen seen' with
  | nil => simp [putFlat]
  | cons f fs ih =>
    obtain ⟨hd1, hd2⟩ := List.nodup_cons.1 hd
    have hd1' : ∀ g ∈ fs, g.name ≠ f.name := fun g hg h => hd1 (List.mem_map.2 ⟨g, hg, h⟩)
    cases seen with
    | nil => simp at hl
    | cons s ss =>
      have hl' : ss.length = fs.length := by simpa using hl
      rw [putFlat_cons]
      by_cases hk : f.name = k
      · rw [if_pos hk]
        have hother : ∀ g ∈ fs, g.name ≠ k := fun g hg h => hd1' g hg (by rw [h, hk])
        constructor
        · intro h
          refine ⟨⟨f, by simp, hk⟩, ?_⟩
          cases s with
          | some _ => simp at h
          | none =>
            simp only [Option.some.injEq] at h
            cases hv : decodeFlat tx f.ty x with
            | error e => rw [hv] at h; simp at h
            | ok v =>
              rw [hv] at h
              injection h with h
              rw [← h]
              refine .cons (by rw [FlatStep, if_pos hk]; exact ⟨rfl, v, hv, rfl⟩) (All3.refl hl' ?_)
              intro g hg b
              rw [FlatStep, if_neg (hother g hg)]
        · rintro ⟨_, h⟩
          cases h with
          | cons h1 h2 =>
            rw [FlatStep, if_pos hk] at h1
            obtain ⟨rfl, v, hv, rfl⟩ := h1
            have := All3.eq (fun g hg b c h => by rw [FlatStep, if_neg (hother g hg)] at h; exact h) h2
            subst this
            simp [hv]
      · rw [if_neg hk]
        have ih' := fun seen' => ih (seen := ss) (seen' := seen') hd2 hl'
        constructor
        · intro h
          cases hp : putFlat tx k x fs ss with
          | none => rw [hp] at h; simp at h
          | some r =>
            rw [hp] at h
            cases r with
            | error e => simp at h
            | ok ss' =>
              simp only [Option.some.injEq, Except.ok.injEq] at h
              obtain ⟨⟨g, hg, hgk⟩, h3⟩ := (ih' ss').1 hp
              rw [← h]
              exact ⟨⟨g, by simp [hg], hgk⟩, .cons (by rw [FlatStep, if_neg hk]) h3⟩
        · rintro ⟨⟨g, hg, hgk⟩, h⟩
          cases h with
          | cons h1 h2 =>
            rw [FlatStep, if_neg hk] at h1
            have hg' : g ∈ fs := by
              rcases List.mem_cons.1 hg with rfl | h
              · exact absurd hgk hk
              · exact h
            have := (ih' _).2 ⟨⟨g, hg', hgk⟩, h2⟩
            simp [this, h1]

/-- What the kept entries do to one field. -/
def FlatSteps (tx : Texts) (kept : List (Str × Str)) (f : FlatField) (s s' : Option Val) : Prop :=
  match kept.lookup f.name with
  | some x => s = none ∧ ∃ v, decodeFlat tx f.ty x = .ok v ∧ s' = some v
  | none => s' = s

theorem lookup_none_of {V : Type} {kept : List (Str × V)} {k : Str} (h : k ∉ kept.map (·.1)) : kept.lookup k = none := by
  induction kept with
  | nil => rfl
  | cons e es ih =>
    obtain ⟨a, b⟩ := e
    simp only [List.map_cons, List.mem_cons, not_or] at h
    rw [List.lookup]
    have : (k == a) = false := by simpa using h.1
    rw [this]
    exact ih h.2

theorem lookup_some_iff {V : Type} {kept : List (Str × V)} (hk : (kept.map (·.1)).Nodup) {k : Str} {x : V} :
    kept.lookup k = some x ↔ (k, x) ∈ kept := by
  induction kept with
  | nil => simp
  | cons e es ih =>
    obtain ⟨a, b⟩ := e
    obtain ⟨hk1, hk2⟩ := List.nodup_cons.1 hk
    rw [List.lookup]
    by_cases h : k = a
    · have hb : (k == a) = true := by simpa using h
      rw [hb]
      constructor
      · intro h'; injection h' with h'; rw [h, h']; exact List.mem_cons_self
      · intro h'
        rcases List.mem_cons.1 h' with h' | h'
        · injection h' with _ h'; rw [h']
        · exact absurd (List.mem_map.2 ⟨_, h', h⟩) hk1
    · have hb : (k == a) = false := by simpa using h
      rw [hb]
      dsimp only
      rw [ih hk2]
      simp [h]

theorem flatSteps_cons (tx : Texts) {k x : Str} {kept : List (Str × Str)} (hk : k ∉ kept.map (·.1))
    (f : FlatField) (s s' : Option Val) :
    FlatSteps tx ((k, x) :: kept) f s s' ↔ ∃ s1, FlatStep tx k x f s s1 ∧ FlatSteps tx kept f s1 s' := by
  by_cases h : f.name = k
  · have e1 : ((k, x) :: kept).lookup f.name = some x := by simp [List.lookup, h]
    have e2 : kept.lookup f.name = none := by rw [h]; exact lookup_none_of hk
    simp only [FlatSteps, FlatStep, e1, e2, if_pos h]
    constructor
    · rintro ⟨rfl, v, hv, rfl⟩; exact ⟨some v, ⟨rfl, v, hv, rfl⟩, rfl⟩
    · rintro ⟨s1, ⟨rfl, v, hv, rfl⟩, rfl⟩; exact ⟨rfl, v, hv, rfl⟩
  · have e1 : ((k, x) :: kept).lookup f.name = kept.lookup f.name := by
      rw [List.lookup]
      have : (f.name == k) = false := by simpa using h
      rw [this]
    simp only [FlatSteps, FlatStep, e1, if_neg h]
    constructor
    · intro h'; exact ⟨s, rfl, h'⟩
    · rintro ⟨s1, rfl, h'⟩; exact h'

theorem partLoop_ok (tx : Texts) {fields : List FlatField} (hd : (fields.map (·.name)).Nodup) :
    ∀ {kept : List (Str × Str)} {seen seen' : List (Option Val)}, (kept.map (·.1)).Nodup →
    seen.length = fields.length →
    ((partLoop tx fields kept seen).1 = .ok seen' ↔ All3 (FlatSteps tx kept) fields seen seen') := by
  intro kept
  induction kept with
  | nil =>
    intro seen seen' _ hl
    rw [partLoop]
    constructor
    · intro h; injection h with h; subst h
      exact All3.refl hl (fun _ _ _ => by rw [FlatSteps]; rfl)
    · intro h
      rw [All3.eq (fun f _ b c h => by rw [FlatSteps] at h; exact h) h]
  | cons e kept ih =>
    intro seen seen' hk hl
    obtain ⟨k, x⟩ := e
    obtain ⟨hk1, hk2⟩ := List.nodup_cons.1 hk
    have e3 : All3 (FlatSteps tx ((k, x) :: kept)) fields seen seen' ↔
        ∃ cs, All3 (FlatStep tx k x) fields seen cs ∧ All3 (FlatSteps tx kept) fields cs seen' := by
      rw [All3.comp]
      exact ⟨fun h => h.imp (fun f _ s s' => (flatSteps_cons tx hk1 f s s').1),
        fun h => h.imp (fun f _ s s' => (flatSteps_cons tx hk1 f s s').2)⟩
    rw [e3, partLoop]
    cases hp : putFlat tx k x fields seen with
    | none =>
      dsimp only
      have hno := (putFlat_none tx hl).1 hp
      rw [ih hk2 hl]
      constructor
      · intro h
        exact ⟨seen, All3.refl hl (fun g hg b => by rw [FlatStep, if_neg (hno g hg)]), h⟩
      · rintro ⟨cs, h1, h2⟩
        have := All3.eq (fun g hg b c h => by rw [FlatStep, if_neg (hno g hg)] at h; exact h) h1
        rwa [this] at h2
    | some r =>
      have hex : ∃ f ∈ fields, f.name = k := by
        have := mt (putFlat_none tx (x := x) (k := k) hl).2 (by rw [hp]; simp)
        simpa using this
      cases r with
      | error e =>
        simp only [reduceCtorEq, false_iff, not_exists, not_and]
        intro cs h1
        have := (putFlat_ok tx hd hl).2 ⟨hex, h1⟩
        rw [hp] at this; cases this
      | ok seen1 =>
        dsimp only
        have h1 := ((putFlat_ok tx hd hl).1 hp).2
        rw [ih hk2 h1.length.2]
        constructor
        · intro h; exact ⟨seen1, h1, h⟩
        · rintro ⟨cs, h2, h3⟩
          have := (putFlat_ok tx hd hl).2 ⟨hex, h2⟩
          rw [hp] at this; injection this with this; injection this with this
          rwa [this]

theorem partLoop_sublist (tx : Texts) (fields : List FlatField) : ∀ (kept : List (Str × Str))
    (seen : List (Option Val)), (partLoop tx fields kept seen).2.Sublist kept := by
  intro kept
  induction kept with
  | nil => intro seen; exact List.Sublist.refl _
  | cons e kept ih =>
    intro seen
    obtain ⟨k, x⟩ := e
    rw [partLoop]
    split
    · exact (ih seen).cons_cons _
    · exact (ih _).cons _
    · exact List.sublist_cons_self _ _

/-- The entries that are left by a struct. -/
theorem partLoop_left (tx : Texts) {fields : List FlatField} (hd : (fields.map (·.name)).Nodup) :
    ∀ {kept : List (Str × Str)} {seen seen' : List (Option Val)}, (kept.map (·.1)).Nodup →
    seen.length = fields.length → (partLoop tx fields kept seen).1 = .ok seen' →
    ∀ k, (partLoop tx fields kept seen).2.lookup k =
      if fields.any (fun f => f.name = k) = true then none else kept.lookup k := by
  intro kept
  induction kept with
  | nil => intro seen seen' _ _ _ k; simp [partLoop]
  | cons e kept ih =>
    intro seen seen' hk hl h k0
    obtain ⟨k, x⟩ := e
    obtain ⟨hk1, hk2⟩ := List.nodup_cons.1 hk
    rw [partLoop] at h ⊢
    cases hp : putFlat tx k x fields seen with
    | none =>
      rw [hp] at h
      dsimp only at h ⊢
      have hno := (putFlat_none tx hl).1 hp
      have := ih hk2 hl h k0
      rw [List.lookup, List.lookup]
      by_cases hkk : k0 = k
      · have hb : (k0 == k) = true := by simpa using hkk
        rw [hb]
        dsimp only
        rw [if_neg]
        rw [hkk]
        simpa using hno
      · have hb : (k0 == k) = false := by simpa using hkk
        rw [hb]
        exact this
    | some r =>
      rw [hp] at h
      cases r with
      | error e => cases h
      | ok seen1 =>
        dsimp only at h ⊢
        obtain ⟨⟨f, hf, hfk⟩, h1⟩ := (putFlat_ok tx hd hl).1 hp
        rw [ih hk2 h1.length.2 h k0, List.lookup]
        by_cases hkk : k0 = k
        · have : fields.any (fun f => f.name = k0) = true := by
            rw [List.any_eq_true]; exact ⟨f, hf, by simp [hfk, hkk]⟩
          rw [if_pos this, if_pos this]
        · have hb : (k0 == k) = false := by simpa using hkk
          rw [hb]

theorem finishFlat_cons (f : FlatField) (fs : List FlatField) (s : Option Val) (ss : List (Option Val)) :
    finishFlat (f :: fs) (s :: ss) =
    match (match s with | some v => .ok v | none => missingFlat f : Except FormError Val) with
    | .error e => .error e
    | .ok v => match finishFlat fs ss with | .ok vs => .ok (v :: vs) | .error e => .error e := rfl

theorem missingFlat_ok (f : FlatField) (s : Option Val) (v : Val) :
    (match s with | some v => .ok v | none => missingFlat f : Except FormError Val) = .ok v ↔
      (s = some v ∨ (s = none ∧
        (f.default = some v ∨ (f.default = none ∧ (∃ t, f.ty = .of (.option t)) ∧ v = .none)))) := by
  cases s with
  | some w => simp
  | none =>
    simp only [missingFlat]
    cases f.default with
    | some d => simp
    | none =>
      cases f.ty with
      | enum _ => simp
      | of t => cases t <;> simp [eq_comm]

theorem finishFlat_ok {fields : List FlatField} : ∀ {seen : List (Option Val)} {vs : List Val},
    seen.length = fields.length →
    (finishFlat fields seen = .ok vs ↔
      All3 (fun f s v => s = some v ∨ (s = none ∧
        (f.default = some v ∨ (f.default = none ∧ (∃ t, f.ty = .of (.option t)) ∧ v = .none)))) fields seen vs) := by
  induction fields with
  | nil =>
    intro seen vs hl
    cases seen with
    | cons => simp at hl
    | nil =>
      rw [finishFlat]
      constructor
      · intro h; injection h with h; subst h; exact .nil
      · intro h; cases h; rfl
  | cons f fs ih =>
    intro seen vs hl
    cases seen with
    | nil => simp at hl
    | cons s ss =>
      have hl' : ss.length = fs.length := by simpa using hl
      have key : ∀ r : Except FormError Val, (∀ v, r = .ok v ↔ (s = some v ∨ (s = none ∧
            (f.default = some v ∨ (f.default = none ∧ (∃ t, f.ty = .of (.option t)) ∧ v = .none))))) →
          ((match r with
            | .error e => .error e
            | .ok v => match finishFlat fs ss with
              | .ok vs => .ok (v :: vs)
              | .error e => .error e : Except FormError (List Val)) = .ok vs ↔
            All3 (fun f s v => s = some v ∨ (s = none ∧ (f.default = some v ∨
              (f.default = none ∧ (∃ t, f.ty = .of (.option t)) ∧ v = .none)))) (f :: fs) (s :: ss) vs) := by
        intro r one
        cases r with
        | error e =>
          simp only [reduceCtorEq, false_iff]
          intro h
          cases h with
          | cons h1 _ => have := (one _).2 h1; cases this
        | ok v =>
          have hv := (one v).1 rfl
          dsimp only
          constructor
          · intro h
            cases hf : finishFlat fs ss with
            | error e => rw [hf] at h; cases h
            | ok vs' =>
              rw [hf] at h; injection h with h; subst h
              exact .cons hv ((ih hl').1 hf)
          · intro h
            cases h with
            | cons h1 h2 =>
              have := (one _).2 h1
              injection this with this
              rw [(ih hl').2 h2, this]
      rw [finishFlat_cons]
      exact key _ (missingFlat_ok f s)

theorem structPart_ok (tx : Texts) {fields : List FlatField} (hd : (fields.map (·.name)).Nodup)
    {kept : List (Str × Str)} (hk : (kept.map (·.1)).Nodup) {vs : List Val} :
    (structPart tx fields kept).1 = .ok vs ↔ Each (FlatValue (fun k => kept.lookup k)) fields vs := by
  have hl : (fields.map (fun _ => (none : Option Val))).length = fields.length := by simp
  have key : (structPart tx fields kept).1 = .ok vs ↔
      ∃ seen, (partLoop tx fields kept (fields.map (fun _ => none))).1 = .ok seen ∧
        finishFlat fields seen = .ok vs := by
    rw [structPart]
    cases h : partLoop tx fields kept (fields.map (fun _ => none)) with
    | mk r left => cases r <;> simp
  rw [key]
  constructor
  · rintro ⟨seen, h1, h2⟩
    have h3 := (partLoop_ok tx hd hk hl).1 h1
    have h4 := (finishFlat_ok h3.length.2).1 h2
    have h0 : All3 (fun (_ : FlatField) (s s' : Option Val) => s = none ∧ s' = s) fields
        (fields.map (fun _ => (none : Option Val))) (fields.map (fun _ => none)) := by
      clear h1 h2 h3 h4 key hl hd
      induction fields with
      | nil => exact .nil
      | cons f fs ih => exact .cons ⟨rfl, rfl⟩ ih
    refine each_of_all3 ((All3.comp.1 ⟨_, h0, All3.comp.1 ⟨seen, h3, h4⟩⟩).imp ?_)
    rintro f _ s v ⟨_, ⟨rfl, rfl⟩, s', h5, h6⟩
    rw [FlatSteps] at h5
    rw [FlatValue]
    cases hlk : kept.lookup f.name with
    | some x =>
      rw [hlk] at h5
      obtain ⟨_, w, hw, rfl⟩ := h5
      dsimp only
      rcases h6 with h6 | ⟨h6, _⟩
      · injection h6 with h6; subst h6; exact (decodeFlat_ok tx _ _ _).1 hw
      · cases h6
    | none =>
      rw [hlk] at h5
      dsimp only at h5 ⊢
      subst h5
      rcases h6 with h6 | ⟨_, h6⟩
      · cases h6
      · exact h6
  · intro h
    have h1 := all3_of_each (none : Option Val) h
    have h2 : All3 (fun f s v => ∃ s', FlatSteps tx kept f s s' ∧ (s' = some v ∨ (s' = none ∧
        (f.default = some v ∨ (f.default = none ∧ (∃ t, f.ty = .of (.option t)) ∧ v = .none)))))
        fields (fields.map (fun _ => none)) vs := by
      refine h1.imp ?_
      rintro f _ s v ⟨rfl, h3⟩
      rw [FlatValue] at h3
      cases hlk : kept.lookup f.name with
      | some x =>
        rw [hlk] at h3
        exact ⟨some v, by rw [FlatSteps, hlk]; exact ⟨rfl, v, (decodeFlat_ok tx _ _ _).2 h3, rfl⟩, .inl rfl⟩
      | none =>
        rw [hlk] at h3
        exact ⟨none, by rw [FlatSteps, hlk], .inr ⟨rfl, h3⟩⟩
    obtain ⟨seen, h3, h4⟩ := All3.comp.2 h2
    exact ⟨seen, (partLoop_ok tx hd hk hl).2 h3, (finishFlat_ok h3.length.2).2 h4⟩

theorem structPart_left (tx : Texts) {fields : List FlatField} (hd : (fields.map (·.name)).Nodup)
    {kept : List (Str × Str)} (hk : (kept.map (·.1)).Nodup) {vs : List Val}
    (h : (structPart tx fields kept).1 = .ok vs) :
    ((structPart tx fields kept).2.map (·.1)).Nodup ∧
    (fun k => (structPart tx fields kept).2.lookup k) = without fields (fun k => kept.lookup k) := by
  have hl : (fields.map (fun _ => (none : Option Val))).length = fields.length := by simp
  have hs := partLoop_sublist tx fields kept (fields.map (fun _ => none))
  have hleft := @partLoop_left tx fields hd kept (fields.map (fun _ => none))
  rw [structPart] at h ⊢
  cases hp : partLoop tx fields kept (fields.map (fun _ => none)) with
  | mk r left =>
    rw [hp] at h hs
    cases r with
    | error e => cases h
    | ok seen =>
      dsimp only
      refine ⟨List.Nodup.sublist (List.Sublist.map _ hs) hk, ?_⟩
      funext k
      have := hleft (seen' := seen) hk hl (by rw [hp]) k
      rw [hp] at this
      exact this

theorem putFlat_other (tx : Texts) {k x : Str} : ∀ {fields : List FlatField} {seen : List (Option Val)},
    (∀ f ∈ fields, f.name ≠ k) → putFlat tx k x fields seen = none
  | [], seen, _ => by simp [putFlat]
  | f :: fs, [], _ => by simp [putFlat]
  | f :: fs, s :: ss, h => by
    rw [putFlat_cons, if_neg (h f List.mem_cons_self), putFlat_other tx fun f hf => h f (List.mem_cons_of_mem _ hf)]

/-- Whether or not the struct could be read, the entries of other names are left. -/
theorem partLoop_other (tx : Texts) (fields : List FlatField) : ∀ (kept : List (Str × Str)) (seen : List (Option Val))
    {k : Str}, (∀ f ∈ fields, f.name ≠ k) → (partLoop tx fields kept seen).2.lookup k = kept.lookup k
  | [], seen, k, _ => rfl
  | (k', x) :: kept, seen, k, h => by
    have ih := fun seen => partLoop_other tx fields kept seen h
    rw [partLoop]
    cases hp : putFlat tx k' x fields seen with
    | none =>
      dsimp only
      rw [List.lookup_cons, List.lookup_cons, ih]
    | some r =>
      have hk : (k == k') = false := by
        rw [beq_eq_false_iff_ne]
        rintro rfl
        rw [putFlat_other tx h] at hp
        cases hp
      rw [List.lookup_cons, hk]
      cases r with
      | ok seen' => exact ih seen'
      | error e => rfl

theorem structPart_other (tx : Texts) {fields : List FlatField} {kept : List (Str × Str)} (hk : (kept.map (·.1)).Nodup) :
    ((structPart tx fields kept).2.map (·.1)).Nodup ∧
    ∀ k, (∀ f ∈ fields, f.name ≠ k) → (structPart tx fields kept).2.lookup k = without fields (fun k => kept.lookup k) k := by
  have hs := partLoop_sublist tx fields kept (fields.map (fun _ => none))
  have ho := fun k => @partLoop_other tx fields kept (fields.map (fun _ => none)) k
  have e : (structPart tx fields kept).2 = (partLoop tx fields kept (fields.map (fun _ => none))).2 := by
    rw [structPart]
    cases partLoop tx fields kept (fields.map (fun _ => none)) with
    | mk r left => cases r <;> rfl
  rw [e]
  refine ⟨List.Nodup.sublist (List.Sublist.map _ hs) hk, fun k h => ?_⟩
  rw [ho k h, without, if_neg]
  simpa using h

theorem flatValue_congr {a b : Str → Option Str} {f : FlatField} {v : Val} (h : a f.name = b f.name) :
    FlatValue a f v ↔ FlatValue b f v := by rw [FlatValue, FlatValue, h]

theorem each_flat_congr {a b : Str → Option Str} {fs : List FlatField} {vs : List Val} (h : ∀ f ∈ fs, a f.name = b f.name) :
    Each (FlatValue a) fs vs ↔ Each (FlatValue b) fs vs := by
  constructor <;> intro he
  · induction he with
    | nil => exact .nil
    | cons h1 _ ih => exact .cons ((flatValue_congr (h _ List.mem_cons_self)).1 h1) (ih fun f hf => h f (List.mem_cons_of_mem _ hf))
  · induction he with
    | nil => exact .nil
    | cons h1 _ ih => exact .cons ((flatValue_congr (h _ List.mem_cons_self)).2 h1) (ih fun f hf => h f (List.mem_cons_of_mem _ hf))

theorem without_agree {fs gs : List FlatField} {a b : Str → Option Str} (h : ∀ k, (∀ f ∈ fs, f.name ≠ k) → a k = b k) :
    ∀ k, (∀ f ∈ fs, f.name ≠ k) → without gs a k = without gs b k := fun k hk => by rw [without, without, h k hk]

/-- Parts that have nothing to do with the texts of some fields are not influenced by them. -/
theorem partsValue_congr {fs : List FlatField} : ∀ {ps : List Part} {a b : Str → Option Str} {r : List PartVal},
    (∀ p ∈ ps, Apart fs p) → (∀ k, (∀ f ∈ fs, f.name ≠ k) → a k = b k) → PartsValue ps a r → PartsValue ps b r
  | [], _, _, _, _, _, h => h
  | .struct gs :: ps, a, b, r, hp, h, ⟨vs, r', h1, h2, h3⟩ => by
    have hg : ∀ g ∈ gs, a g.name = b g.name := fun g hg => h _ fun f hf e => hp (.struct gs) (by simp) g hg f hf e.symm
    exact ⟨vs, r', h1, (each_flat_congr hg).1 h2, partsValue_congr (fun p h => hp p (by simp [h])) (without_agree h) h3⟩
  | .option gs :: ps, a, b, r, hp, h, ⟨o, r', h1, h2, h3⟩ => by
    have hg : ∀ g ∈ gs, a g.name = b g.name := fun g hg => h _ fun f hf e => hp (.option gs) (by simp) g hg f hf e.symm
    refine ⟨o, r', h1, ?_, partsValue_congr (fun p h => hp p (by simp [h])) (without_agree h) h3⟩
    rcases h2 with ⟨vs, h4, h5⟩ | ⟨h4, h5⟩
    · exact .inl ⟨vs, h4, (each_flat_congr hg).1 h5⟩
    · exact .inr ⟨h4, fun ⟨vs, hv⟩ => h5 ⟨vs, (each_flat_congr hg).2 hv⟩⟩
  | .map t :: ps, _, _, _, hp, _, _ => absurd (hp (.map t) (by simp)) id

/-! ### Maps -/

theorem mapPart_ok (tx : Texts) {t : FlatTy} : ∀ {kept : List (Str × Str)} {m : HMap Str Val},
    (kept.map (·.1)).Nodup →
    (∀ m', mapPart tx t kept m = .ok m' → ∀ k,
      (∀ x, kept.lookup k = some x → ∃ v, TakenFlat t x v ∧ m'.get k = some v) ∧
      (kept.lookup k = none → m'.get k = m.get k)) ∧
    ((∀ k x, kept.lookup k = some x → ∃ v, TakenFlat t x v) → ∃ m', mapPart tx t kept m = .ok m') := by
  intro kept
  induction kept with
  | nil =>
    intro m _
    refine ⟨fun m' h k => ?_, fun _ => ⟨m, rfl⟩⟩
    rw [mapPart] at h; injection h with h
    exact ⟨fun x hx => by simp at hx, fun _ => by rw [h]⟩
  | cons e kept ih =>
    intro m hk
    obtain ⟨k0, x0⟩ := e
    obtain ⟨hk1, hk2⟩ := List.nodup_cons.1 hk
    have hself : ((k0, x0) :: kept).lookup k0 = some x0 := by simp [List.lookup]
    have hother : ∀ k, k ≠ k0 → ((k0, x0) :: kept).lookup k = kept.lookup k := by
      intro k h
      rw [List.lookup]
      have : (k == k0) = false := by simpa using h
      rw [this]
    constructor
    · intro m' h k
      rw [mapPart] at h
      cases hv : decodeFlat tx t x0 with
      | error e => rw [hv] at h; cases h
      | ok v =>
        rw [hv] at h
        obtain ⟨h1, h2⟩ := (ih (m := m.insert k0 v) hk2).1 m' h k
        by_cases hkk : k = k0
        · subst hkk
          rw [hself]
          refine ⟨fun x hx => ⟨v, ?_, ?_⟩, fun h => by cases h⟩
          · injection hx with hx; rw [← hx]; exact (decodeFlat_ok tx _ _ _).1 hv
          · rw [h2 (lookup_none_of hk1), HMap.get_insert, if_pos rfl]
        · rw [hother k hkk]
          refine ⟨h1, fun h => ?_⟩
          rw [h2 h, HMap.get_insert, if_neg hkk]
    · intro h
      obtain ⟨v, hv⟩ := h k0 x0 hself
      have hv' := (decodeFlat_ok tx _ _ _).2 hv
      obtain ⟨m', h'⟩ := (ih (m := m.insert k0 v) hk2).2 (fun k x hx => h k x (by
        rw [hother k]
        · exact hx
        · rintro rfl; rw [lookup_none_of hk1] at hx; cases hx))
      exact ⟨m', by rw [mapPart, hv']; exact h'⟩

/-! ### All parts -/

theorem decodeParts_sound (tx : Texts) : ∀ {ps : List Part} {kept : List (Str × Str)} {r : List PartVal},
    PartsDistinct ps → OptionApart ps → (kept.map (·.1)).Nodup → decodeParts tx ps kept = .ok r →
    PartsValue ps (fun k => kept.lookup k) r
  | [], kept, r, _, _, _, h => by
    rw [decodeParts] at h; injection h with h; rw [PartsValue, h]
  | .struct fs :: ps, kept, r, hd, ho, hk, h => by
    have hdf : (fs.map (·.name)).Nodup := hd (.struct fs) (by simp)
    have hv := @structPart_ok tx fs hdf kept hk
    have hleft := @structPart_left tx fs hdf kept hk
    simp only [decodeParts, decodePart] at h
    cases hs : structPart tx fs kept with
    | mk x left =>
      rw [hs] at h hv hleft
      cases x with
      | error e => cases h
      | ok vs =>
        dsimp only at h hv hleft
        obtain ⟨l1, l2⟩ := hleft rfl
        cases hp : decodeParts tx ps left with
        | error e => rw [hp] at h; cases h
        | ok r' =>
          rw [hp] at h; injection h with h
          have := decodeParts_sound tx (ps := ps) (fun p hp => hd p (by simp [hp])) ho l1 hp
          rw [l2] at this
          exact ⟨vs, r', h.symm, hv.1 rfl, this⟩
  | .option fs :: ps, kept, r, hd, ho, hk, h => by
    have hdf : (fs.map (·.name)).Nodup := hd (.option fs) (by simp)
    have hv := @structPart_ok tx fs hdf kept hk
    obtain ⟨l1, l2⟩ := structPart_other tx (fields := fs) hk
    simp only [decodeParts, decodePart] at h
    cases hs : structPart tx fs kept with
    | mk x left =>
      rw [hs] at h hv l1 l2
      have hrest : ∀ r', decodeParts tx ps left = .ok r' → PartsValue ps (without fs (fun k => kept.lookup k)) r' := fun r' hp =>
        partsValue_congr ho.1 l2 (decodeParts_sound tx (ps := ps) (fun p hp => hd p (by simp [hp])) ho.2 l1 hp)
      cases x with
      | error e =>
        dsimp only at h
        cases hp : decodeParts tx ps left with
        | error e => rw [hp] at h; cases h
        | ok r' =>
          rw [hp] at h; injection h with h
          refine ⟨none, r', h.symm, .inr ⟨rfl, ?_⟩, hrest r' hp⟩
          rintro ⟨vs, hvs⟩
          have := hv.2 hvs; cases this
      | ok vs =>
        dsimp only at h hv
        cases hp : decodeParts tx ps left with
        | error e => rw [hp] at h; cases h
        | ok r' =>
          rw [hp] at h; injection h with h
          exact ⟨some vs, r', h.symm, .inl ⟨vs, rfl, hv.1 rfl⟩, hrest r' hp⟩
  | .map t :: ps, kept, r, hd, ho, hk, h => by
    simp only [decodeParts, decodePart] at h
    cases hm : mapPart tx t kept HMap.empty with
    | error e => rw [hm] at h; cases h
    | ok m =>
      rw [hm] at h
      dsimp only at h
      cases hp : decodeParts tx ps kept with
      | error e => rw [hp] at h; cases h
      | ok r' =>
        rw [hp] at h; injection h with h
        exact ⟨m, r', h.symm, fun k => (mapPart_ok tx hk).1 m hm k,
          decodeParts_sound tx (ps := ps) (fun p hp => hd p (by simp [hp])) ho hk hp⟩

theorem decodeParts_complete (tx : Texts) : ∀ {ps : List Part} {kept : List (Str × Str)} {r : List PartVal},
    PartsDistinct ps → OptionApart ps → (kept.map (·.1)).Nodup → PartsValue ps (fun k => kept.lookup k) r →
    ∃ r', decodeParts tx ps kept = .ok r'
  | [], kept, r, _, _, _, h => ⟨[], rfl⟩
  | .struct fs :: ps, kept, r, hd, ho, hk, h => by
    have hdf : (fs.map (·.name)).Nodup := hd (.struct fs) (by simp)
    obtain ⟨vs, r', rfl, h1, h2⟩ := h
    have hv := (structPart_ok tx hdf hk).2 h1
    obtain ⟨l1, l2⟩ := structPart_left tx hdf hk hv
    rw [← l2] at h2
    obtain ⟨r'', h3⟩ := decodeParts_complete tx (ps := ps) (fun p hp => hd p (by simp [hp])) ho l1 h2
    refine ⟨.struct vs :: r'', ?_⟩
    simp only [decodeParts, decodePart]
    cases hs : structPart tx fs kept with
    | mk x left =>
      rw [hs] at hv h3
      dsimp only at hv h3 ⊢
      subst hv
      dsimp only
      rw [h3]
  | .option fs :: ps, kept, r, hd, ho, hk, h => by
    obtain ⟨o, r', rfl, h1, h2⟩ := h
    obtain ⟨l1, l2⟩ := structPart_other tx (fields := fs) hk
    obtain ⟨r'', h3⟩ := decodeParts_complete tx (ps := ps) (fun p hp => hd p (by simp [hp])) ho.2 l1
      (partsValue_congr ho.1 (fun k h => (l2 k h).symm) h2)
    simp only [decodeParts, decodePart]
    cases hs : structPart tx fs kept with
    | mk x left =>
      rw [hs] at h3
      dsimp only at h3
      cases x <;> exact ⟨_, by simp only [h3]; rfl⟩
  | .map t :: ps, kept, r, hd, ho, hk, h => by
    obtain ⟨m, r', rfl, h1, h2⟩ := h
    obtain ⟨r'', h3⟩ := decodeParts_complete tx (ps := ps) (fun p hp => hd p (by simp [hp])) ho hk h2
    obtain ⟨m', h4⟩ := (mapPart_ok tx (t := t) (m := HMap.empty) hk).2 (fun k x hx => by
      obtain ⟨v, hv, _⟩ := (h1 k).1 x hx; exact ⟨v, hv⟩)
    exact ⟨.map m' :: r'', by simp only [decodeParts, decodePart, h4, h3]⟩

/-! ### The whole struct -/

/-- The entries that are kept for the parts. -/
def keptOf (own : List Field) (es : List (Str × List Str)) : List (Str × Str) :=
  es.filterMap fun e => if own.any (fun f => f.has e.1) = true then none else e.2.head?.map (fun x => (e.1, x))

theorem flatLoop_cons (own : List Field) (k : Str) (vals : List Str) (es : List (Str × List Str))
    (seen : List (Option Val)) (kept : List (Str × Str)) :
    flatLoop own ((k, vals) :: es) seen kept =
    match putField k vals own seen with
    | some r => r.bind fun seen' => flatLoop own es seen' kept
    | none =>
      match vals with
      | [] => .crash .index
      | x :: _ => flatLoop own es seen (kept ++ [(k, x)]) := rfl

theorem keptOf_own {own : List Field} {k : Str} (h : own.any (fun f => f.has k) = true) (vals : List Str)
    (es : List (Str × List Str)) : keptOf own ((k, vals) :: es) = keptOf own es := by
  simp only [keptOf, List.filterMap_cons, if_pos h]

theorem keptOf_nil {own : List Field} {k : Str} (h : ¬ own.any (fun f => f.has k) = true)
    (es : List (Str × List Str)) : keptOf own ((k, []) :: es) = keptOf own es := by
  simp only [keptOf, List.filterMap_cons, if_neg h, List.head?_nil, Option.map_none]

theorem keptOf_other {own : List Field} {k : Str} (h : ¬ own.any (fun f => f.has k) = true) (x : Str)
    (xs : List Str) (es : List (Str × List Str)) :
    keptOf own ((k, x :: xs) :: es) = (k, x) :: keptOf own es := by
  simp only [keptOf, List.filterMap_cons, if_neg h, List.head?_cons, Option.map_some]

theorem flatLoop_eq (own : List Field) : ∀ (es : List (Str × List Str)) (seen : List (Option Val))
    (kept : List (Str × Str)), seen.length = own.length →
    flatLoop own es seen kept =
      (structLoop own none es seen).bind fun seen' => .ok (seen', kept ++ keptOf own es) := by
  intro es
  induction es with
  | nil => intro seen kept _; simp [flatLoop, structLoop, keptOf]
  | cons e es ih =>
    intro seen kept hl
    obtain ⟨k, vals⟩ := e
    rw [flatLoop_cons, structLoop_cons]
    cases hp : putField k vals own seen with
    | some r =>
      have hex : ∃ f ∈ own, f.has k = true := by
        have := mt (putField_none (vals := vals) (k := k) hl).2 (by rw [hp]; simp)
        simpa using this
      have hany : own.any (fun f => f.has k) = true := by rw [List.any_eq_true]; exact hex
      have hkept : keptOf own ((k, vals) :: es) = keptOf own es := keptOf_own hany _ _
      dsimp only
      rw [hkept]
      cases r with
      | err e => rfl
      | crash c => rfl
      | ok seen' =>
        rw [Res.bind_ok, Res.bind_ok]
        refine ih seen' kept ?_
        clear ih hkept hany hex
        induction own generalizing seen seen' with
        | nil => simp [putField] at hp
        | cons f fs ih =>
          cases seen with
          | nil => simp at hl
          | cons s ss =>
            rw [putField_cons] at hp
            by_cases hk : f.has k = true
            · rw [if_pos hk] at hp
              cases s with
              | some _ => simp at hp
              | none =>
                simp only [Option.some.injEq] at hp
                obtain ⟨⟨v, r⟩, _, h2⟩ := Res.bind_eq_ok.1 hp
                injection h2 with h2; rw [← h2]; simpa using hl
            · rw [if_neg hk] at hp
              cases h : putField k vals fs ss with
              | none => rw [h] at hp; cases hp
              | some r =>
                rw [h] at hp
                simp only [Option.some.injEq] at hp
                obtain ⟨ss', h1, h2⟩ := Res.bind_eq_ok.1 hp
                injection h2 with h2
                subst h1
                rw [← h2]
                simpa using ih ss (by simpa using hl) ss' h
    | none =>
      dsimp only
      have hno := (putField_none hl).1 hp
      have hany : ¬ own.any (fun f => f.has k) = true := by
        rw [List.any_eq_true]
        rintro ⟨f, hf, h⟩
        rw [hno f hf] at h; cases h
      cases vals with
      | nil => simp [decode, decodeScalar]
      | cons x xs =>
        dsimp only
        rw [ih _ _ hl, decode_ignored.2 ⟨by simp, rfl⟩, Res.bind_ok]
        have : keptOf own ((k, x :: xs) :: es) = (k, x) :: keptOf own es := keptOf_other hany _ _ _
        rw [this, List.append_assoc]; rfl

theorem fromCowMapFlat_ok {tx : Texts} {own : List Field} {parts : List Part} {es : List (Str × List Str)}
    {d : FlatDecoded} : fromCowMapFlat tx own parts es = .ok d ↔
      fromCowMap (.struct own none) es = .ok (.struct d.own) ∧
      decodeParts tx parts (keptOf own es) = .ok d.parts := by
  rw [fromCowMapFlat, flatLoop_eq _ _ _ _ (by simp), fromCowMap]
  cases structLoop own none es (own.map (fun _ => none)) with
  | err e => simp
  | crash c => simp
  | ok seen =>
    simp only [Res.bind_ok, List.nil_append]
    cases finishFields own seen with
    | err e => simp
    | crash c => simp
    | ok vs =>
      simp only [Res.bind_ok]
      cases decodeParts tx parts (keptOf own es) with
      | error e => simp
      | ok ps =>
        obtain ⟨o, p⟩ := d
        simp

theorem fromCowMapFlat_crash {tx : Texts} {own : List Field} {parts : List Part} {es : List (Str × List Str)}
    {c : Crash} : fromCowMapFlat tx own parts es = .crash c ↔ fromCowMap (.struct own none) es = .crash c := by
  rw [fromCowMapFlat, flatLoop_eq _ _ _ _ (by simp), fromCowMap]
  cases structLoop own none es (own.map (fun _ => none)) with
  | err e => simp
  | crash c => simp
  | ok seen =>
    simp only [Res.bind_ok, List.nil_append]
    cases finishFields own seen with
    | err e => simp
    | crash c => simp
    | ok vs =>
      simp only [Res.bind_ok]
      cases decodeParts tx parts (keptOf own es) <;> simp

theorem keptOf_nodup (own : List Field) {es : List (Str × List Str)} (hk : KeysDistinct es) :
    ((keptOf own es).map (·.1)).Nodup := by
  rw [KeysDistinct] at hk
  refine List.Nodup.sublist ?_ hk
  clear hk
  induction es with
  | nil => exact List.Sublist.refl _
  | cons e es ih =>
    obtain ⟨k, vals⟩ := e
    by_cases h : own.any (fun f => f.has k) = true
    · rw [keptOf_own h]; exact ih.cons _
    · cases vals with
      | nil => rw [keptOf_nil h]; exact ih.cons _
      | cons x xs => rw [keptOf_other h]; exact ih.cons_cons _

theorem keptOf_lookup (own : List Field) {es : List (Str × List Str)} (hk : KeysDistinct es) (k : Str) :
    (keptOf own es).lookup k = spare own (fun k => ((es.lookup k).bind List.head?)) k := by
  rw [spare]
  induction es with
  | nil => simp [keptOf]
  | cons e es ih =>
    obtain ⟨a, vals⟩ := e
    rw [KeysDistinct] at hk
    obtain ⟨hk1, hk2⟩ := List.nodup_cons.1 hk
    have ih := ih hk2
    by_cases ha : own.any (fun f => f.has a) = true
    · have hkept : keptOf own ((a, vals) :: es) = keptOf own es := keptOf_own ha _ _
      rw [hkept, ih]
      by_cases hka : k = a
      · subst hka; rw [if_pos ha, if_pos ha]
      · have hb : (k == a) = false := by simpa using hka
        rw [List.lookup_cons, hb]
    · cases vals with
      | nil =>
        have hkept : keptOf own ((a, []) :: es) = keptOf own es := keptOf_nil ha _
        rw [hkept, ih]
        by_cases hka : k = a
        · subst hka
          have : es.lookup k = none := lookup_none_of hk1
          rw [this]
          simp [List.lookup]
        · have hb : (k == a) = false := by simpa using hka
          rw [List.lookup_cons, hb]
      | cons x xs =>
        have hkept : keptOf own ((a, x :: xs) :: es) = (a, x) :: keptOf own es := keptOf_other ha _ _ _
        rw [hkept]
        by_cases hka : k = a
        · subst hka; simp [List.lookup, ha]
        · have hb : (k == a) = false := by simpa using hka
          rw [List.lookup_cons, List.lookup_cons, hb, ih]

end Obsidian
