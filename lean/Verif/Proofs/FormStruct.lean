import Verif.Proofs.Form
import Verif.Proofs.HMap

/- Decoding structs and maps. -/
namespace Obsidian
open Spec

/-- The value decoder gives `v`. -/
def Dec (t : Ty) (vals : List Str) (v : Val) : Prop := ∃ r, decode t vals = .ok (v, r)

/-- Element by element, for three lists. -/
inductive All3 {α β γ : Type} (R : α → β → γ → Prop) : List α → List β → List γ → Prop
  | nil : All3 R [] [] []
  | cons {a b c as bs cs} : R a b c → All3 R as bs cs → All3 R (a :: as) (b :: bs) (c :: cs)

theorem All3.comp {α β γ δ : Type} {R : α → β → γ → Prop} {S : α → γ → δ → Prop} {as bs ds} :
    (∃ cs, All3 R as bs cs ∧ All3 S as cs ds) ↔ All3 (fun a b d => ∃ c, R a b c ∧ S a c d) as bs ds := by
  constructor
  · rintro ⟨cs, h1, h2⟩
    induction h1 generalizing ds with
    | nil => cases h2; exact .nil
    | cons h _ ih => cases h2 with | cons h' h2 => exact .cons ⟨_, h, h'⟩ (ih h2)
  · intro h
    induction h with
    | nil => exact ⟨[], .nil, .nil⟩
    | cons h _ ih =>
      obtain ⟨c, h1, h2⟩ := h
      obtain ⟨cs, h3, h4⟩ := ih
      exact ⟨c :: cs, .cons h1 h3, .cons h2 h4⟩

theorem All3.imp {α β γ : Type} {R S : α → β → γ → Prop} {as bs cs}
    (h : ∀ a ∈ as, ∀ b c, R a b c → S a b c) : All3 R as bs cs → All3 S as bs cs := by
  intro h'
  induction h' with
  | nil => exact .nil
  | cons h1 _ ih => exact .cons (h _ (by simp) _ _ h1) (ih (fun a ha => h a (by simp [ha])))

theorem All3.length {α β γ : Type} {R : α → β → γ → Prop} {as bs cs} (h : All3 R as bs cs) :
    bs.length = as.length ∧ cs.length = as.length := by
  induction h with
  | nil => exact ⟨rfl, rfl⟩
  | cons _ _ ih => exact ⟨by simp [ih.1], by simp [ih.2]⟩

theorem All3.refl {α β : Type} {R : α → β → β → Prop} {as : List α} {bs : List β}
    (hl : bs.length = as.length) (h : ∀ a ∈ as, ∀ b, R a b b) : All3 R as bs bs := by
  induction as generalizing bs with
  | nil => cases bs with | nil => exact .nil | cons => simp at hl
  | cons a as ih =>
    cases bs with
    | nil => simp at hl
    | cons b bs => exact .cons (h a (by simp) b) (ih (by simpa using hl) (fun a ha => h a (by simp [ha])))

theorem All3.eq {α β : Type} {R : α → β → β → Prop} {as : List α} {bs cs : List β}
    (h : ∀ a ∈ as, ∀ b c, R a b c → c = b) (h' : All3 R as bs cs) : cs = bs := by
  induction h' with
  | nil => rfl
  | cons h1 _ ih => rw [h _ (by simp) _ _ h1, ih (fun a ha => h a (by simp [ha]))]

theorem putField_cons (k : Str) (vals : List Str) (f : Field) (fs : List Field) (s : Option Val)
    (ss : List (Option Val)) : putField k vals (f :: fs) (s :: ss) =
    if f.has k = true then
      some (match s with
        | some _ => .err (.message ("duplicate field `".toList ++ f.name ++ ['`']))
        | none => (decode f.ty vals).bind fun (v, _) => .ok (some v :: ss))
    else
      match putField k vals fs ss with
      | none => none
      | some r => some (r.bind fun ss' => .ok (s :: ss')) := rfl

theorem structLoop_cons (fields : List Field) (deny : Option (Str → Str)) (k : Str) (vals : List Str)
    (es : List (Str × List Str)) (seen : List (Option Val)) :
    structLoop fields deny ((k, vals) :: es) seen =
    match putField k vals fields seen with
    | some r => r.bind fun seen' => structLoop fields deny es seen'
    | none =>
      match deny with
      | some text => .err (.message (text k))
      | none =>
        (decode (.scalar (.ofString (fun _ => .ok .unit))) vals).bind fun _ =>
          structLoop fields deny es seen := rfl

theorem finishFields_cons (f : Field) (fs : List Field) (s : Option Val) (ss : List (Option Val)) :
    finishFields (f :: fs) (s :: ss) =
    (match s with | some v => .ok v | none => missingField f : Res Val).bind fun v =>
      (finishFields fs ss).bind fun vs => .ok (v :: vs) := rfl

/-- What one entry does to one field. -/
def OneStep (k : Str) (vals : List Str) (f : Field) (s s' : Option Val) : Prop :=
  if f.has k = true then s = none ∧ ∃ v, Dec f.ty vals v ∧ s' = some v else s' = s

theorem putField_none {fields : List Field} {k : Str} {vals : List Str} {seen : List (Option Val)}
    (hl : seen.length = fields.length) :
    putField k vals fields seen = none ↔ ∀ f ∈ fields, f.has k = false := by
  induction fields generalizing seen with
  | nil => simp [putField]
  | cons f fs ih =>
    cases seen with
    | nil => simp at hl
    | cons s ss =>
      rw [putField_cons]
      by_cases hk : f.has k = true
      · simp [hk]
      · rw [if_neg hk]
        have := ih (seen := ss) (by simpa using hl)
        cases h : putField k vals fs ss with
        | none => rw [h] at this; simpa [hk] using this
        | some r => rw [h] at this; simp at this; simp [this, hk]

theorem putField_ok {fields : List Field} {k : Str} {vals : List Str} {seen seen' : List (Option Val)}
    (hd : Distinct fields) (hl : seen.length = fields.length) :
    putField k vals fields seen = some (.ok seen') ↔
      (∃ f ∈ fields, f.has k = true) ∧ All3 (OneStep k vals) fields seen seen' := by
  induction fields generalizing seen seen' with
  | nil => simp [putField]
  | cons f fs ih =>
    obtain ⟨hd1, hd2⟩ := List.pairwise_cons.1 hd
    cases seen with
    | nil => simp at hl
    | cons s ss =>
      have hl' : ss.length = fs.length := by simpa using hl
      rw [putField_cons]
      by_cases hk : f.has k = true
      · rw [if_pos hk]
        constructor
        · intro h
          refine ⟨⟨f, by simp, hk⟩, ?_⟩
          cases s with
          | some _ => simp at h
          | none =>
            simp only [Option.some.injEq] at h
            obtain ⟨⟨v, r⟩, h1, h2⟩ := Res.bind_eq_ok.1 h
            injection h2 with h2
            rw [← h2]
            refine .cons (by rw [OneStep, if_pos hk]; exact ⟨rfl, v, ⟨r, h1⟩, rfl⟩) (All3.refl hl' ?_)
            intro g hg b
            rw [OneStep, if_neg (by rw [hd1 g hg k hk]; simp)]
        · rintro ⟨_, h⟩
          cases h with
          | cons h1 h2 =>
            rw [OneStep, if_pos hk] at h1
            obtain ⟨rfl, v, ⟨r, hv⟩, rfl⟩ := h1
            have := All3.eq (fun g hg b c h => by
              rw [OneStep, if_neg (by rw [hd1 g hg k hk]; simp)] at h; exact h) h2
            subst this
            simp [hv]
      · rw [if_neg hk]
        have ih' := fun seen' => ih (seen := ss) (seen' := seen') hd2 hl'
        constructor
        · intro h
          cases hp : putField k vals fs ss with
          | none => rw [hp] at h; simp at h
          | some r =>
            rw [hp] at h; simp only [Option.some.injEq] at h
            obtain ⟨ss', h1, h2⟩ := Res.bind_eq_ok.1 h
            injection h2 with h2
            obtain ⟨⟨g, hg, hgk⟩, h3⟩ := (ih' ss').1 (by rw [hp, h1])
            rw [← h2]
            exact ⟨⟨g, by simp [hg], hgk⟩, .cons (by rw [OneStep, if_neg hk]) h3⟩
        · rintro ⟨⟨g, hg, hgk⟩, h⟩
          cases h with
          | cons h1 h2 =>
            rw [OneStep, if_neg hk] at h1
            have hg' : g ∈ fs := by
              rcases List.mem_cons.1 hg with rfl | h
              · exact absurd hgk hk
              · exact h
            have := (ih' _).2 ⟨⟨g, hg', hgk⟩, h2⟩
            simp [this, h1]

/-- What a list of entries does to one field. -/
def Steps (f : Field) : List (Str × List Str) → Option Val → Option Val → Prop
  | [], s, s' => s' = s
  | (k, vals) :: es, s, s' => ∃ s1, OneStep k vals f s s1 ∧ Steps f es s1 s'

/-- A key that names no field is ignored. -/
def Ignored (fields : List Field) (deny : Option (Str → Str)) (e : Str × List Str) : Prop :=
  (∃ f ∈ fields, f.has e.1 = true) ∨ (deny = none ∧ e.2 ≠ [])

theorem decode_ignored {vals : List Str} {v : Val × List Str} :
    decode (.scalar (.ofString (fun _ => .ok .unit))) vals = .ok v ↔ vals ≠ [] ∧ v = (.unit, vals) := by
  cases vals with
  | nil => simp [decode, decodeScalar]
  | cons x xs => simp [decode, decodeScalar, Scalar.parse]; exact eq_comm

theorem structLoop_ok {fields : List Field} {deny : Option (Str → Str)} (hd : Distinct fields) :
    ∀ {entries : List (Str × List Str)} {seen seen' : List (Option Val)}, seen.length = fields.length →
    (structLoop fields deny entries seen = .ok seen' ↔
      (∀ e ∈ entries, Ignored fields deny e) ∧
        All3 (fun f s s' => Steps f entries s s') fields seen seen') := by
  intro entries
  induction entries with
  | nil =>
    intro seen seen' hl
    rw [structLoop]
    constructor
    · intro h; injection h with h; subst h
      exact ⟨by simp, All3.refl hl (fun _ _ _ => rfl)⟩
    · rintro ⟨_, h⟩
      rw [All3.eq (fun _ _ _ _ h => h) h]
  | cons e es ih =>
    intro seen seen' hl
    obtain ⟨k, vals⟩ := e
    rw [structLoop_cons]
    have comp := All3.comp (R := OneStep k vals) (S := fun f s s' => Steps f es s s') (as := fields)
      (bs := seen) (ds := seen')
    have e3 : All3 (fun f s s' => Steps f ((k, vals) :: es) s s') fields seen seen' ↔
        ∃ cs, All3 (OneStep k vals) fields seen cs ∧ All3 (fun f s s' => Steps f es s s') fields cs seen' := by
      rw [comp]; exact Iff.rfl
    rw [e3]
    cases hp : putField k vals fields seen with
    | some r =>
      dsimp only
      have hex : ∃ f ∈ fields, f.has k = true := by
        have := mt (putField_none (vals := vals) (k := k) hl).2 (by rw [hp]; simp)
        simpa using this
      constructor
      · intro h
        obtain ⟨seen1, h1, h2⟩ := Res.bind_eq_ok.1 h
        obtain ⟨_, h3⟩ := (putField_ok hd hl).1 (by rw [hp, h1])
        obtain ⟨h4, h5⟩ := (ih (by rw [h3.length.2])).1 h2
        refine ⟨fun e he => ?_, seen1, h3, h5⟩
        rcases List.mem_cons.1 he with rfl | he
        · exact .inl hex
        · exact h4 e he
      · rintro ⟨h1, seen1, h2, h3⟩
        have h4 := (putField_ok hd hl).2 ⟨hex, h2⟩
        rw [hp] at h4; injection h4 with h4; subst h4
        rw [Res.bind_ok]
        exact (ih (by rw [h2.length.2])).2 ⟨fun e he => h1 e (by simp [he]), h3⟩
    | none =>
      dsimp only
      have hno := (putField_none hl).1 hp
      have hnone : ∀ cs, All3 (OneStep k vals) fields seen cs ↔ cs = seen := by
        intro cs
        constructor
        · intro h
          exact All3.eq (fun g hg b c h => by rw [OneStep, if_neg (by rw [hno g hg]; simp)] at h; exact h) h
        · rintro rfl
          exact All3.refl hl (fun g hg b => by rw [OneStep, if_neg (by rw [hno g hg]; simp)])
      have hign : Ignored fields deny (k, vals) ↔ deny = none ∧ vals ≠ [] := by
        constructor
        · rintro (⟨f, hf, h⟩ | h)
          · rw [hno f hf] at h; simp at h
          · exact h
        · exact .inr
      cases deny with
      | some text =>
        dsimp only
        constructor
        · intro h; simp at h
        · rintro ⟨h, _⟩
          have := hign.1 (h _ (by simp)); simp at this
      | none =>
        dsimp only
        constructor
        · intro h
          obtain ⟨v, h1, h2⟩ := Res.bind_eq_ok.1 h
          obtain ⟨h1, _⟩ := decode_ignored.1 h1
          obtain ⟨h4, h5⟩ := (ih hl).1 h2
          refine ⟨fun e he => ?_, seen, (hnone _).2 rfl, h5⟩
          rcases List.mem_cons.1 he with rfl | he
          · exact hign.2 ⟨rfl, h1⟩
          · exact h4 e he
        · rintro ⟨h1, cs, h2, h3⟩
          rw [(hnone cs).1 h2] at h3
          have := (hign.1 (h1 _ (by simp))).2
          rw [decode_ignored.2 ⟨this, rfl⟩, Res.bind_ok]
          exact (ih hl).2 ⟨fun e he => h1 e (by simp [he]), h3⟩

theorem steps_some {f : Field} : ∀ {es : List (Str × List Str)} {v : Val} {s' : Option Val},
    Steps f es (some v) s' ↔ (∀ e ∈ es, f.has e.1 = false) ∧ s' = some v := by
  intro es
  induction es with
  | nil => intro v s'; simp [Steps]
  | cons e es ih =>
    intro v s'
    obtain ⟨k, vals⟩ := e
    rw [Steps]
    by_cases hk : f.has k = true
    · simp [OneStep, hk]
    · have : ∀ s1, OneStep k vals f (some v) s1 ↔ s1 = some v := fun s1 => by rw [OneStep, if_neg hk]
      simp only [this, exists_eq_left, ih]
      simp [hk]

theorem steps_none {f : Field} : ∀ {es : List (Str × List Str)} {s' : Option Val}, KeysDistinct es →
    (Steps f es none s' ↔
      (∃ e ∈ es, f.has e.1 = true ∧ (∀ e' ∈ es, f.has e'.1 = true → e' = e) ∧
        ∃ v, Dec f.ty e.2 v ∧ s' = some v) ∨
      ((∀ e ∈ es, f.has e.1 = false) ∧ s' = none)) := by
  intro es
  induction es with
  | nil => intro s' _; simp [Steps]
  | cons e es ih =>
    intro s' hk
    obtain ⟨k, vals⟩ := e
    have hk' : KeysDistinct es := by
      rw [KeysDistinct] at hk ⊢; exact (List.nodup_cons.1 hk).2
    have hnot : ∀ e ∈ es, e.1 ≠ k := by
      intro e he h
      rw [KeysDistinct] at hk
      exact (List.nodup_cons.1 hk).1 (h ▸ List.mem_map_of_mem (f := (·.1)) he)
    rw [Steps]
    by_cases hf : f.has k = true
    · constructor
      · rintro ⟨s1, h1, h2⟩
        rw [OneStep, if_pos hf] at h1
        obtain ⟨_, v, hv, rfl⟩ := h1
        obtain ⟨h3, rfl⟩ := steps_some.1 h2
        refine .inl ⟨(k, vals), by simp, hf, fun e' he' h' => ?_, v, hv, rfl⟩
        rcases List.mem_cons.1 he' with rfl | he'
        · rfl
        · rw [h3 e' he'] at h'; simp at h'
      · rintro (⟨e, he, h1, h2, v, hv, rfl⟩ | ⟨h, _⟩)
        · have := h2 (k, vals) (by simp) hf
          subst this
          refine ⟨some v, by rw [OneStep, if_pos hf]; exact ⟨rfl, v, hv, rfl⟩, steps_some.2 ⟨fun e' he' => ?_, rfl⟩⟩
          cases h : f.has e'.1 with
          | false => rfl
          | true => exact absurd (by rw [h2 e' (by simp [he']) h]) (hnot e' he')
        · have := h (k, vals) (by simp); rw [hf] at this; simp at this
    · have : ∀ s1, OneStep k vals f none s1 ↔ s1 = none := fun s1 => by rw [OneStep, if_neg hf]
      simp only [this, exists_eq_left, ih hk']
      constructor
      · rintro (⟨e, he, h1, h2, h3⟩ | ⟨h, h'⟩)
        · refine .inl ⟨e, by simp [he], h1, fun e' he' h' => ?_, h3⟩
          rcases List.mem_cons.1 he' with rfl | he'
          · exact absurd h' hf
          · exact h2 e' he' h'
        · refine .inr ⟨fun e he => ?_, h'⟩
          rcases List.mem_cons.1 he with rfl | he
          · simpa using hf
          · exact h e he
      · rintro (⟨e, he, h1, h2, h3⟩ | ⟨h, h'⟩)
        · rcases List.mem_cons.1 he with rfl | he
          · exact absurd h1 hf
          · exact .inl ⟨e, he, h1, fun e' he' => h2 e' (by simp [he']), h3⟩
        · exact .inr ⟨fun e he => h e (by simp [he]), h'⟩

theorem missingField_ok {f : Field} {v : Val} : missingField f = .ok v ↔
    (f.default = some v ∨ (f.default = none ∧ (∃ t, f.ty = .option t) ∧ v = .none)) := by
  unfold missingField
  cases f.default with
  | some d => simp
  | none =>
    cases f.ty <;> simp
    exact eq_comm

theorem finishFields_ok {fields : List Field} : ∀ {seen : List (Option Val)} {vs : List Val},
    seen.length = fields.length →
    (finishFields fields seen = .ok vs ↔
      All3 (fun f s v => s = some v ∨ (s = none ∧ missingField f = .ok v)) fields seen vs) := by
  induction fields with
  | nil =>
    intro seen vs hl
    cases seen with
    | cons => simp at hl
    | nil =>
      simp only [finishFields]
      constructor
      · intro h; injection h with h; subst h; exact .nil
      · intro h; cases h; rfl
  | cons f fs ih =>
    intro seen vs hl
    cases seen with
    | nil => simp at hl
    | cons s ss =>
      have hl' : ss.length = fs.length := by simpa using hl
      rw [finishFields_cons]
      constructor
      · intro h
        obtain ⟨v, h1, h2⟩ := Res.bind_eq_ok.1 h
        obtain ⟨vs', h3, h4⟩ := Res.bind_eq_ok.1 h2
        injection h4 with h4; subst h4
        refine .cons ?_ ((ih hl').1 h3)
        cases s with
        | some w => simp at h1; exact .inl (by rw [h1])
        | none => exact .inr ⟨rfl, h1⟩
      · intro h
        cases h with
        | cons h1 h2 =>
          rw [(ih hl').2 h2]
          rcases h1 with rfl | ⟨rfl, h1⟩
          · rfl
          · simp [h1]

theorem each_of_all3 {α β γ : Type} {R : α → γ → Prop} {as : List α} {bs : List β} {cs : List γ}
    (h : All3 (fun a _ c => R a c) as bs cs) : Each R as cs := by
  induction h with
  | nil => exact .nil
  | cons h _ ih => exact .cons h ih

theorem all3_of_each {α β γ : Type} {R : α → γ → Prop} {as : List α} {cs : List γ} (b : β)
    (h : Each R as cs) : All3 (fun a b' c => b' = b ∧ R a c) as (as.map (fun _ => b)) cs := by
  induction h with
  | nil => exact .nil
  | cons h _ ih => exact .cons ⟨rfl, h⟩ ih

theorem fromCowMap_struct {fields : List Field} {deny : Option (Str → Str)}
    {entries : List (Str × List Str)} {d : Decoded} :
    fromCowMap (.struct fields deny) entries = .ok d ↔
      ∃ seen vs, structLoop fields deny entries (fields.map (fun _ => none)) = .ok seen ∧
        finishFields fields seen = .ok vs ∧ d = .struct vs := by
  rw [fromCowMap, Res.bind_eq_ok]
  constructor
  · rintro ⟨seen, h1, h2⟩
    obtain ⟨vs, h3, h4⟩ := Res.bind_eq_ok.1 h2
    injection h4 with h4
    exact ⟨seen, vs, h1, h3, h4.symm⟩
  · rintro ⟨seen, vs, h1, h2, rfl⟩
    exact ⟨seen, h1, by rw [h2]; rfl⟩

theorem all3_none_left {fields : List Field} {R : Field → Option Val → Option Val → Prop}
    {seen : List (Option Val)} (h : All3 R fields (fields.map (fun _ => none)) seen) :
    All3 (fun f s s' => s = none ∧ R f s s') fields (fields.map (fun _ => none)) seen := by
  induction fields generalizing seen with
  | nil => cases h; exact .nil
  | cons f fs ih => cases h with | cons h1 h2 => exact .cons ⟨rfl, h1⟩ (ih h2)

/-- Decoding a struct, in terms of the value decoder. -/
theorem decode_struct {fields : List Field} {deny : Option (Str → Str)} (hd : Distinct fields)
    {entries : List (Str × List Str)} (hk : KeysDistinct entries) {vs : List Val} :
    fromCowMap (.struct fields deny) entries = .ok (.struct vs) ↔
      StructValue Dec fields deny entries vs ∧
      ∀ e ∈ entries, (∀ f ∈ fields, f.has e.1 = false) → e.2 ≠ [] := by
  have hl : (fields.map (fun _ => (none : Option Val))).length = fields.length := by simp
  rw [fromCowMap_struct]
  have key : (∃ seen, All3 (fun f s s' => Steps f entries s s') fields (fields.map (fun _ => none)) seen ∧
      finishFields fields seen = .ok vs) ↔ Each (FieldValue Dec entries) fields vs := by
    constructor
    · rintro ⟨seen, h1, h2⟩
      have h3 := (finishFields_ok h1.length.2).1 h2
      have h4 := All3.comp.1 ⟨seen, all3_none_left h1, h3⟩
      refine each_of_all3 (h4.imp ?_)
      rintro f _ b v ⟨s', ⟨rfl, h5⟩, h6⟩
      rcases (steps_none hk).1 h5 with ⟨e, he, h7, h8, v', hv, rfl⟩ | ⟨h7, rfl⟩
      · rcases h6 with h6 | ⟨h6, _⟩
        · injection h6 with h6; subst h6
          exact .inl ⟨e, he, h7, h8, hv⟩
        · simp at h6
      · rcases h6 with h6 | ⟨_, h6⟩
        · simp at h6
        · exact .inr ⟨h7, missingField_ok.1 h6⟩
    · intro h
      have h1 := all3_of_each (none : Option Val) h
      have h2 : All3 (fun f s v => ∃ s', Steps f entries s s' ∧
          (s' = some v ∨ (s' = none ∧ missingField f = .ok v))) fields (fields.map (fun _ => none)) vs := by
        refine h1.imp ?_
        rintro f _ s v ⟨rfl, ⟨e, he, h7, h8, hv⟩ | ⟨h7, h8⟩⟩
        · exact ⟨some v, (steps_none hk).2 (.inl ⟨e, he, h7, h8, v, hv, rfl⟩), .inl rfl⟩
        · exact ⟨none, (steps_none hk).2 (.inr ⟨h7, rfl⟩), .inr ⟨rfl, missingField_ok.2 h8⟩⟩
      obtain ⟨seen, h3, h4⟩ := All3.comp.2 h2
      exact ⟨seen, h3, (finishFields_ok h3.length.2).2 h4⟩
  constructor
  · rintro ⟨seen, vs', h1, h2, h3⟩
    injection h3 with h3; subst h3
    obtain ⟨h4, h5⟩ := (structLoop_ok hd hl).1 h1
    refine ⟨⟨key.1 ⟨seen, h5, h2⟩, fun e he => (h4 e he).imp id And.left⟩, fun e he hno => ?_⟩
    rcases h4 e he with ⟨f, hf, h⟩ | h
    · rw [hno f hf] at h; simp at h
    · exact h.2
  · rintro ⟨⟨h1, h2⟩, h3⟩
    obtain ⟨seen, h5, h6⟩ := key.2 h1
    refine ⟨seen, vs, (structLoop_ok hd hl).2 ⟨fun e he => ?_, h5⟩, h6, rfl⟩
    by_cases hex : ∃ f ∈ fields, f.has e.1 = true
    · exact .inl hex
    · refine .inr ⟨(h2 e he).resolve_left hex, h3 e he (fun f hf => ?_)⟩
      cases h : f.has e.1 with
      | false => rfl
      | true => exact absurd ⟨f, hf, h⟩ hex

/-! ### Panics -/

theorem putField_crash {fields : List Field} {k : Str} {vals : List Str} {seen : List (Option Val)} {c : Crash}
    (h : putField k vals fields seen = some (.crash c)) : ∃ f ∈ fields, f.has k = true ∧ decode f.ty vals = .crash c := by
  induction fields generalizing seen with
  | nil => simp [putField] at h
  | cons f fs ih =>
    cases seen with
    | nil => simp [putField] at h
    | cons s ss =>
      rw [putField_cons] at h
      by_cases hk : f.has k = true
      · rw [if_pos hk] at h
        cases s with
        | some _ => simp at h
        | none =>
          simp only [Option.some.injEq] at h
          rcases Res.bind_eq_crash.1 h with h | ⟨_, _, h⟩
          · exact ⟨f, by simp, hk, h⟩
          · simp at h
      · rw [if_neg hk] at h
        cases hp : putField k vals fs ss with
        | none => rw [hp] at h; simp at h
        | some r =>
          rw [hp] at h; simp only [Option.some.injEq] at h
          rcases Res.bind_eq_crash.1 h with h | ⟨_, _, h⟩
          · obtain ⟨g, hg, h'⟩ := ih (by rw [hp]; simpa using h)
            exact ⟨g, by simp [hg], h'⟩
          · simp at h

theorem structLoop_crash {fields : List Field} {deny : Option (Str → Str)} {c : Crash} :
    ∀ {entries : List (Str × List Str)} {seen : List (Option Val)},
      structLoop fields deny entries seen = .crash c →
      ∃ e ∈ entries, (e.2 = [] ∧ c = .index) ∨ ∃ f ∈ fields, f.has e.1 = true ∧ decode f.ty e.2 = .crash c := by
  intro entries
  induction entries with
  | nil => intro seen h; simp [structLoop] at h
  | cons e es ih =>
    intro seen h
    obtain ⟨k, vals⟩ := e
    rw [structLoop_cons] at h
    have later : (∃ e ∈ es, (e.2 = [] ∧ c = .index) ∨ ∃ f ∈ fields, f.has e.1 = true ∧ decode f.ty e.2 = .crash c) →
        ∃ e ∈ (k, vals) :: es, (e.2 = [] ∧ c = .index) ∨ ∃ f ∈ fields, f.has e.1 = true ∧ decode f.ty e.2 = .crash c :=
      fun ⟨e, he, h⟩ => ⟨e, by simp [he], h⟩
    split at h
    · next r hr =>
      rcases Res.bind_eq_crash.1 h with h | ⟨seen', _, h⟩
      · subst h
        exact ⟨(k, vals), by simp, .inr (putField_crash hr)⟩
      · exact later (ih h)
    · split at h
      · simp at h
      · rcases Res.bind_eq_crash.1 h with h | ⟨_, _, h⟩
        · cases vals with
          | nil =>
            simp [decode, decodeScalar] at h
            exact ⟨(k, []), by simp, .inl ⟨rfl, h.symm⟩⟩
          | cons x xs => simp [decode, decodeScalar, Scalar.parse] at h
        · exact later (ih h)

theorem missingField_crash {f : Field} {c : Crash} : missingField f ≠ .crash c := by
  unfold missingField
  cases f.default with
  | some d => simp
  | none => cases f.ty <;> simp

theorem finishFields_crash {fields : List Field} {c : Crash} :
    ∀ {seen : List (Option Val)}, finishFields fields seen ≠ .crash c := by
  induction fields with
  | nil => intro seen; simp [finishFields]
  | cons f fs ih =>
    intro seen h
    cases seen with
    | nil => simp [finishFields] at h
    | cons s ss =>
      rw [finishFields_cons] at h
      rcases Res.bind_eq_crash.1 h with h | ⟨_, _, h⟩
      · cases s with
        | some v => simp at h
        | none =>
          exact missingField_crash h
      · rcases Res.bind_eq_crash.1 h with h | ⟨_, _, h⟩
        · exact ih h
        · simp at h

theorem mapLoop_crash {t : Ty} {c : Crash} : ∀ {entries : List (Str × List Str)} {m : HMap Str Val},
    mapLoop t entries m = .crash c → ∃ e ∈ entries, decode t e.2 = .crash c := by
  intro entries
  induction entries with
  | nil => intro m h; simp [mapLoop] at h
  | cons e es ih =>
    intro m h
    obtain ⟨k, vals⟩ := e
    rw [mapLoop] at h
    rcases Res.bind_eq_crash.1 h with h | ⟨_, _, h⟩
    · exact ⟨(k, vals), by simp, h⟩
    · obtain ⟨e, he, h⟩ := ih h
      exact ⟨e, by simp [he], h⟩

/-- A panic while decoding comes from a value list that the type of its field cannot take. -/
theorem fromCowMap_crash {shape : Shape} {entries : List (Str × List Str)} {c : Crash}
    (h : fromCowMap shape entries = .crash c) :
    ∃ e ∈ entries, (e.2 = [] ∧ c = .index) ∨
      match shape with
      | .struct fields _ => ∃ f ∈ fields, f.has e.1 = true ∧ decode f.ty e.2 = .crash c
      | .map t => decode t e.2 = .crash c
      | _ => False := by
  cases shape with
  | struct fields deny =>
    rw [fromCowMap] at h
    rcases Res.bind_eq_crash.1 h with h | ⟨seen, _, h⟩
    · exact structLoop_crash h
    · rcases Res.bind_eq_crash.1 h with h | ⟨_, _, h⟩
      · exact absurd h finishFields_crash
      · simp at h
  | map t =>
    rw [fromCowMap] at h
    rcases Res.bind_eq_crash.1 h with h | ⟨_, _, h⟩
    · obtain ⟨e, he, h⟩ := mapLoop_crash h
      exact ⟨e, he, .inr h⟩
    · simp at h
  | string => cases entries <;> simp [fromCowMap] at h
  | keyed reject => cases entries <;> simp [fromCowMap] at h
  | number reject => cases entries <;> simp [fromCowMap] at h
  | other e => simp [fromCowMap] at h

/-! ### Maps -/

theorem mapLoop_ok {t : Ty} : ∀ {entries : List (Str × List Str)} {m : HMap Str Val}, KeysDistinct entries →
    ((∃ m', mapLoop t entries m = .ok m') ↔ ∀ e ∈ entries, ∃ v, Dec t e.2 v) ∧
    ∀ m', mapLoop t entries m = .ok m' → ∀ k,
      (∃ e ∈ entries, e.1 = k ∧ ∃ v, Dec t e.2 v ∧ m'.get k = some v) ∨
      ((∀ e ∈ entries, e.1 ≠ k) ∧ m'.get k = m.get k) := by
  intro entries
  induction entries with
  | nil =>
    intro m _
    refine ⟨by simp [mapLoop], fun m' h k => .inr ⟨by simp, ?_⟩⟩
    rw [mapLoop] at h; injection h with h; rw [h]
  | cons e es ih =>
    intro m hk
    obtain ⟨k0, vals⟩ := e
    have hk' : KeysDistinct es := by
      rw [KeysDistinct] at hk ⊢; exact (List.nodup_cons.1 hk).2
    have hnot : ∀ e ∈ es, e.1 ≠ k0 := by
      intro e he h
      rw [KeysDistinct] at hk
      exact (List.nodup_cons.1 hk).1 (h ▸ List.mem_map_of_mem (f := (·.1)) he)
    constructor
    · constructor
      · rintro ⟨m', h⟩ e he
        rw [mapLoop] at h
        obtain ⟨⟨v, r⟩, h1, h2⟩ := Res.bind_eq_ok.1 h
        rcases List.mem_cons.1 he with rfl | he
        · exact ⟨v, r, h1⟩
        · exact (ih (m := m.insert k0 v) hk').1.1 ⟨m', h2⟩ e he
      · intro h
        obtain ⟨v, r, hv⟩ := h (k0, vals) (by simp)
        obtain ⟨m', h'⟩ := (ih (m := m.insert k0 v) hk').1.2 (fun e he => h e (by simp [he]))
        exact ⟨m', by rw [mapLoop, hv]; exact h'⟩
    · intro m' h k
      rw [mapLoop] at h
      obtain ⟨⟨v, r⟩, h1, h2⟩ := Res.bind_eq_ok.1 h
      rcases (ih (m := m.insert k0 v) hk').2 m' h2 k with ⟨e, he, h3⟩ | ⟨h3, h4⟩
      · exact .inl ⟨e, by simp [he], h3⟩
      · rw [HMap.get_insert] at h4
        by_cases hkk : k0 = k
        · rw [if_pos hkk.symm] at h4
          exact .inl ⟨(k0, vals), by simp, hkk, v, ⟨r, h1⟩, h4⟩
        · rw [if_neg (fun h => hkk h.symm)] at h4
          refine .inr ⟨fun e he => ?_, h4⟩
          rcases List.mem_cons.1 he with rfl | he
          · exact hkk
          · exact h3 e he

end Obsidian
