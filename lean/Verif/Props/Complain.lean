import Verif.Spec.Answers
import Verif.Proofs.Complain
import Verif.Props.Form
import Verif.Props.UrlEncoded
import Verif.Props.Json
import Verif.Props.Submit

/-
C84: the error of a form or query says what is wrong with it.  C85: a service that reads forms.
-/
namespace Obsidian.Props
open Obsidian Spec
variable {U : Univ} {σ : Type}

/-! ### C84 -/

theorem each_mem {α β : Type} {R : α → β → Prop} {as : List α} {bs : List β} (h : Each R as bs) {a : α}
    (ha : a ∈ as) : ∃ b, R a b := by
  induction h with
  | nil => simp at ha
  | cons h _ ih =>
    rcases List.mem_cons.1 ha with rfl | ha
    · exact ⟨_, h⟩
    · exact ih ha

theorem lack_unique {fields : List Field} {es : List (Str × List Str)} {e e' : FormError}
    (h : LackComplaint fields es e) (h' : LackComplaint fields es e') : e' = e := by
  obtain ⟨pre, f, post, rfl, h1, h2, rfl⟩ := h
  obtain ⟨pre', f', post', h3, h4, h5, rfl⟩ := h'
  have : pre' = pre ∧ f' = f := by
    revert h3
    induction pre generalizing pre' with
    | nil =>
      intro h3
      cases pre' with
      | nil => simp at h3; exact ⟨rfl, h3.1.symm⟩
      | cons p pre' => simp at h3; exact absurd h2 (h4 f (by simp [h3.1]))
    | cons p pre ih =>
      intro h3
      cases pre' with
      | nil => simp at h3; rw [h3.1] at h1; exact absurd h5 (h1 f' (by simp))
      | cons p' pre' =>
        simp at h3
        obtain ⟨rfl, h3⟩ := h3
        obtain ⟨rfl, rfl⟩ := ih (fun g hg => h1 g (by simp [hg])) pre' (fun g hg => h4 g (by simp [hg])) h3
        exact ⟨rfl, rfl⟩
  rw [this.2]

/-- The values of the entries are not empty, and there are some. -/
def Filled (es : List (Str × List Str)) : Prop := ∀ e ∈ es, e.2 ≠ [] ∧ ∀ x ∈ e.2, x ≠ []

theorem all3_mem {α β γ : Type} {R : α → β → γ → Prop} {as : List α} {bs : List β} {cs : List γ}
    (h : All3 R as bs cs) {a : α} (ha : a ∈ as) : ∃ b c, R a b c := by
  induction h with
  | nil => simp at ha
  | cons h _ ih =>
    rcases List.mem_cons.1 ha with rfl | ha
    · exact ⟨_, _, h⟩
    · exact ih ha

theorem loop_no_complaint {fields : List Field} {deny : Option (Str → Str)} (hd : Distinct fields)
    {es : List (Str × List Str)} (hk : KeysDistinct es) (hes : Filled es) {seen : List (Option Val)}
    (h : structLoop fields deny es (fields.map (fun _ => none)) = .ok seen) (err : FormError) :
    ¬ EntryComplaint fields deny es err := by
  have hl : (fields.map (fun _ => (none : Option Val))).length = fields.length := by simp
  obtain ⟨h1, h2⟩ := (structLoop_ok hd hl).1 h
  have key : ∀ f ∈ fields, (∃ e ∈ es, f.has e.1 = true ∧ (∀ e' ∈ es, f.has e'.1 = true → e' = e) ∧
      ∃ v, Dec f.ty e.2 v) ∨ ∀ e ∈ es, f.has e.1 = false := by
    intro f hf
    obtain ⟨b, c, rfl, h3⟩ := all3_mem (all3_none_left h2) hf
    rcases (steps_none hk).1 h3 with ⟨e, he, g1, g2, v, g3, _⟩ | ⟨g1, _⟩
    · exact .inl ⟨e, he, g1, g2, v, g3⟩
    · exact .inr g1
  intro hc
  cases hc with
  | @value f e _ hf he hfe hc =>
    rcases key f hf with ⟨e', he', _, huniq, v, r, hdec⟩ | hno
    · rw [← huniq e he hfe] at hdec
      have := (decode_err f.ty e.2 (hes e he).1 (.inr (hes e he).2) err).2 hc
      rw [this] at hdec; simp at hdec
    · rw [hno e he] at hfe; simp at hfe
  | @twice f e e' hf he he' hne hfe hfe' =>
    rcases key f hf with ⟨e2, _, _, huniq, _⟩ | hno
    · exact hne ((huniq e he hfe).trans (huniq e' he' hfe').symm)
    · rw [hno e he] at hfe; simp at hfe
  | unknown hdeny he hno =>
    rcases h1 _ he with ⟨f, hf, hfe⟩ | ⟨h3, _⟩
    · rw [hno f hf] at hfe; simp at hfe
    · rw [hdeny] at h3; simp at h3

theorem ok_no_complaint {fields : List Field} {deny : Option (Str → Str)} (hd : Distinct fields)
    {es : List (Str × List Str)} (hk : KeysDistinct es) (hes : Filled es) {d : Decoded}
    (h : fromCowMap (.struct fields deny) es = .ok d) (err : FormError) :
    ¬ EntryComplaint fields deny es err ∧ ¬ LackComplaint fields es err := by
  obtain ⟨_, vs, hloop, _, rfl⟩ := fromCowMap_struct.1 h
  obtain ⟨⟨h1, _⟩, _⟩ := (decode_struct hd hk).1 h
  refine ⟨loop_no_complaint hd hk hes hloop err, ?_⟩
  rintro ⟨pre, f, post, rfl, _, ⟨hl1, hl2, hl3⟩, _⟩
  obtain ⟨v, ⟨e, he, hfe, _⟩ | ⟨_, h3 | ⟨_, ⟨t, h3⟩, _⟩⟩⟩ := each_mem h1 (a := f) (by simp)
  · rw [hl3 e he] at hfe; simp at hfe
  · rw [hl1] at h3; simp at h3
  · exact hl2 t h3

theorem all3_zip {α β γ : Type} {R : α → β → γ → Prop} {as : List α} {bs : List β} {cs : List γ}
    (h : All3 R as bs cs) {a : α} {c : γ} (hm : (a, c) ∈ as.zip cs) : ∃ b, R a b c := by
  induction h with
  | nil => simp at hm
  | cons h _ ih =>
    simp only [List.zip_cons_cons, List.mem_cons, Prod.mk.injEq] at hm
    rcases hm with ⟨rfl, rfl⟩ | hm
    · exact ⟨_, h⟩
    · exact ih hm

theorem err_complaint {fields : List Field} {deny : Option (Str → Str)} (hd : Distinct fields)
    {es : List (Str × List Str)} (hk : KeysDistinct es) (hes : Filled es) {err : FormError}
    (h : fromCowMap (.struct fields deny) es = .err err) :
    EntryComplaint fields deny es err ∨
      ((∀ e, ¬ EntryComplaint fields deny es e) ∧ LackComplaint fields es err) := by
  have hl : (fields.map (fun _ => (none : Option Val))).length = fields.length := by simp
  rw [fromCowMap, Res.bind_eq_err] at h
  rcases h with h | ⟨seen, h1, h2⟩
  · left
    refine structLoop_err hd hk (fun e he => (hes e he).1) ?_ (done := []) rfl hl ?_ h
    · intro f _ e he err h
      exact (decode_err f.ty e.2 (hes e he).1 (.inr (hes e he).2) err).1 h
    · intro f v hm
      obtain ⟨_, hv⟩ := List.of_mem_zip hm
      simp at hv
  · right
    refine ⟨loop_no_complaint hd hk hes h1, ?_⟩
    simp only [Res.bind_eq_err, reduceCtorEq, and_false, exists_false, or_false] at h2
    obtain ⟨_, h3⟩ := (structLoop_ok hd hl).1 h1
    have hlen := h3.length.2
    have hzip : ∀ f s, (f, s) ∈ fields.zip seen → (s = none ↔ ∀ e ∈ es, f.has e.1 = false) := by
      intro f s hm
      obtain ⟨b, rfl, h4⟩ := all3_zip (all3_none_left h3) hm
      rcases (steps_none hk).1 h4 with ⟨e, he, g1, _, v, _, g2⟩ | ⟨g1, g2⟩
      · rw [g2]
        simp only [reduceCtorEq, false_iff]
        intro hno; rw [hno e he] at g1; simp at g1
      · exact ⟨fun _ => g1, fun _ => g2⟩
    obtain ⟨pre, f, post, g1, g2, g3, g4, g5⟩ := (finishFields_err hlen).1 h2
    have hf : fields = pre.map (·.1) ++ f :: post.map (·.1) := by
      have := congrArg (List.map (·.1)) g1
      rw [List.map_fst_zip (by omega)] at this
      simpa using this
    refine ⟨_, f, _, hf, ?_, ⟨g3, g4, ?_⟩, g5⟩
    · intro g hg hlack
      obtain ⟨⟨g', s⟩, hgm, rfl⟩ := List.mem_map.1 hg
      have hm : (g', s) ∈ fields.zip seen := by rw [g1]; simp [hgm]
      have hs := (hzip g' s hm).2 hlack.2.2
      rcases g2 _ hgm hs with h | ⟨t, h⟩
      · exact h hlack.1
      · exact hlack.2.1 t h
    · exact (hzip f none (by rw [g1]; simp)).1 rfl

theorem Collects.filled {pairs : List (Str × Str)} {es : List (Str × List Str)} (h : Collects pairs es) :
    Filled es := by
  intro e he
  obtain ⟨h1, h2⟩ := (h.2 e.1 e.2).1 he
  exact ⟨h2, fun x hx => by rw [h1] at hx; exact valuesOf_ne hx⟩

theorem entryComplaint_perm {fields : List Field} {deny : Option (Str → Str)} {es es' : List (Str × List Str)}
    (h : ∀ e, e ∈ es ↔ e ∈ es') {err : FormError} (hc : EntryComplaint fields deny es err) :
    EntryComplaint fields deny es' err := by
  cases hc with
  | value h1 h2 h3 h4 => exact .value h1 ((h _).1 h2) h3 h4
  | twice h1 h2 h3 h4 h5 h6 => exact .twice h1 ((h _).1 h2) ((h _).1 h3) h4 h5 h6
  | unknown h1 h2 h3 => exact .unknown h1 ((h _).1 h2) h3

theorem lacks_perm {es es' : List (Str × List Str)} (h : ∀ e, e ∈ es ↔ e ∈ es') {f : Field} :
    Lacks es f ↔ Lacks es' f := by
  unfold Lacks
  exact and_congr Iff.rfl (and_congr Iff.rfl ⟨fun g e he => g e ((h e).2 he), fun g e he => g e ((h e).1 he)⟩)

theorem lackComplaint_perm {fields : List Field} {es es' : List (Str × List Str)} (h : ∀ e, e ∈ es ↔ e ∈ es')
    {err : FormError} : LackComplaint fields es err ↔ LackComplaint fields es' err := by
  unfold LackComplaint
  simp only [lacks_perm h]

/-- **C84** for structs.  If decoding fails, the error is true: it is about the values of a field, a field
given twice, or a name that is not allowed; or nothing of this kind is wrong, and it names the first
field that is lacking.  And decoding fails if, and only if, something is wrong. -/
theorem C84_struct {fields : List Field} {deny : Option (Str → Str)} (hd : Distinct fields)
    (urlParse : Bytes → List (Str × Str)) {i1 i2 : Iter} (h1 : Visits i1) (h2 : Visits i2) (q : Bytes)
    {es : List (Str × List Str)} (hes : Collects (urlParse q) es) :
    (∀ err, parseQueries urlParse i1 i2 (.struct fields deny) q = .ok (.error err) →
      ∃ e, err = .formError e ∧ (EntryComplaint fields deny es e ∨
        ((∀ e', ¬ EntryComplaint fields deny es e') ∧ LackComplaint fields es e))) ∧
    (∀ e, EntryComplaint fields deny es e →
      ∃ e', parseQueries urlParse i1 i2 (.struct fields deny) q = .ok (.error (.formError e')) ∧
        EntryComplaint fields deny es e') ∧
    ((∀ e, ¬ EntryComplaint fields deny es e) → ∀ e, LackComplaint fields es e →
      parseQueries urlParse i1 i2 (.struct fields deny) q = .ok (.error (.formError e))) ∧
    ((∀ e, ¬ EntryComplaint fields deny es e) → (∀ e, ¬ LackComplaint fields es e) →
      ∃ vs, parseQueries urlParse i1 i2 (.struct fields deny) q = .ok (.ok (.struct vs))) := by
  obtain ⟨k1, m1⟩ := entries_spec h1 h2 (urlParse q)
  have hmem : ∀ e, e ∈ i2 (cowMap (i1 (groupPairs (urlParse q)))) ↔ e ∈ es := fun ⟨k, vs⟩ => by
    rw [m1, hes.2]
  have hfill : Filled (i2 (cowMap (i1 (groupPairs (urlParse q))))) :=
    Collects.filled (pairs := urlParse q) ⟨k1, m1⟩
  have hcrash := C38_form urlParse h1 h2 (.struct fields deny) q
  have hok := fun d h => ok_no_complaint (deny := deny) (d := d) hd k1 hfill h
  have herr := fun err h => err_complaint (deny := deny) (err := err) hd k1 hfill h
  rw [parseQueries] at *
  generalize i2 (cowMap (i1 (groupPairs (urlParse q)))) = es' at *
  have hE : ∀ e, EntryComplaint fields deny es' e ↔ EntryComplaint fields deny es e :=
    fun e => ⟨entryComplaint_perm hmem, entryComplaint_perm fun x => (hmem x).symm⟩
  have hL : ∀ e, LackComplaint fields es' e ↔ LackComplaint fields es e := fun e => lackComplaint_perm hmem
  simp only [hE, hL] at hok herr
  cases hr : fromCowMap (.struct fields deny) es' with
  | crash c => rw [hr] at hcrash; exact absurd rfl (hcrash c)
  | ok d =>
    have := hok d hr
    obtain ⟨_, vs, _, _, rfl⟩ := fromCowMap_struct.1 hr
    exact ⟨nofun, fun e he => absurd he (this e).1, fun _ e he => absurd he (this e).2, fun _ _ => ⟨vs, rfl⟩⟩
  | err e0 =>
    have main := herr e0 hr
    refine ⟨fun err h => ⟨e0, by injection h with h; injection h with h; exact h.symm, main⟩,
      fun e he => ⟨e0, rfl, ?_⟩, fun hno e he => ?_, fun hno hno' => ?_⟩
    · rcases main with h | ⟨h, _⟩
      · exact h
      · exact absurd he (h e)
    · rcases main with h | ⟨_, h⟩
      · exact absurd h (hno e0)
      · rw [lack_unique h he]; rfl
    · rcases main with h | ⟨_, h⟩
      · exact absurd h (hno _)
      · exact absurd h (hno' _)

/-- With two things wrong, which of them is reported depends on the order of iteration; what is lacking is
only reported if nothing else is wrong. -/
example :
    parseQueries (fun _ => [(s "a", s "x"), (s "b", s "y")]) forwards forwards
      (.struct [⟨s "a", [], i32, none⟩, ⟨s "b", [], .scalar .bool, none⟩, ⟨s "c", [], i32, none⟩] none) [] =
      .ok (.error (.formError (.message (s "invalid digit found in string")))) ∧
    parseQueries (fun _ => [(s "a", s "x"), (s "b", s "y")]) forwards backwards
      (.struct [⟨s "a", [], i32, none⟩, ⟨s "b", [], .scalar .bool, none⟩, ⟨s "c", [], i32, none⟩] none) [] =
      .ok (.error (.formError (.message (s "provided string was not `true` or `false`")))) ∧
    parseQueries (fun _ => [(s "a", s "1"), (s "b", s "true")]) forwards backwards
      (.struct [⟨s "a", [], i32, none⟩, ⟨s "b", [], .scalar .bool, none⟩, ⟨s "c", [], i32, none⟩] none) [] =
      .ok (.error (.formError (.message (s "missing field `c`")))) := ⟨rfl, rfl, rfl⟩

theorem mapLoop_err {t : Ty} {es : List (Str × List Str)} {m : HMap Str Val} {err : FormError}
    (h : mapLoop t es m = .err err) : ∃ e ∈ es, decode t e.2 = .err err := by
  induction es generalizing m with
  | nil => simp [mapLoop] at h
  | cons e es ih =>
    obtain ⟨k, vals⟩ := e
    rw [mapLoop, Res.bind_eq_err] at h
    rcases h with h | ⟨⟨v, r⟩, _, h⟩
    · exact ⟨_, List.mem_cons_self .., h⟩
    · obtain ⟨e, he, h'⟩ := ih h
      exact ⟨e, List.mem_cons_of_mem _ he, h'⟩

theorem mapLoop_no_err {t : Ty} {es : List (Str × List Str)} {m m' : HMap Str Val} 
    (h : mapLoop t es m = .ok m') : ∀ e ∈ es, ∃ x, decode t e.2 = .ok x := by
  induction es generalizing m with
  | nil => simp
  | cons e es ih =>
    obtain ⟨k, vals⟩ := e
    rw [mapLoop, Res.bind_eq_ok] at h
    obtain ⟨x, h1, h2⟩ := h
    intro e he
    rcases List.mem_cons.1 he with rfl | he
    · exact ⟨x, h1⟩
    · exact ih h2 e he

/-- **C84** for maps: decoding fails if, and only if, something is wrong with the values of a name, and
the error is about the values of a name. -/
theorem C84_map (t : Ty) (urlParse : Bytes → List (Str × Str)) {i1 i2 : Iter} (h1 : Visits i1) (h2 : Visits i2)
    (q : Bytes) :
    (∀ err, parseQueries urlParse i1 i2 (.map t) q = .ok (.error err) →
      ∃ e k, err = .formError e ∧ valuesOf (urlParse q) k ≠ [] ∧ Complains t (valuesOf (urlParse q) k) e) ∧
    (∀ e k, valuesOf (urlParse q) k ≠ [] → Complains t (valuesOf (urlParse q) k) e →
      ∃ err, parseQueries urlParse i1 i2 (.map t) q = .ok (.error err)) := by
  obtain ⟨k1, m1⟩ := entries_spec h1 h2 (urlParse q)
  have hfill : Filled (i2 (cowMap (i1 (groupPairs (urlParse q))))) :=
    Collects.filled (pairs := urlParse q) ⟨k1, m1⟩
  have hcrash := C38_form urlParse h1 h2 (.map t) q
  rw [parseQueries] at *
  generalize i2 (cowMap (i1 (groupPairs (urlParse q)))) = es at *
  have hc : ∀ e ∈ es, ∀ err, decode t e.2 = .err err ↔ Complains t e.2 err :=
    fun e he err => decode_err t e.2 (hfill e he).1 (.inr (hfill e he).2) err
  rw [fromCowMap] at *
  cases hr : mapLoop t es HMap.empty with
  | crash c => rw [hr] at hcrash; exact absurd rfl (hcrash c)
  | ok m =>
    refine ⟨nofun, fun e k hne he => ?_⟩
    have hm := (m1 k _).2 ⟨rfl, hne⟩
    obtain ⟨x, hx⟩ := mapLoop_no_err hr _ hm
    have := (hc _ hm e).2 he
    rw [hx] at this; simp at this
  | err e0 =>
    refine ⟨fun err h => ?_, fun _ _ _ _ => ⟨_, rfl⟩⟩
    obtain ⟨⟨k, vals⟩, he, hd⟩ := mapLoop_err hr
    obtain ⟨rfl, hne⟩ := (m1 k vals).1 he
    exact ⟨e0, k, by injection h with h; injection h with h; exact h.symm, hne, (hc _ he e0).1 hd⟩

/-- **C84**: what is said about integers and truth values that are no such (the first value is meant). -/
theorem C84_scalars (x : Str) (xs : List Str) (err : FormError) :
    (∀ signed bits, Complains (.scalar (.int signed bits)) (x :: xs) err ↔
      ∃ m, err = .message m ∧ IntComplaint signed bits x m) ∧
    (Complains (.scalar .bool) (x :: xs) err ↔ x ≠ s "true" ∧ x ≠ s "false" ∧
      err = .message (s "provided string was not `true` or `false`")) ∧
    ¬ Complains string (x :: xs) err := by
  have key : ∀ k, Complains (.scalar k) (x :: xs) err ↔ ScalarComplaint k x err := by
    intro k
    rw [Complains]
    constructor
    · rintro ⟨x', r, h, h'⟩; injection h with h _; rw [h]; exact h'
    · exact fun h => ⟨x, xs, rfl, h⟩
  refine ⟨fun signed bits => key _, key _, fun h => ?_⟩
  exact (key _).1 h

/-- **C84**: exactly one thing is said about a text that is no integer of the type, and nothing about one
that is. -/
theorem C84_integers (signed : Bool) (bits : Nat) (x : Str) :
    ((∃ i, Denotes signed x i ∧ IntRange signed bits i) ∧ ∀ m, ¬ IntComplaint signed bits x m) ∨
    ((¬ ∃ i, Denotes signed x i ∧ IntRange signed bits i) ∧
      ∃ m, IntComplaint signed bits x m ∧ ∀ m', IntComplaint signed bits x m' → m' = m) := by
  cases h : parseInt signed bits x with
  | ok i =>
    obtain ⟨h1, h2⟩ := parseInt_ok.1 h
    refine .inl ⟨⟨i, h1, inRange_iff.1 h2⟩, fun m hm => ?_⟩
    have := parseInt_error.2 hm
    rw [h] at this; exact nomatch this
  | error m =>
    refine .inr ⟨?_, m, parseInt_error.1 h, fun m' hm' => ?_⟩
    · rintro ⟨i, h1, h2⟩
      have := parseInt_ok.2 ⟨h1, inRange_iff.2 h2⟩
      rw [h] at this; exact nomatch this
    · have := parseInt_error.2 hm'
      rw [h] at this; injection this with this; exact this.symm

set_option maxRecDepth 4000 in
/-- `300` is too large for `u8`, and `3x` has a character that is no digit. -/
example : IntComplaint false 8 (s "300") (s "number too large to fit in target type") ∧
    IntComplaint false 8 (s "3x") (s "invalid digit found in string") ∧
    IntComplaint false 8 (s "-3") (s "invalid digit found in string") ∧
    IntComplaint true 8 (s "-129x") (s "number too small to fit in target type") := by
  refine ⟨parseInt_error.1 rfl, parseInt_error.1 rfl, parseInt_error.1 rfl, parseInt_error.1 rfl⟩

/-! ### C85 -/

/-- The form service, in terms of `parse_queries`. -/
theorem form_service {a : App U σ} {req : Request U} (repair : Bytes → Str) (i1 i2 : Iter) (shape : Shape) (answer : Decoded → Str)
    (g1 : handlerFor a.router req.method req.path = some (formService repair i1 i2 shape answer))
    (g2 : chainFor a.router req.path = some []) :
    (req.body.fails = true → Refuses (a.serve req) (s "Input should not be None")) ∧
    (OnePiece req.body →
      (∀ v, parseQueries (urlParse repair) i1 i2 shape req.body.bytes = .ok (.ok v) →
        AnswersText (a.serve req) (answer v)) ∧
      (∀ e, parseQueries (urlParse repair) i1 i2 shape req.body.bytes = .ok (.error e) →
        Refuses (a.serve req) e.text)) := by
  have run : ∀ {c : Context U} {r}, (c.form (parseQueries (urlParse repair) i1 i2 shape)).map (·.1) = .ok r →
      ∃ c', c.form (parseQueries (urlParse repair) i1 i2 shape) = .ok (r, c') := by
    intro c r h
    cases ho : c.form (parseQueries (urlParse repair) i1 i2 shape) with
    | error e => rw [ho] at h; exact nomatch h
    | ok o => rw [ho] at h; injection h with h; exact ⟨o.2, by rw [← h]⟩
  refine ⟨fun hbad => ?_, fun hone => ⟨fun v hv w => ?_, fun e he => ?_⟩⟩
  · refine refuses_of (e := .noneError) g1 g2 (fun c hc => ?_) rfl
    obtain ⟨c', h'⟩ := run (((C39_single_chunk_partial c).1 _).1 (by rw [hc.body]; exact hbad))
    rw [formService, h']
  · obtain ⟨chain, c, k1, k2, k3⟩ := C24_handler_runs _ req g1
    rw [g2] at k1; simp only [Option.some.injEq] at k1; subst k1
    have := ((C39_single_chunk_partial c).1 (parseQueries (urlParse repair) i1 i2 shape)).2
      (by rw [k2.body]; exact hone.1) (by rw [k2.body]; exact hone.2)
    rw [k2.body, hv] at this
    obtain ⟨c', h'⟩ := run this
    obtain ⟨m, f1, f2⟩ := finish_text c' (answer v)
    refine ⟨⟨200, m, Body.ofStr (answer v)⟩, ?_, rfl, (bytes_ofStr _).1, (bytes_ofStr _).2, f2⟩
    rw [k3, execNext, formService, h']
    simp only [Act.ret_bind, f1]; rfl
  · refine refuses_of (e := e) g1 g2 (fun c hc => ?_) rfl
    have := ((C39_single_chunk_partial c).1 (parseQueries (urlParse repair) i1 i2 shape)).2
      (by rw [hc.body]; exact hone.1) (by rw [hc.body]; exact hone.2)
    rw [hc.body, he] at this
    obtain ⟨c', h'⟩ := run this
    rw [formService, h']

/-- **C85**, what holds for a service that reads a form into a struct, anywhere in any application, for every
request that reaches it without middlewares, if the body comes in one piece: a form that can be read gets the
answer; anything else gets 500 with a text that says what is wrong (see C84).  Missing: bodies in several
pieces, where the claim is false. -/
theorem C85_anywhere_partial {a : App U σ} {req : Request U} (repair : Bytes → Str) {i1 i2 : Iter} (h1 : Visits i1)
    (h2 : Visits i2) {fields : List Field} (hd : Distinct fields) (deny : Option (Str → Str)) (answer : Decoded → Str)
    (hh : handlerFor a.router req.method req.path = some (formService repair i1 i2 (.struct fields deny) answer))
    (hch : chainFor a.router req.path = some []) :
    (req.body.fails = true → Refuses (a.serve req) (s "Input should not be None")) ∧
    (OnePiece req.body → ∀ pairs, WritesForm pairs req.body.bytes → ∀ es, Collects pairs es →
      (∀ vs, StructValue Means fields deny es vs → AnswersText (a.serve req) (answer (.struct vs))) ∧
      (∀ e, EntryComplaint fields deny es e → ∃ e', EntryComplaint fields deny es e' ∧ Refuses (a.serve req) e'.text) ∧
      ((∀ e, ¬ EntryComplaint fields deny es e) → ∀ e, LackComplaint fields es e → Refuses (a.serve req) e.text)) := by
  obtain ⟨k1, k2⟩ := form_service repair i1 i2 (.struct fields deny) answer hh hch
  refine ⟨k1, fun hone pairs hw es hes => ?_⟩
  obtain ⟨g1, g2⟩ := k2 hone
  have hp := urlParse_writes repair hw
  obtain ⟨_, c2, c3, _⟩ := C84_struct (deny := deny) hd (urlParse repair) h1 h2 req.body.bytes (by rw [hp]; exact hes)
  refine ⟨fun vs hvs => ?_, fun e he => ?_, fun hno e he => ?_⟩
  · exact g1 _ ((C62_struct hd repair h1 h2 hw hes.1 hes.2 vs).2 hvs)
  · obtain ⟨e', h3, h4⟩ := c2 e he
    exact ⟨e', h4, g2 _ h3⟩
  · exact g2 _ (c3 hno e he)

/-- **C85**, what holds for every request to an application that consists of such a service, at a fixed path:
requests with other methods or other paths get 404, those to the service get what `C85_anywhere_partial` says;
requests in which slashes of the path are left out are requests to the service (`Joined`, see C77).  Missing: bodies in
several pieces, where the claim is false. -/
theorem C85_service_partial (t : U.Ty) {path : Str} (hf : Fixed path)
    (repair : Bytes → Str) {i1 i2 : Iter} (h1 : Visits i1) (h2 : Visits i2) {fields : List Field}
    (hd : Distinct fields) (deny : Option (Str → Str)) (answer : Decoded → Str) :
    ∃ a : App U σ,
      App.calls (t := t) [.reg (.post path (formService repair i1 i2 (.struct fields deny) answer))] App.new = (a, none) ∧
      ∀ req,
        (req.method = .post ∧ Joined (segments path) (segments req.path) →
          (req.body.fails = true → Refuses (a.serve req) (s "Input should not be None")) ∧
          (OnePiece req.body → ∀ pairs, WritesForm pairs req.body.bytes → ∀ es, Collects pairs es →
            (∀ vs, StructValue Means fields deny es vs → AnswersText (a.serve req) (answer (.struct vs))) ∧
            (∀ e, EntryComplaint fields deny es e → ∃ e', EntryComplaint fields deny es e' ∧ Refuses (a.serve req) e'.text) ∧
            ((∀ e, ¬ EntryComplaint fields deny es e) → ∀ e, LackComplaint fields es e → Refuses (a.serve req) e.text))) ∧
        (¬ (req.method = .post ∧ Joined (segments path) (segments req.path)) →
          AnswersOnly (a.serve req) 404 "404 Not Found") := by
  obtain ⟨a, ha, hreq⟩ := one_page (U := U) (σ := σ) t .post hf (formService repair i1 i2 (.struct fields deny) answer)
  exact ⟨a, ha, fun req => ⟨fun h =>
    C85_anywhere_partial repair h1 h2 hd deny answer ((hreq req).1 h).1 ((hreq req).1 h).2, (hreq req).2⟩⟩

/-- **C85**, round trip: the struct that a client submits is what the service answers about.  Missing: as
above; empty texts and lists (see C67). -/
theorem C85_submitted_partial (t : U.Ty) {path : Str} (hf : Fixed path)
    (repair : Bytes → Str) {i1 i2 : Iter} (h1 : Visits i1) (h2 : Visits i2) {fields : List Field}
    (hd : Distinct fields) (answer : Decoded → Str) :
    ∃ a : App U σ,
      App.calls (t := t) [.reg (.post path (formService repair i1 i2 (.struct fields none) answer))] App.new = (a, none) ∧
      ∀ req vs pairs, req.method = .post → Joined (segments path) (segments req.path) → OnePiece req.body → Submits fields vs pairs →
        WritesForm pairs req.body.bytes → AnswersText (a.serve req) (answer (.struct vs)) := by
  obtain ⟨a, ha, hreq⟩ := C85_service_partial (U := U) (σ := σ) t hf repair h1 h2 hd none answer
  refine ⟨a, ha, fun req vs pairs hm hp hone hs hw => ?_⟩
  have hes := entries_spec h1 h2 pairs
  exact (((hreq req).1 ⟨hm, hp⟩).2 hone pairs hw _ hes).1 vs (submits_value hs (.inl rfl) hes.2)

/-- A service that reads a number: `level=abc` is refused, with the reason. -/
example (t : U.Ty) (repair : Bytes → Str) (answer : Decoded → Str) : ∃ a : App U σ,
    App.calls (t := t) [.reg (.post (s "/level")
      (formService repair forwards backwards (.struct [⟨s "level", [], i32, none⟩] none) answer))] App.new = (a, none) ∧
    ∀ req, req.method = .post → segments req.path = [s "level"] → OnePiece req.body →
      WritesForm [(s "level", s "abc")] req.body.bytes → Refuses (a.serve req) (s "invalid digit found in string") := by
  obtain ⟨a, ha, hreq⟩ := C85_service_partial (U := U) (σ := σ) t (path := s "/level") (by decide +kernel)
    repair forwards_visits backwards_visits (fields := [⟨s "level", [], i32, none⟩])
    (by simp [Distinct]) none answer
  refine ⟨a, ha, fun req hm hp hone hw => ?_⟩
  have hes : Collects [(s "level", s "abc")] [(s "level", [s "abc"])] := by
    refine ⟨by simp [KeysDistinct], fun k vals => ?_⟩
    by_cases hk : k = s "level"
    · subst hk
      have : valuesOf [(s "level", s "abc")] (s "level") = [s "abc"] := by decide +kernel
      rw [this]
      constructor
      · intro h; simp at h; rw [h]; simp
      · rintro ⟨rfl, _⟩; simp
    · have : valuesOf [(s "level", s "abc")] k = [] := by simp [valuesOf, Ne.symm hk]
      rw [this]; simp [hk]
  have hint : IntComplaint true 32 (s "abc") (s "invalid digit found in string") := parseInt_error.1 rfl
  obtain ⟨e', h3, h4⟩ := (((hreq req).1 ⟨hm, by
    rw [hp]; exact (show segments (s "/level") = [s "level"] by decide +kernel) ▸ joined_self _⟩).2 hone _ hw _ hes).2.1 _ (.value (f := ⟨s "level", [], i32, none⟩) (by simp)
    (List.mem_singleton.2 rfl) (by simp [Field.has]) (((C84_scalars _ _ _).1 true 32).2 ⟨_, rfl, hint⟩))
  have : e' = .message (s "invalid digit found in string") := by
    cases h3 with
    | value hf he _ hc =>
      simp only [List.mem_singleton] at hf he
      subst hf; subst he
      obtain ⟨m, rfl, hm⟩ := ((C84_scalars _ _ _).1 true 32).1 hc
      rcases C84_integers true 32 (s "abc") with ⟨_, hno⟩ | ⟨_, m', _, hu⟩
      · exact absurd hm (hno m)
      · rw [hu m hm, hu _ hint]
    | twice hf he he' hne =>
      simp only [List.mem_singleton] at he he'
      exact absurd (he.trans he'.symm) hne
    | unknown h => simp at h
  rw [this] at h4; exact h4

/-- **C85 fails** for bodies in several pieces: `a=1&b=2` is refused if it comes as `a=1` and `&b=2`. -/
theorem C85_false (t : U.Ty) (repair : Bytes → Str) (answer : Decoded → Str) :
    ∃ (a : App U σ) (whole split : Body) (fields : List Field),
    App.calls (t := t) [.reg (.post (s "/sum") (formService repair forwards forwards (.struct fields none) answer))]
      App.new = (a, none) ∧
    whole.bytes = split.bytes ∧ split.fails = false ∧
    ∀ req : Request U, req.method = .post → req.path = s "/sum" →
      (req.body = whole → AnswersText (a.serve req) (answer (.struct [.int 1, .int 2]))) ∧
      (req.body = split → Refuses (a.serve req) (s "missing field `b`")) := by
  have hfix : Fixed (s "/sum") := by decide +kernel
  obtain ⟨a, h1, h2⟩ := one_page (U := U) (σ := σ) t .post hfix
    (formService repair forwards forwards (.struct [⟨s "a", [], i32, none⟩, ⟨s "b", [], i32, none⟩] none) answer)
  have pair : ∀ {k v : Str} (b1 b2 : UInt8), utf8 k = [b1] → utf8 v = [b2] → ¬ special b1 → ¬ special b2 →
      b1 ≠ 61 → WritesPart (utf8 k, utf8 v) [b1, 61, b2] := by
    intro k v b1 b2 h1 h2 s1 s2 s3
    rw [h1, h2]
    exact .both (ek := [b1]) (ev := [b2]) (by simpa using s3.symm) (.cons (e := [b1]) (es := []) (.plain s1) .nil)
      (.cons (e := [b2]) (es := []) (.plain s2) .nil)
  have a1 : WritesPart (utf8 (s "a"), utf8 (s "1")) [97, 61, 49] :=
    pair 97 49 (by decide +kernel) (by decide +kernel) (by unfold special; decide) (by unfold special; decide) (by decide)
  have b2 : WritesPart (utf8 (s "b"), utf8 (s "2")) [98, 61, 50] :=
    pair 98 50 (by decide +kernel) (by decide +kernel) (by unfold special; decide) (by unfold special; decide) (by decide)
  have w1 : WritesForm [(s "a", s "1"), (s "b", s "2")] (utf8 (s "a=1&b=2")) := by
    have : utf8 (s "a=1&b=2") = [97, 61, 49] ++ 38 :: [98, 61, 50] := by decide +kernel
    rw [this]; exact .more a1 (.one b2)
  have w2 : WritesForm [(s "a", s "1")] (utf8 (s "a=1")) := by
    have : utf8 (s "a=1") = [97, 61, 49] := by decide +kernel
    rw [this]; exact .one a1
  have e1 := urlParse_writes repair w1
  have e2 := urlParse_writes repair w2
  refine ⟨a, ⟨[utf8 (s "a=1&b=2")], false⟩, ⟨[utf8 (s "a=1"), utf8 (s "&b=2")], false⟩, _, h1, by decide +kernel, rfl,
    fun req hm hp => ?_⟩
  obtain ⟨g1, g2⟩ := (h2 req).1 ⟨hm, by rw [hp]; exact joined_self _⟩
  refine ⟨fun hb w => ?_, fun hb => ?_⟩
  · obtain ⟨chain, c, k1, k2, k3⟩ := C24_handler_runs _ req g1
    rw [g2] at k1; simp only [Option.some.injEq] at k1; subst k1
    have hagg : Body.aggregateChunk ⟨[utf8 (s "a=1&b=2")], false⟩ = some (utf8 (s "a=1&b=2")) := by decide +kernel
    have hbody : c.request.body = _ := k2.body.trans hb
    have hrun : ∃ c', formService (U := U) (σ := σ) repair forwards forwards
        (.struct [⟨s "a", [], i32, none⟩, ⟨s "b", [], i32, none⟩] none) answer c =
        .ret (Context.build c' (.str (answer (.struct [.int 1, .int 2])))).ok := by
      simp only [formService, Context.form, Context.takeBody, hbody, hagg, parseQueries, e1]
      exact ⟨_, rfl⟩
    obtain ⟨c', hrun⟩ := hrun
    obtain ⟨m, f1, f2⟩ := finish_text c' (answer (.struct [.int 1, .int 2]))
    refine ⟨⟨200, m, Body.ofStr (answer (.struct [.int 1, .int 2]))⟩, ?_, rfl, (bytes_ofStr _).1, (bytes_ofStr _).2, f2⟩
    rw [k3, execNext, hrun]
    simp only [Act.ret_bind, f1]; rfl
  · refine refuses_of (e := .formError (.message (s "missing field `b`"))) g1 g2 (fun c hc => ?_) rfl
    have hagg : Body.aggregateChunk ⟨[utf8 (s "a=1"), utf8 (s "&b=2")], false⟩ = some (utf8 (s "a=1")) := by decide +kernel
    have hbody : c.request.body = _ := hc.body.trans hb
    simp only [formService, Context.form, Context.takeBody, hbody, hagg, parseQueries, e2]
    rfl

end Obsidian.Props
