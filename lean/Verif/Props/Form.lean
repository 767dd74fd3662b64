import Verif.Spec.Answers
import Verif.Proofs.FormGroup
import Verif.Spec.Text

/-
Decoding forms and queries: C35 (grouping), C36 (hash order), C37 (fields), C38 (no panics through
`form` and `query_params`), C39 (whole body), C40 (optional values), C41 (integers), C54 (panics of
`from_cow_map`), C55 (hash order, any type).
-/
namespace Obsidian.Props
open Obsidian Spec
variable {U : Univ}

/-! ### Examples -/

/-- `i32`, `u8`, `String`. -/
abbrev i32 : Ty := .scalar (.int true 32)
abbrev u8 : Ty := .scalar (.int false 8)
abbrev string : Ty := .scalar .string

/-- `struct { name: String, tags: Vec<String>, age: Option<u8>, #[serde(default)] level: i32 }`. -/
def demoFields : List Field :=
  [⟨s "name", [], string, none⟩, ⟨s "tags", [s "tag"], .seq string, none⟩,
   ⟨s "age", [], .option u8, none⟩, ⟨s "level", [], i32, some (.int 0)⟩]

theorem demoFields_distinct : Distinct demoFields := by
  have key : ∀ f ∈ demoFields, ∀ k, f.has k = true →
      k = f.name ∨ (f.name = s "tags" ∧ k = s "tag") := by
    intro f hf k h
    simp only [demoFields, List.mem_cons, List.not_mem_nil, or_false] at hf
    rcases hf with rfl | rfl | rfl | rfl <;> simp [Field.has] at h ⊢ 
    · exact .inl h.symm
    · rcases h with h | h
      · exact .inl h.symm
      · exact .inr h
    · exact .inl h.symm
    · exact .inl h.symm
  rw [Distinct, demoFields]
  simp only [List.pairwise_cons, List.mem_cons, List.not_mem_nil, or_false, List.Pairwise.nil, and_true,
    false_implies, implies_true, forall_eq_or_imp, forall_eq]
  have mem : ∀ f ∈ demoFields, ∀ g ∈ demoFields, f.name ≠ g.name → ∀ k, f.has k = true → g.has k = false := by
    intro f hf g hg hne k h
    cases h' : g.has k with
    | false => rfl
    | true =>
      have t1 : ∀ f ∈ demoFields, f.name ≠ s "tag" := by decide +kernel
      rcases key f hf k h with h1 | ⟨h1, h1'⟩ <;> rcases key g hg k h' with h2 | ⟨h2, h2'⟩
      · exact absurd (h1.symm.trans h2) hne
      · exact absurd (h1.symm.trans h2') (t1 f hf)
      · exact absurd (h2.symm.trans h1') (t1 g hg)
      · exact absurd (h1.trans h2.symm) hne
  exact ⟨⟨mem _ (by simp [demoFields]) _ (by simp [demoFields]) (by decide +kernel),
      mem _ (by simp [demoFields]) _ (by simp [demoFields]) (by decide +kernel),
      mem _ (by simp [demoFields]) _ (by simp [demoFields]) (by decide +kernel)⟩,
    ⟨mem _ (by simp [demoFields]) _ (by simp [demoFields]) (by decide +kernel),
      mem _ (by simp [demoFields]) _ (by simp [demoFields]) (by decide +kernel)⟩,
    mem _ (by simp [demoFields]) _ (by simp [demoFields]) (by decide +kernel)⟩

/-- What `form_urlencoded` makes of `name=bob&tags=x&age=&other=1&tags=y&level=-7`. -/
def demoPairs : List (Str × Str) :=
  [(s "name", s "bob"), (s "tags", s "x"), (s "age", []), (s "other", s "1"), (s "tags", s "y"),
   (s "level", s "-7")]

/-- Iterating in the order of the list, and the other way round. -/
def forwards : Iter := fun m => m.entries
def backwards : Iter := fun m => m.entries.reverse

theorem forwards_visits : Visits forwards := fun _ => .refl _
theorem backwards_visits : Visits backwards := fun _ => List.reverse_perm _

/-! ### C35 -/

theorem readsAll_scalar {k : Scalar} {xs : List Str} {vs : List Val} :
    ReadsAll (Reads (.scalar k)) xs vs ↔ xs ≠ [] ∧ Each (fun x v => Written k x v) xs vs := by
  constructor
  · intro h
    induction h with
    | last h =>
      rw [Reads] at h
      obtain ⟨x, rfl, h⟩ := h
      exact ⟨by simp, .cons h .nil⟩
    | more h _ ih =>
      rw [Reads] at h
      obtain ⟨x, rfl, h⟩ := h
      exact ⟨by simp, .cons h ih.2⟩
  · rintro ⟨hne, h⟩
    induction h with
    | nil => exact absurd rfl hne
    | @cons x v xs vs h h' ih =>
      cases h' with
      | nil => exact .last (by rw [Reads]; exact ⟨x, rfl, h⟩)
      | cons h1 h2 => exact .more (by rw [Reads]; exact ⟨x, rfl, h⟩) (ih (by simp))

theorem reads_seq {t : Ty} {xs : List Str} {v : Val} {r : List Str} :
    Reads (.seq t) xs v r ↔ r = [] ∧ ∃ vs, v = .list vs ∧ ReadsAll (Reads t) xs vs := by rw [Reads]

/-- Decoding a `Vec` of scalars: one element per value, in order. -/
theorem dec_vec {k : Scalar} {xs : List Str} (hne : xs ≠ []) {v : Val} :
    Dec (.seq (.scalar k)) xs v ↔ ∃ vs, v = .list vs ∧ Each (fun x v => Written k x v) xs vs := by
  rw [Dec, (decode_spec (.seq (.scalar k)) xs ⟨hne, .inl rfl⟩).2]
  simp only [reads_seq, readsAll_scalar]
  constructor
  · rintro ⟨r, _, vs, h1, _, h2⟩; exact ⟨vs, h1, h2⟩
  · rintro ⟨vs, h1, h2⟩; exact ⟨[], rfl, vs, h1, hne, h2⟩

theorem each_str {xs : List Str} {vs : List Val} :
    Each (fun x v => Written .string x v) xs vs ↔ vs = xs.map .str := by
  constructor
  · intro h
    induction h with
    | nil => rfl
    | cons h _ ih => simp only [Written] at h; rw [ih, h]; rfl
  · rintro rfl
    induction xs with
    | nil => exact .nil
    | cons x xs ih => exact .cons rfl ih

/-- A query or body as a `HashMap<String, Vec<String>>`. -/
theorem parseQueries_map (urlParse : Bytes → List (Str × Str)) {i1 i2 : Iter} (h1 : Visits i1)
    (h2 : Visits i2) (q : Bytes) :
    ∃ m, parseQueries urlParse i1 i2 (.map (.seq string)) q = .ok (.ok (.map m)) ∧
      ∀ k, m.get k =
        let vs := valuesOf (urlParse q) k
        if vs = [] then none else some (.list (vs.map .str)) := by
  obtain ⟨hk, hm⟩ := entries_spec h1 h2 (urlParse q)
  rw [parseQueries, fromCowMap]
  obtain ⟨l1, l2⟩ := mapLoop_ok (t := .seq string) (m := HMap.empty) hk
  obtain ⟨m, h⟩ := l1.2 (fun e he => by
    obtain ⟨k, vs⟩ := e
    obtain ⟨_, hne⟩ := (hm k vs).1 he
    exact ⟨_, (dec_vec hne).2 ⟨_, rfl, each_str.2 rfl⟩⟩)
  refine ⟨m, by rw [h]; rfl, fun k => ?_⟩
  rcases l2 m h k with ⟨⟨k', vs⟩, he, rfl, v, hv, hg⟩ | ⟨hno, hg⟩
  · obtain ⟨e1, hne⟩ := (hm _ vs).1 he
    obtain ⟨vs', rfl, h'⟩ := (dec_vec hne).1 hv
    rw [each_str.1 h'] at hg
    rw [hg, ← e1, if_neg hne]
  · rw [hg, HMap.get_empty]
    by_cases hv : valuesOf (urlParse q) k = []
    · simp [hv]
    · exact absurd rfl (hno _ ((hm k _).2 ⟨rfl, hv⟩))

/-- **C35**: `query_params` (and `form`, see C39) at the type `HashMap<String, Vec<String>>` gives for
each key exactly the list of its non-empty values in order, and nothing for other keys. -/
theorem C35_query (c : Context U) (urlParse : Bytes → List (Str × Str)) {i1 i2 : Iter} (h1 : Visits i1)
    (h2 : Visits i2) :
    ∃ m, c.queryParams (parseQueries urlParse i1 i2 (.map (.seq string))) = .ok (.ok (.map m)) ∧
      ∀ k, m.get k =
        let vs := valuesOf (urlParse (utf8 (c.request.query.getD []))) k
        if vs = [] then none else some (.list (vs.map .str)) := by
  have hq : c.queryParams (parseQueries urlParse i1 i2 (.map (.seq string))) =
      parseQueries urlParse i1 i2 (.map (.seq string)) (utf8 (c.request.query.getD [])) := by
    rw [Context.queryParams]; cases c.request.query <;> rfl
  rw [hq]
  exact parseQueries_map urlParse h1 h2 _

/-- **C35** for every type: the entries that are decoded are exactly the keys with non-empty values,
each once, with these values in order. -/
theorem C35_entries (urlParse : Bytes → List (Str × Str)) {i1 i2 : Iter} (h1 : Visits i1)
    (h2 : Visits i2) (shape : Shape) (q : Bytes) :
    ∃ entries, parseQueries urlParse i1 i2 shape q = (fromCowMap shape entries).toExcept ∧
      KeysDistinct entries ∧
      ∀ k vs, (k, vs) ∈ entries ↔ vs = valuesOf (urlParse q) k ∧ vs ≠ [] :=
  ⟨_, rfl, entries_spec h1 h2 (urlParse q)⟩

example : valuesOf demoPairs (s "tags") = [s "x", s "y"] ∧ valuesOf demoPairs (s "age") = [] := by
  decide +kernel

/-! ### C36 -/

theorem struct_value_perm {fields : List Field} {deny : Option (Str → Str)} (hd : Distinct fields)
    {es es' : List (Str × List Str)} (hp : es.Perm es') (hk : KeysDistinct es) {d : Decoded}
    (h : fromCowMap (.struct fields deny) es = .ok d) : fromCowMap (.struct fields deny) es' = .ok d := by
  obtain ⟨_, vs, _, _, rfl⟩ := fromCowMap_struct.1 h
  obtain ⟨h1, h2⟩ := (decode_struct hd hk).1 h
  refine (decode_struct hd (keysDistinct_perm hp hk)).2 ⟨h1.congr (fun e => hp.mem_iff) (fun _ _ _ _ _ _ h => h), ?_⟩
  exact fun e he => h2 e (hp.mem_iff.2 he)

/-- **C36** for `from_cow_map` and structs: whatever the order of iteration, decoding gives the same
value or fails. -/
theorem C36_struct {fields : List Field} {deny : Option (Str → Str)} (hd : Distinct fields)
    {es es' : List (Str × List Str)} (hp : es.Perm es') (hk : KeysDistinct es) (d : Decoded) :
    fromCowMap (.struct fields deny) es = .ok d ↔ fromCowMap (.struct fields deny) es' = .ok d :=
  ⟨struct_value_perm hd hp hk, struct_value_perm hd hp.symm (keysDistinct_perm hp hk)⟩

theorem dec_unique {t : Ty} {vals : List Str} {v v' : Val} (h : Dec t vals v) (h' : Dec t vals v') : v = v' := by
  obtain ⟨r, h⟩ := h
  obtain ⟨r', h'⟩ := h'
  rw [h] at h'; injection h' with h'; injection h'

/-- **C36** for `from_cow_map` and maps. -/
theorem C36_map {t : Ty} {es es' : List (Str × List Str)} (hp : es.Perm es') (hk : KeysDistinct es)
    {m : HMap Str Val} (h : fromCowMap (.map t) es = .ok (.map m)) :
    ∃ m', fromCowMap (.map t) es' = .ok (.map m') ∧ ∀ k, m'.get k = m.get k := by
  have unfold : ∀ es m, fromCowMap (.map t) es = .ok (.map m) ↔ mapLoop t es HMap.empty = .ok m := by
    intro es m
    rw [fromCowMap, Res.bind_eq_ok]
    constructor
    · rintro ⟨a, h1, h2⟩
      injection h2 with h2; injection h2 with h2
      rw [← h2]; exact h1
    · intro h; exact ⟨m, h, rfl⟩
  rw [unfold] at h
  obtain ⟨l1, l2⟩ := mapLoop_ok (t := t) (m := HMap.empty) hk
  obtain ⟨l1', l2'⟩ := mapLoop_ok (t := t) (m := HMap.empty) (keysDistinct_perm hp hk)
  obtain ⟨m', h'⟩ := l1'.2 (fun e he => l1.1 ⟨m, h⟩ e (hp.mem_iff.2 he))
  refine ⟨m', (unfold _ _).2 h', fun k => ?_⟩
  rcases l2 m h k with ⟨e, he, rfl, v, hv, hg⟩ | ⟨hno, hg⟩
  · rcases l2' m' h' e.1 with ⟨e', he', hee, v', hv', hg'⟩ | ⟨hno', _⟩
    · have : e' = e := by
        obtain ⟨a, b⟩ := e; obtain ⟨a', b'⟩ := e'
        dsimp only at hee; subst hee
        have h1 := (HMap.lookup_eq_some hk).2 he
        have h2 := (HMap.lookup_eq_some hk).2 (hp.mem_iff.2 he')
        rw [h1] at h2; injection h2 with h2; rw [h2]
      subst this
      rw [hg, hg', dec_unique hv hv']
    · exact absurd rfl (hno' e (hp.mem_iff.1 he))
  · rcases l2' m' h' k with ⟨e', he', hee, _⟩ | ⟨_, hg'⟩
    · exact absurd hee (hno e' (hp.mem_iff.2 he'))
    · rw [hg, hg']

/-- **C36** through `form` and `query_params`: the orders of iteration do not matter for structs. -/
theorem C36_form {fields : List Field} {deny : Option (Str → Str)} (hd : Distinct fields)
    (urlParse : Bytes → List (Str × Str)) {i1 i2 j1 j2 : Iter} (h1 : Visits i1) (h2 : Visits i2)
    (h3 : Visits j1) (h4 : Visits j2) (q : Bytes) (d : Decoded) :
    parseQueries urlParse i1 i2 (.struct fields deny) q = .ok (.ok d) ↔
    parseQueries urlParse j1 j2 (.struct fields deny) q = .ok (.ok d) := by
  obtain ⟨k1, m1⟩ := entries_spec h1 h2 (urlParse q)
  obtain ⟨k2, m2⟩ := entries_spec h3 h4 (urlParse q)
  have hp := perm_of_mem k1 k2 (fun ⟨k, vs⟩ => by rw [m1, m2])
  have conv : ∀ r : Res Decoded, r.toExcept = .ok (.ok d) ↔ r = .ok d := by
    intro r; cases r <;> simp [Res.toExcept]
  rw [parseQueries, parseQueries, conv, conv]
  exact C36_struct hd hp k1 d

example : parseQueries (fun _ => demoPairs) forwards backwards (.struct demoFields none) [] =
    .ok (.ok (.struct [.str (s "bob"), .list [.str (s "x"), .str (s "y")], .none, .int (-7)])) ∧
    parseQueries (fun _ => demoPairs) backwards backwards (.struct demoFields none) [] =
    .ok (.ok (.struct [.str (s "bob"), .list [.str (s "x"), .str (s "y")], .none, .int (-7)])) := by
  have h : parseQueries (fun _ => demoPairs) forwards backwards (.struct demoFields none) [] =
    .ok (.ok (.struct [.str (s "bob"), .list [.str (s "x"), .str (s "y")], .none, .int (-7)])) := rfl
  exact ⟨h, (C36_form demoFields_distinct _ forwards_visits backwards_visits backwards_visits
    backwards_visits _ _).1 h⟩

/-- **C55 fails**: decoded as a `String`, the result is the key that happens to come first. -/
theorem C55_false : ∃ es es' : List (Str × List Str), es.Perm es' ∧ KeysDistinct es ∧
    fromCowMap .string es = .ok (.string (s "a")) ∧ fromCowMap .string es' = .ok (.string (s "b")) :=
  ⟨[(s "a", [s "1"]), (s "b", [s "2"])], [(s "b", [s "2"]), (s "a", [s "1"])], .swap _ _ _,
    by rw [KeysDistinct]; decide +kernel, rfl, rfl⟩

/-- **C55, what holds**: for structs and maps the order does not matter. Missing: other types. -/
theorem C55_structs_and_maps_partial {es es' : List (Str × List Str)} (hp : es.Perm es')
    (hk : KeysDistinct es) :
    (∀ fields deny, Distinct fields → ∀ d, fromCowMap (.struct fields deny) es = .ok d ↔
      fromCowMap (.struct fields deny) es' = .ok d) ∧
    (∀ t m, fromCowMap (.map t) es = .ok (.map m) →
      ∃ m', fromCowMap (.map t) es' = .ok (.map m') ∧ ∀ k, m'.get k = m.get k) :=
  ⟨fun _ _ hd d => C36_struct hd hp hk d, fun _ _ h => C36_map hp hk h⟩

/-! ### C37 -/

/-- **C37**: the keys of a field are its name and its aliases. -/
theorem C37_names (f : Field) (k : Str) : f.has k = true ↔ k = f.name ∨ k ∈ f.aliases := by
  rw [Field.has, Bool.or_eq_true, List.contains_iff_mem, decide_eq_true_iff, eq_comm (a := f.name)]

/-- **C37** for `from_cow_map`: decoding a struct succeeds exactly if every field has a value as
described by `FieldValue` (its own values decoded, or the default, or `None`) and no key is unknown
(unless unknown keys are ignored); and then the result consists of these values. -/
theorem C37_struct {fields : List Field} {deny : Option (Str → Str)} (hd : Distinct fields)
    {es : List (Str × List Str)} (hk : KeysDistinct es) (hne : ∀ e ∈ es, e.2 ≠ [])
    (hf : ∀ e ∈ es, ∀ f ∈ fields, f.has e.1 = true → Fits f.ty e.2) (vs : List Val) :
    fromCowMap (.struct fields deny) es = .ok (.struct vs) ↔ StructValue Means fields deny es vs := by
  rw [decode_struct hd hk]
  constructor
  · rintro ⟨h, _⟩
    exact h.congr (fun _ => Iff.rfl) (fun f hf' e he hk' v hv =>
      ((decode_spec f.ty e.2 (hf e he f hf' hk')).2 v).1 hv)
  · intro h
    exact ⟨h.congr (fun _ => Iff.rfl) (fun f hf' e he hk' v hv =>
      ((decode_spec f.ty e.2 (hf e he f hf' hk')).2 v).2 hv), fun e he _ => hne e he⟩

/-- **C37** through `form` and `query_params`: for all types of fields, and whatever the body. -/
theorem C37_form {fields : List Field} {deny : Option (Str → Str)} (hd : Distinct fields)
    (urlParse : Bytes → List (Str × Str)) {i1 i2 : Iter} (h1 : Visits i1) (h2 : Visits i2) (q : Bytes)
    {es : List (Str × List Str)} (hk : KeysDistinct es)
    (hm : ∀ k vals, (k, vals) ∈ es ↔ vals = valuesOf (urlParse q) k ∧ vals ≠ []) (vs : List Val) :
    parseQueries urlParse i1 i2 (.struct fields deny) q = .ok (.ok (.struct vs)) ↔
      StructValue Means fields deny es vs := by
  obtain ⟨k1, m1⟩ := entries_spec h1 h2 (urlParse q)
  have hp := perm_of_mem k1 hk (fun ⟨k, vs⟩ => by rw [m1, hm])
  have conv : ∀ r : Res Decoded, r.toExcept = .ok (.ok (.struct vs)) ↔ r = .ok (.struct vs) := by
    intro r; cases r <;> simp [Res.toExcept]
  rw [parseQueries, conv, C36_struct hd hp k1]
  refine C37_struct hd hk (fun e he => ((hm e.1 e.2).1 he).2) (fun e he f _ _ => ?_) vs
  obtain ⟨h3, h4⟩ := (hm e.1 e.2).1 he
  exact ⟨h4, .inr (fun x hx => by rw [h3] at hx; exact valuesOf_ne hx)⟩

/-- **C37**, the parts of the claim: scalars are decoded from the first value, sequences of scalars
element by element, options are `Some` of the decoded value unless the first value is empty. -/
theorem C37_values (vals : List Str) (v : Val) :
    (∀ k, Means (.scalar k) vals v ↔ ∃ x, vals.head? = some x ∧ Written k x v) ∧
    (∀ k, Means (.seq (.scalar k)) vals v ↔
      ∃ vs, v = .list vs ∧ vals ≠ [] ∧ Each (fun x v => Written k x v) vals vs) ∧
    (∀ t, Means (.option t) vals v ↔ (vals.head? = some [] ∧ v = .none) ∨
      (vals.head? ≠ some [] ∧ ∃ v', v = .some v' ∧ Means t vals v')) ∧
    (∀ t, Means (.newtype t) vals v ↔ Means t vals v) := by
  refine ⟨fun k => ?_, fun k => ?_, fun t => ?_, fun t => ?_⟩
  · simp only [Means, Reads]
    constructor
    · rintro ⟨r, x, rfl, h⟩; exact ⟨x, rfl, h⟩
    · rintro ⟨x, h, h'⟩
      cases vals with
      | nil => simp at h
      | cons y ys => simp at h; subst h; exact ⟨ys, y, rfl, h'⟩
  · simp only [Means, reads_seq, readsAll_scalar]
    constructor
    · rintro ⟨r, _, vs, h1, h2, h3⟩; exact ⟨vs, h1, h2, h3⟩
    · rintro ⟨vs, h1, h2, h3⟩; exact ⟨[], rfl, vs, h1, h2, h3⟩
  · simp only [Means, Reads]
    constructor
    · rintro ⟨r, ⟨rfl, h⟩ | ⟨h, v', h', h''⟩⟩
      · exact .inl ⟨rfl, h⟩
      · exact .inr ⟨h, v', h', r, h''⟩
    · rintro (⟨h, h'⟩ | ⟨h, v', h', r, h''⟩)
      · cases vals with
        | nil => simp at h
        | cons y ys => simp at h; subst h; exact ⟨ys, .inl ⟨rfl, h'⟩⟩
      · exact ⟨r, .inr ⟨h, v', h', h''⟩⟩
  · simp only [Means, Reads]

/-- **C37**: a field that is required (no default, not an `Option`) and not given is an error. -/
theorem C37_missing {fields : List Field} {deny : Option (Str → Str)} (hd : Distinct fields)
    {es : List (Str × List Str)} (hk : KeysDistinct es) {f : Field} (hf : f ∈ fields)
    (hno : ∀ e ∈ es, f.has e.1 = false) (hdef : f.default = none) (hopt : ∀ t, f.ty ≠ .option t) (d : Decoded) :
    fromCowMap (.struct fields deny) es ≠ .ok d := by
  intro h
  have ⟨vs, hvs⟩ : ∃ vs, d = .struct vs := by
    obtain ⟨_, vs, _, _, rfl⟩ := fromCowMap_struct.1 h
    exact ⟨vs, rfl⟩
  subst hvs
  have h1 := ((decode_struct hd hk).1 h).1.1
  have : ∃ v, FieldValue Dec es f v := by
    clear h hd
    induction h1 with
    | nil => simp at hf
    | cons h _ ih =>
      rcases List.mem_cons.1 hf with rfl | hf
      · exact ⟨_, h⟩
      · exact ih hf
  obtain ⟨v, ⟨e, he, h2, _⟩ | ⟨_, h2 | ⟨_, ⟨t, h2⟩, _⟩⟩⟩ := this
  · rw [hno e he] at h2; simp at h2
  · rw [hdef] at h2; simp at h2
  · exact hopt t h2

example : parseQueries (fun _ => demoPairs.drop 1) forwards forwards (.struct demoFields none) [] =
    .ok (.error (.formError (.message (s "missing field `name`")))) := rfl

/-! ### C38, C54 -/

/-- **C38**: decoding a body or query never panics and ends, whatever the type. -/
theorem C38_form (urlParse : Bytes → List (Str × Str)) {i1 i2 : Iter} (h1 : Visits i1) (h2 : Visits i2)
    (shape : Shape) (q : Bytes) (c : Crash) : parseQueries urlParse i1 i2 shape q ≠ .error c := by
  intro h
  obtain ⟨k1, m1⟩ := entries_spec h1 h2 (urlParse q)
  rw [parseQueries] at h
  have hc : fromCowMap shape (i2 (cowMap (i1 (groupPairs (urlParse q))))) = .crash c := by
    cases hr : fromCowMap shape (i2 (cowMap (i1 (groupPairs (urlParse q))))) <;> rw [hr] at h <;>
      simp [Res.toExcept] at h
    rw [h]
  obtain ⟨e, he, h'⟩ := fromCowMap_crash hc
  obtain ⟨h3, h4⟩ := (m1 e.1 e.2).1 he
  have fits : ∀ t, Fits t e.2 := fun t => ⟨h4, .inr (fun x hx => by rw [h3] at hx; exact valuesOf_ne hx)⟩
  rcases h' with ⟨h', _⟩ | h'
  · exact h4 h'
  · cases shape with
    | struct fields deny =>
      obtain ⟨f, _, _, h'⟩ := h'
      exact (decode_spec f.ty e.2 (fits _)).1 c h'
    | map t => exact (decode_spec t e.2 (fits _)).1 c h'
    | string | keyed | number | other => exact h'

/-- **C38** at the interface: `query_params` and `form` return. -/
theorem C38_context (c : Context U) (urlParse : Bytes → List (Str × Str)) {i1 i2 : Iter} (h1 : Visits i1)
    (h2 : Visits i2) (shape : Shape) :
    (∃ r, c.queryParams (parseQueries urlParse i1 i2 shape) = .ok r) ∧
    (∃ r c', c.form (parseQueries urlParse i1 i2 shape) = .ok (r, c')) := by
  have key : ∀ q, ∃ r, parseQueries urlParse i1 i2 shape q = .ok r := by
    intro q
    cases h : parseQueries urlParse i1 i2 shape q with
    | ok r => exact ⟨r, rfl⟩
    | error e => exact absurd h (C38_form urlParse h1 h2 shape q e)
  refine ⟨key _, ?_⟩
  simp only [Context.form, Context.takeBody]
  cases c.request.body.aggregateChunk with
  | none => exact ⟨_, _, rfl⟩
  | some chunk =>
    obtain ⟨r, hr⟩ := key chunk
    exact ⟨r, _, by dsimp only; rw [hr]⟩

/-- **C38**: decoding always ends, for every map and every type. -/
theorem C38_terminates (shape : Shape) (es : List (Str × List Str)) :
    fromCowMap shape es ≠ .crash .diverges := by
  intro h
  obtain ⟨e, _, ⟨_, h'⟩ | h'⟩ := fromCowMap_crash h
  · simp at h'
  · cases shape with
    | struct fields deny =>
      obtain ⟨f, _, _, h'⟩ := h'
      exact (decode_shrinks f.ty e.2).1 h'
    | map t => exact (decode_shrinks t e.2).1 h'
    | string | keyed | number | other => exact h'

/-- **C54 fails**: `from_cow_map` panics on an empty list of values, even for a key that is ignored, and
on a sequence of optional values whose last value is empty (`xs=` as in the documented example, which
keeps empty values). -/
theorem C54_false :
    fromCowMap (.struct [⟨s "a", [], i32, none⟩] none) [(s "a", [])] = .crash .index ∧
    fromCowMap (.struct [] none) [(s "a", [])] = .crash .index ∧
    fromCowMap (.struct [⟨s "a", [], .seq (.option i32), none⟩] none) [(s "a", [[]])] = .crash .slice ∧
    fromCowMap (.map (.seq (.option string))) [(s "a", [s "x", []])] = .crash .slice :=
  ⟨rfl, rfl, rfl, rfl⟩

/-- **C54, what holds**, for every target: there is no panic if every key has a value and the values of
each key fit the type they are decoded to (`DecodedAs`), that is, none of them is empty or the type has no options
or units inside sequences and tuples; and none at all if the target is neither a struct nor a map.  Missing: the
other maps, for some of which the claim is false. -/
theorem C54_from_cow_map_partial {shape : Shape} {es : List (Str × List Str)}
    (hne : ∀ e ∈ es, ∀ t, DecodedAs shape e.1 t → Fits t e.2)
    (hu : ∀ fields deny, shape = .struct fields deny → ∀ e ∈ es, e.2 ≠ []) (c : Crash) :
    fromCowMap shape es ≠ .crash c := by
  intro h
  obtain ⟨e, he, h'⟩ := fromCowMap_crash h
  cases shape with
  | struct fields deny =>
    rcases h' with ⟨h', _⟩ | ⟨f, hf, hk, h'⟩
    · exact hu _ _ rfl e he h'
    · exact (decode_spec f.ty e.2 (hne e he _ ⟨f, hf, hk, rfl⟩)).1 c h'
  | map t =>
    have hf := hne e he t rfl
    rcases h' with ⟨h', _⟩ | h'
    · exact hf.1 h'
    · exact (decode_spec t e.2 hf).1 c h'
  | string =>
    cases es with
    | nil => cases he
    | cons x xs => simp [fromCowMap] at h
  | keyed r =>
    cases es with
    | nil => cases he
    | cons x xs => simp [fromCowMap] at h
  | number r =>
    cases es with
    | nil => cases he
    | cons x xs => simp [fromCowMap] at h
  | other r => simp [fromCowMap] at h

/-- By the theorem: a map of lists with empty values, and a `String` with a key that has no values. -/
example : (∀ c, fromCowMap (.map (.seq string)) [(s "a", [s "x", []]), (s "b", [[]])] ≠ .crash c) ∧
    ∀ c, fromCowMap .string [(s "a", [])] ≠ .crash c := by
  refine ⟨C54_from_cow_map_partial (fun e he t ht => ?_) (fun _ _ h => by cases h),
    C54_from_cow_map_partial (fun e he t ht => ht.elim) (fun _ _ h => by cases h)⟩
  rw [show t = .seq string from ht]
  simp only [List.mem_cons, List.not_mem_nil, or_false] at he
  rcases he with rfl | rfl <;> exact ⟨by simp, .inl rfl⟩

example : Fits (.option (.seq u8)) [[], s "1"] ∧ Fits (.seq (.option u8)) [s "1", s "2"] := by
  refine ⟨⟨by simp, .inl rfl⟩, ⟨by simp, .inr ?_⟩⟩
  decide +kernel

/-! ### C39 -/

/-- **C39 fails** for forms: of a body that arrives in two chunks only the first one is decoded. -/
theorem C39_false (c : Context U) (urlParse : Bytes → List (Str × Str))
    (h1 : urlParse (utf8 (s "a=1&b=2")) = [(s "a", s "1"), (s "b", s "2")])
    (h2 : urlParse (utf8 (s "a=1")) = [(s "a", s "1")]) :
    ∃ (whole split : Body) (shape : Shape), whole.bytes = split.bytes ∧ whole.fails = false ∧
      split.fails = false ∧
      (({ c with request := { c.request with body := whole } } : Context U).form
        (parseQueries urlParse forwards forwards shape)).map (·.1) = .ok (.ok (.struct [.int 1, .int 2])) ∧
      (({ c with request := { c.request with body := split } } : Context U).form
        (parseQueries urlParse forwards forwards shape)).map (·.1) =
        .ok (.error (.formError (.message (s "missing field `b`")))) := by
  refine ⟨⟨[utf8 (s "a=1&b=2")], false⟩, ⟨[utf8 (s "a=1"), utf8 (s "&b=2")], false⟩,
    .struct [⟨s "a", [], i32, none⟩, ⟨s "b", [], i32, none⟩] none, by decide +kernel, rfl, rfl, ?_, ?_⟩
  · have : Body.aggregateChunk ⟨[utf8 (s "a=1&b=2")], false⟩ = some (utf8 (s "a=1&b=2")) := by decide +kernel
    simp only [Context.form, Context.takeBody, this, parseQueries, h1]
    rfl
  · have : Body.aggregateChunk ⟨[utf8 (s "a=1"), utf8 (s "&b=2")], false⟩ = some (utf8 (s "a=1")) := by
      decide +kernel
    simp only [Context.form, Context.takeBody, this, parseQueries, h2]
    rfl

/-- **C39 fails** for JSON in the same way. -/
theorem C39_false_json {α : Type} (c : Context U) (fromSlice : Bytes → Except Str α) (a : α) (e : Str)
    (h1 : fromSlice (utf8 (s "[1,2]")) = .ok a) (h2 : fromSlice (utf8 (s "[1")) = .error e) :
    ∃ whole split : Body, whole.bytes = split.bytes ∧
      (({ c with request := { c.request with body := whole } } : Context U).json fromSlice).1 = .ok a ∧
      (({ c with request := { c.request with body := split } } : Context U).json fromSlice).1 =
        .error (.jsonError e) := by
  refine ⟨⟨[utf8 (s "[1,2]")], false⟩, ⟨[utf8 (s "[1"), utf8 (s ",2]")], false⟩, by decide +kernel, ?_, ?_⟩
  · have : Body.aggregateChunk ⟨[utf8 (s "[1,2]")], false⟩ = some (utf8 (s "[1,2]")) := by decide +kernel
    simp only [Context.json, Context.takeBody, this, h1]
  · have : Body.aggregateChunk ⟨[utf8 (s "[1"), utf8 (s ",2]")], false⟩ = some (utf8 (s "[1")) := by
      decide +kernel
    simp only [Context.json, Context.takeBody, this, h2]

theorem aggregate_single {b : Body} (hb : b.fails = false)
    (h : (b.chunks.filter (fun c => !c.isEmpty)).length ≤ 1) : b.aggregateChunk = some b.bytes := by
  rw [Body.aggregateChunk, hb, Body.bytes]
  simp only [Bool.false_eq_true, if_false, Option.some.injEq]
  generalize b.chunks = cs at h
  induction cs with
  | nil => rfl
  | cons c cs ih =>
    cases c with
    | nil => simpa using ih (by simpa using h)
    | cons x c =>
      have : ∀ d ∈ cs, d = [] := by
        intro d hd
        have h' : (cs.filter (fun c => !c.isEmpty)).length = 0 := by simp at h ⊢; simpa using h
        have := List.filter_eq_nil_iff.1 (List.length_eq_zero_iff.1 h') d hd
        simpa using this
      have : cs.flatten = [] := List.flatten_eq_nil_iff.2 this
      simp [this]

/-- **C39, what holds**: a body that arrives in at most one non-empty chunk is decoded as a whole, and a
body that cannot be read is an error. Missing: bodies in several chunks, where the claim is false. -/
theorem C39_single_chunk_partial {α : Type} (c : Context U) :
    (∀ parse : Bytes → Except Crash (Except ObsidianError α),
      (c.request.body.fails = true → (c.form parse).map (·.1) = .ok (.error .noneError)) ∧
      (c.request.body.fails = false →
        (c.request.body.chunks.filter (fun c => !c.isEmpty)).length ≤ 1 →
        (c.form parse).map (·.1) = parse c.request.body.bytes)) ∧
    (∀ fromSlice : Bytes → Except Str α,
      (c.request.body.fails = true → (c.json fromSlice).1 = .error .noneError) ∧
      (c.request.body.fails = false →
        (c.request.body.chunks.filter (fun c => !c.isEmpty)).length ≤ 1 →
        (c.json fromSlice).1 = (fromSlice c.request.body.bytes).mapError .jsonError)) := by
  have bad : c.request.body.fails = true → c.request.body.aggregateChunk = none := by
    intro h; rw [Body.aggregateChunk, h]; rfl
  refine ⟨fun parse => ⟨fun h => ?_, fun h h' => ?_⟩, fun fromSlice => ⟨fun h => ?_, fun h h' => ?_⟩⟩
  · simp only [Context.form, Context.takeBody, bad h]; rfl
  · simp only [Context.form, Context.takeBody, aggregate_single h h']
    cases parse c.request.body.bytes <;> rfl
  · simp only [Context.json, Context.takeBody, bad h]
  · simp only [Context.json, Context.takeBody, aggregate_single h h']
    cases fromSlice c.request.body.bytes <;> rfl

example : ([[], utf8 (s "a=1"), []].filter (fun c : Bytes => !c.isEmpty)).length ≤ 1 := by decide +kernel

/-! ### C40 -/

/-- **C40 fails**: an empty value ends the sequence too early, or skips a value; through `form` and
`query_params`, empty values are dropped. -/
theorem C40_false :
    fromCowMap (.map (.seq (.option string))) [(s "a", [[], s "x"])] =
      .ok (.map ⟨[(s "a", .list [.none])]⟩) ∧
    fromCowMap (.map (.seq (.option string))) [(s "a", [[], s "x", s "y"])] =
      .ok (.map ⟨[(s "a", .list [.none, .some (.str (s "y"))])]⟩) ∧
    parseQueries (fun _ => [(s "a", s "x"), (s "a", []), (s "a", s "y")]) forwards forwards
      (.map (.seq (.option string))) [] =
      .ok (.ok (.map ⟨[(s "a", .list [.some (.str (s "x")), .some (.str (s "y"))])]⟩)) :=
  ⟨rfl, rfl, rfl⟩

theorem options_non_empty (k : Scalar) {xs : List Str} (hne : xs ≠ []) (hx : ∀ x ∈ xs, x ≠ []) (v : Val) :
    Dec (.seq (.option (.scalar k))) xs v ↔
      ∃ vs, v = .list vs ∧ Each (fun x v => ∃ v', v = .some v' ∧ Written k x v') xs vs := by
  rw [Dec, (decode_spec _ xs ⟨hne, .inr hx⟩).2]
  simp only [Reads]
  have key : ∀ vs, ReadsAll (Reads (.option (.scalar k))) xs vs ↔
      Each (fun x v => ∃ v', v = .some v' ∧ Written k x v') xs vs := by
    intro vs
    constructor
    · intro h
      induction h with
      | @last xs v h =>
        rw [Reads] at h
        rcases h with ⟨rfl, _⟩ | ⟨_, v', h1, h2⟩
        · exact absurd rfl (hx [] (by simp))
        · rw [Reads] at h2
          obtain ⟨x, rfl, h2⟩ := h2
          exact .cons ⟨v', h1, h2⟩ .nil
      | @more xs v r vs h h' ih =>
        rw [Reads] at h
        rcases h with ⟨rfl, _⟩ | ⟨_, v', h1, h2⟩
        · exact absurd rfl (hx [] (by simp))
        · rw [Reads] at h2
          obtain ⟨x, rfl, h2⟩ := h2
          have hr : r ≠ [] := by
            rintro rfl
            cases h' with
            | last h => exact not_reads_nil _ _ _ h
            | more h _ => exact not_reads_nil _ _ _ h
          exact .cons ⟨v', h1, h2⟩ (ih hr (fun y hy => hx y (by simp [hy])))
    · intro h
      induction h with
      | nil => exact absurd rfl hne
      | @cons x v xs vs h h' ih =>
        obtain ⟨v', h1, h2⟩ := h
        have hr : ∀ r, Reads (.option (.scalar k)) (x :: r) v r := by
          intro r
          rw [Reads]
          refine .inr ⟨by simpa using hx x (by simp), v', h1, ?_⟩
          rw [Reads]; exact ⟨x, rfl, h2⟩
        cases h' with
        | nil => exact .last (hr [])
        | cons h3 h4 => exact .more (hr _) (ih (by simp) (fun y hy => hx y (by simp [hy])))
  constructor
  · rintro ⟨r, _, vs, h1, h2⟩; exact ⟨vs, h1, (key vs).1 h2⟩
  · rintro ⟨vs, h1, h2⟩; exact ⟨[], rfl, vs, h1, (key vs).2 h2⟩

theorem one_field {ty : Ty} {name x : Str} {xs : List Str} {v : Val} :
    fromCowMap (.struct [⟨name, [], ty, none⟩] none) [(name, x :: xs)] = .ok (.struct [v]) ↔ Dec ty (x :: xs) v := by
  rw [fromCowMap, structLoop_cons]
  simp only [List.map_cons, List.map_nil, putField_cons]
  have : Field.has ⟨name, [], ty, none⟩ name = true := by simp [Field.has]
  rw [if_pos this, Dec]
  cases decode ty (x :: xs) with
  | ok p => obtain ⟨a, b⟩ := p; simp [structLoop, finishFields, Res.bind]
  | err e => simp
  | crash e => simp

/-- **C40, what holds**: a field of type `Vec<Option<T>>` gets one `Some` for each of its values, if none of
them is empty. Missing: empty values, where the claim is false. -/
theorem C40_non_empty_partial (k : Scalar) (name : Str) {xs : List Str} (hne : xs ≠ []) (hx : ∀ x ∈ xs, x ≠ []) (v : Val) :
    fromCowMap (.struct [⟨name, [], .seq (.option (.scalar k)), none⟩] none) [(name, xs)] = .ok (.struct [v]) ↔
      ∃ vs, v = .list vs ∧ Each (fun x v => ∃ v', v = .some v' ∧ Written k x v') xs vs := by
  cases xs with
  | nil => exact absurd rfl hne
  | cons x xs => exact one_field.trans (options_non_empty k hne hx v)

example : fromCowMap (.struct [⟨s "n", [], .seq (.option u8), none⟩] none) [(s "n", [s "1", s "255"])] =
    .ok (.struct [.list [.some (.int 1), .some (.int 255)]]) :=
  (C40_non_empty_partial _ _ (by simp) (by decide +kernel) _).2
    ⟨_, rfl, .cons ⟨_, rfl, parse_ok.1 rfl⟩ (.cons ⟨_, rfl, parse_ok.1 rfl⟩ .nil)⟩

/-! ### C41 -/

theorem int_field {signed : Bool} {bits : Nat} {name x : Str} {xs : List Str} :
    fromCowMap (.struct [⟨name, [], .scalar (.int signed bits), none⟩] none) [(name, x :: xs)] =
      match parseInt signed bits x with
      | .ok i => .ok (.struct [.int i])
      | .error m => .err (.message m) := by
  rw [fromCowMap, structLoop_cons]
  simp only [List.map_cons, List.map_nil, putField_cons]
  have : Field.has ⟨name, [], .scalar (.int signed bits), none⟩ name = true := by simp [Field.has]
  rw [if_pos this]
  simp only [decode, decodeScalar, Scalar.parse]
  cases parseInt signed bits x <;> rfl

/-- **C41**: an integer field is decoded exactly: the result is the number written by the first value,
if that is a decimal number in the range of the type; otherwise there is an error. -/
theorem C41_integers (signed : Bool) (bits : Nat) (name x : Str) (xs : List Str) :
    let r := fromCowMap (.struct [⟨name, [], .scalar (.int signed bits), none⟩] none) [(name, x :: xs)]
    (∀ i, Denotes signed x i → IntRange signed bits i → r = .ok (.struct [.int i])) ∧
    ((¬ ∃ i, Denotes signed x i ∧ IntRange signed bits i) → ∃ e, r = .err e) ∧
    (∀ d, r = .ok d → ∃ i, Denotes signed x i ∧ IntRange signed bits i ∧ d = .struct [.int i]) := by
  dsimp only
  rw [int_field]
  refine ⟨fun i h1 h2 => ?_, fun h => ?_, fun d h => ?_⟩
  · rw [parseInt_ok.2 ⟨h1, inRange_iff.2 h2⟩]
  · cases hp : parseInt signed bits x with
    | ok i =>
      obtain ⟨h1, h2⟩ := parseInt_ok.1 hp
      exact absurd ⟨i, h1, inRange_iff.1 h2⟩ h
    | error m => exact ⟨_, rfl⟩
  · cases hp : parseInt signed bits x with
    | ok i =>
      rw [hp] at h
      injection h with h
      obtain ⟨h1, h2⟩ := parseInt_ok.1 hp
      exact ⟨i, h1, inRange_iff.1 h2, h.symm⟩
    | error m => rw [hp] at h; exact nomatch h

theorem isDigit_range {c : Char} (h : c.isDigit = true) : '0' ≤ c ∧ c ≤ '9' := by
  simp [Char.isDigit] at h
  exact h

theorem number_toDigits (n : Nat) : number (Nat.toDigits 10 n) = n := by
  have h := Nat.ofDigitChars_ten_toDigits (n := n)
  rw [Nat.ofDigitChars_eq_foldl] at h
  exact h

theorem toDigits_denotes (n : Nat) : ∀ c ∈ Nat.toDigits 10 n, '0' ≤ c ∧ c ≤ '9' := fun _ hc =>
  isDigit_range (Nat.isDigit_of_mem_toDigits (by decide) (by decide) hc)

/-- **C41**, round trip: the decimal rendering of an integer in the range is decoded to it. -/
theorem C41_round_trip (signed : Bool) (bits : Nat) (name : Str) (xs : List Str) (i : Int)
    (h : IntRange signed bits i) :
    fromCowMap (.struct [⟨name, [], .scalar (.int signed bits), none⟩] none)
      [(name, (toString i).toList :: xs)] = .ok (.struct [.int i]) := by
  refine (C41_integers signed bits name _ xs).1 i ?_ h
  cases i with
  | ofNat n =>
    refine ⟨Nat.toDigits 10 n, Nat.toDigits_ne_nil, toDigits_denotes n, .inl ⟨?_, ?_⟩⟩
    · show (Nat.repr n).toList = _
      exact Nat.toList_repr
    · rw [number_toDigits]; rfl
  | negSucc n =>
    have hs : signed = true := by
      cases signed with
      | true => rfl
      | false => simp [IntRange] at h
    refine ⟨Nat.toDigits 10 (n + 1), Nat.toDigits_ne_nil, toDigits_denotes _, .inr (.inr ⟨hs, ?_, ?_⟩)⟩
    · show ("-" ++ Nat.repr (n + 1)).toList = _
      rw [String.toList_append, Nat.toList_repr]; rfl
    · rw [number_toDigits]; rfl

example : IntRange true 32 (-2147483648) ∧ ¬ IntRange true 32 2147483648 ∧ IntRange false 64 18446744073709551615 := by
  simp [IntRange]

example : ¬ ∃ i, Denotes false (s "-1") i ∧ IntRange false 8 i := by
  rintro ⟨i, ⟨ds, _, hd, ⟨h, _⟩ | ⟨h, _⟩ | ⟨h, _⟩⟩, _⟩
  · exact absurd (hd '-' (h ▸ by decide +kernel)) (by decide)
  · exact absurd (congrArg List.head? h) (by simp only [List.head?_cons]; decide +kernel)
  · exact nomatch h

end Obsidian.Props
