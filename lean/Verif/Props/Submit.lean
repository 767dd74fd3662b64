import Verif.Spec.Answers
import Verif.Props.UrlEncoded
import Verif.Spec.Submit

/- What clients submit is what handlers get: C67 (round trip), C68 (nothing is ignored), C69 (empty
texts), C70 (enums and nested structs), C71 (other maps and types). -/
namespace Obsidian.Props
open Obsidian Spec
variable {U : Univ}

/-! ### C67 -/

mutual
theorem item_reads : ∀ {t : Ty} {v : Val} {ys : List Str}, Item t v ys →
    ys ≠ [] ∧ (∀ y ∈ ys, y ≠ []) ∧ ∀ zs, Reads t (ys ++ zs) v zs
  | .scalar k, v, ys, h => by
    rw [Item] at h
    obtain ⟨x, h1, rfl, h2⟩ := h
    refine ⟨by simp, by simpa using h1, fun zs => ?_⟩
    rw [Reads]; exact ⟨x, rfl, h2⟩
  | .newtype t, v, ys, h => by
    rw [Item] at h
    obtain ⟨h1, h2, h3⟩ := item_reads h
    exact ⟨h1, h2, fun zs => by rw [Reads]; exact h3 zs⟩
  | .tuple e ts, v, ys, h => by
    rw [Item] at h
    obtain ⟨h1, vs, rfl, h2⟩ := h
    obtain ⟨h3, h4, h5⟩ := items_reads h2
    exact ⟨h3 h1, h4, fun zs => by rw [Reads]; exact ⟨vs, rfl, .inr ⟨h1, h5 zs⟩⟩⟩
  | .unit, _, _, h => by rw [Item] at h; exact h.elim
  | .option _, _, _, h => by rw [Item] at h; exact h.elim
  | .seq _, _, _, h => by rw [Item] at h; exact h.elim
  | .fails _, _, _, h => by rw [Item] at h; exact h.elim
theorem items_reads : ∀ {ts : List Ty} {vs : List Val} {ys : List Str}, Items ts vs ys →
    (ts ≠ [] → ys ≠ []) ∧ (∀ y ∈ ys, y ≠ []) ∧ ∀ zs, ReadsEach ts (ys ++ zs) vs zs
  | [], vs, ys, h => by
    rw [Items] at h
    obtain ⟨rfl, rfl⟩ := h
    exact ⟨by simp, by simp, fun zs => by rw [ReadsEach]; exact ⟨rfl, rfl⟩⟩
  | t :: ts, vs, ys, h => by
    rw [Items] at h
    obtain ⟨v, vs', y1, y2, rfl, rfl, h1, h2⟩ := h
    obtain ⟨a1, a2, a3⟩ := item_reads h1
    obtain ⟨b1, b2, b3⟩ := items_reads h2
    refine ⟨fun _ => by simp [a1], fun y hy => ?_, fun zs => ?_⟩
    · rcases List.mem_append.1 hy with hy | hy
      · exact a2 y hy
      · exact b2 y hy
    · rw [ReadsEach]
      exact ⟨v, vs', y2 ++ zs, rfl, by rw [List.append_assoc]; exact a3 _, b3 zs⟩
end

theorem rows_reads {t : Ty} {vs : List Val} {ys : List Str} (h : Rows (Item t) vs ys) :
    (vs ≠ [] → ys ≠ [] ∧ ReadsAll (Reads t) ys vs) ∧ ∀ y ∈ ys, y ≠ [] := by
  induction h with
  | nil => exact ⟨fun h => absurd rfl h, by simp⟩
  | @cons v vs ys zs h h' ih =>
    obtain ⟨a1, a2, a3⟩ := item_reads h
    refine ⟨fun _ => ⟨by simp [a1], ?_⟩, fun y hy => ?_⟩
    · cases vs with
      | nil =>
        cases h'
        rw [List.append_nil]
        have := a3 []
        rw [List.append_nil] at this
        exact .last this
      | cons v' vs' => exact .more (a3 zs) (ih.1 (by simp)).2
    · rcases List.mem_append.1 hy with hy | hy
      · exact a2 y hy
      · exact ih.2 y hy

theorem sent_ne : ∀ {t : Ty} {v : Val} {xs : List Str}, SentAs t v xs → ∀ x ∈ xs, x ≠ []
  | .scalar k, v, xs, h => by rw [SentAs] at h; exact (item_reads h).2.1
  | .tuple e ts, v, xs, h => by rw [SentAs] at h; exact (item_reads h).2.1
  | .newtype t, v, xs, h => by rw [SentAs] at h; exact sent_ne h.2
  | .option t, v, xs, h => by
    rw [SentAs] at h
    rcases h with ⟨_, rfl⟩ | ⟨v', _, _, h⟩
    · simp
    · exact sent_ne h
  | .seq t, v, xs, h => by
    rw [SentAs] at h
    obtain ⟨vs, _, _, h⟩ := h
    exact (rows_reads h).2
  | .unit, _, _, h => by rw [SentAs] at h; exact h.elim
  | .fails _, _, _, h => by rw [SentAs] at h; exact h.elim

theorem sent_means : ∀ {t : Ty} {v : Val} {xs : List Str}, SentAs t v xs → xs ≠ [] → Reads t xs v []
  | .scalar k, v, xs, h, _ => by
    rw [SentAs] at h; have := (item_reads h).2.2 []; rwa [List.append_nil] at this
  | .tuple e ts, v, xs, h, _ => by
    rw [SentAs] at h; have := (item_reads h).2.2 []; rwa [List.append_nil] at this
  | .newtype t, v, xs, h, hx => by rw [SentAs] at h; rw [Reads]; exact sent_means h.2 hx
  | .option t, v, xs, h, hx => by
    rw [SentAs] at h
    rcases h with ⟨_, h⟩ | ⟨v', rfl, _, h⟩
    · exact absurd h hx
    · rw [Reads]
      refine .inr ⟨fun hh => ?_, v', rfl, sent_means h hx⟩
      cases xs with
      | nil => simp at hh
      | cons x xs => simp at hh; exact sent_ne h x (by simp) hh
  | .seq t, v, xs, h, hx => by
    rw [SentAs] at h
    obtain ⟨vs, rfl, hn, h⟩ := h
    rw [Reads]; exact ⟨rfl, vs, rfl, ((rows_reads h).1 hn).2⟩
  | .unit, _, _, h, _ => by rw [SentAs] at h; exact h.elim
  | .fails _, _, _, h, _ => by rw [SentAs] at h; exact h.elim

theorem sent_nothing : ∀ {t : Ty} {v : Val}, SentAs t v [] → v = .none ∧ ∃ t', t = .option t'
  | .scalar k, v, h => by rw [SentAs] at h; exact absurd rfl (item_reads h).1
  | .tuple e ts, v, h => by rw [SentAs] at h; exact absurd rfl (item_reads h).1
  | .newtype t, v, h => by rw [SentAs] at h; exact absurd rfl h.1
  | .option t, v, h => by
    rw [SentAs] at h
    rcases h with ⟨rfl, _⟩ | ⟨_, _, h, _⟩
    · exact ⟨rfl, t, rfl⟩
    · exact absurd rfl h
  | .seq t, v, h => by
    rw [SentAs] at h
    obtain ⟨vs, rfl, hn, h⟩ := h
    exact absurd rfl ((rows_reads h).1 hn).1
  | .unit, _, h => by rw [SentAs] at h; exact h.elim
  | .fails _, _, h => by rw [SentAs] at h; exact h.elim

theorem valuesOf_all {pairs : List (Str × Str)} {k : Str} (h : ∀ x ∈ allValues pairs k, x ≠ []) :
    valuesOf pairs k = allValues pairs k := by
  induction pairs with
  | nil => rfl
  | cons p ps ih =>
    simp only [valuesOf, allValues, List.filterMap_cons, List.filter_cons] at ih h ⊢
    by_cases hk : p.1 = k
    · simp only [hk, decide_true, if_true, List.map_cons, List.mem_cons, forall_eq_or_imp] at h ⊢
      simp only [h.1, true_and, ne_eq, not_false_eq_true, if_true]
      rw [ih h.2]
    · simp only [hk, decide_false, false_and, if_false] at h ⊢
      exact ih h

theorem valuesOf_nothing {pairs : List (Str × Str)} {k : Str} (h : allValues pairs k = []) :
    valuesOf pairs k = [] := by rw [valuesOf_all (by rw [h]; simp), h]

theorem allValues_key {pairs : List (Str × Str)} {k : Str} (h : allValues pairs k ≠ []) :
    ∃ p ∈ pairs, p.1 = k := by
  rw [allValues, ne_eq, List.map_eq_nil_iff, List.filter_eq_nil_iff] at h
  refine Classical.byContradiction fun hn => h fun p hp hk => hn ⟨p, hp, by simpa using hk⟩

theorem valuesOf_key {pairs : List (Str × Str)} {k : Str} (h : valuesOf pairs k ≠ []) :
    ∃ p ∈ pairs, p.1 = k := allValues_key fun h' => h (valuesOf_nothing h')

/-- A submitted struct is decoded to itself. -/
theorem submits_value {fields : List Field} {deny : Option (Str → Str)} {vs : List Val}
    {pairs : List (Str × Str)} (hs : Submits fields vs pairs)
    (hu : deny = none ∨ ∀ p ∈ pairs, ∃ f ∈ fields, p.1 = f.name)
    {es : List (Str × List Str)} (hm : ∀ k vals, (k, vals) ∈ es ↔ vals = valuesOf pairs k ∧ vals ≠ []) :
    StructValue Means fields deny es vs := by
  refine ⟨?_, fun e he => ?_⟩
  · clear hu
    induction hs with
    | nil => exact .nil
    | @cons f v fs vs h _ ih =>
      refine .cons ?_ ih
      obtain ⟨h1, h2, h3⟩ := h
      have hval := valuesOf_all (sent_ne h1)
      have alias : ∀ e ∈ es, f.has e.1 = true → e.1 = f.name := by
        intro e he hk
        obtain ⟨e1, e2⟩ := (hm e.1 e.2).1 he
        rcases (C37_names f e.1).1 hk with h | h
        · exact h
        · refine Classical.byContradiction fun hn => ?_
          have := valuesOf_nothing (h2 e.1 h hn)
          rw [this] at e1
          exact e2 e1
      by_cases hx : allValues pairs f.name = []
      · obtain ⟨rfl, t, ht⟩ := sent_nothing (by rw [hx] at h1; exact h1)
        refine .inr ⟨fun e he => ?_, ?_⟩
        · cases hk : f.has e.1 with
          | false => rfl
          | true =>
            have := alias e he hk
            obtain ⟨e1, e2⟩ := (hm e.1 e.2).1 he
            rw [this, hval, hx] at e1
            exact absurd e1 e2
        · rcases h3 hx with h | h
          · exact .inr ⟨h, ⟨t, ht⟩, rfl⟩
          · exact .inl h
      · refine .inl ⟨(f.name, allValues pairs f.name), (hm _ _).2 ⟨hval.symm, hx⟩, (C37_names f _).2 (.inl rfl),
          fun e he hk => ?_, [], sent_means h1 hx⟩
        have h4 := alias e he hk
        obtain ⟨e1, e2⟩ := (hm e.1 e.2).1 he
        rw [h4, hval] at e1
        exact Prod.ext h4 e1
  · rcases hu with h | h
    · exact .inr h
    · obtain ⟨e1, e2⟩ := (hm e.1 e.2).1 he
      obtain ⟨p, hp, hk⟩ := valuesOf_key (k := e.1) (by rw [← e1]; exact e2)
      obtain ⟨f, hf, hn⟩ := h p hp
      exact .inl ⟨f, hf, (C37_names f _).2 (.inl (hk.symm.trans hn))⟩

/-- **C67, what holds**: the struct that a client submits, in any url-encoded writing, is the struct that
the handler gets, for all fields of scalar, tuple, list and optional types and all values but empty texts
and empty lists, whatever the order of iteration. Missing: empty texts and lists, `Some(None)`, units;
enums and nested structs (see C70). -/
theorem C67_round_trip_partial {fields : List Field} {deny : Option (Str → Str)} (hd : Distinct fields)
    (repair : Bytes → Str) {i1 i2 : Iter} (h1 : Visits i1) (h2 : Visits i2)
    {vs : List Val} {pairs : List (Str × Str)} (hs : Submits fields vs pairs)
    (hu : deny = none ∨ ∀ p ∈ pairs, ∃ f ∈ fields, p.1 = f.name) (c : Context U) :
    (∀ query, c.request.query = some query → WritesForm pairs (utf8 query) →
      c.queryParams (parseQueries (urlParse repair) i1 i2 (.struct fields deny)) = .ok (.ok (.struct vs))) ∧
    (WritesForm pairs c.request.body.bytes → c.request.body.fails = false →
      (c.request.body.chunks.filter (fun c => !c.isEmpty)).length ≤ 1 →
      (c.form (parseQueries (urlParse repair) i1 i2 (.struct fields deny))).map (·.1) =
        .ok (.ok (.struct vs))) := by
  have key : ∀ q, WritesForm pairs q →
      parseQueries (urlParse repair) i1 i2 (.struct fields deny) q = .ok (.ok (.struct vs)) := by
    intro q hw
    obtain ⟨k1, m1⟩ := entries_spec h1 h2 pairs
    exact (C62_struct hd repair h1 h2 hw k1 m1 vs).2 (submits_value hs hu m1)
  refine ⟨fun query hq hw => ?_, fun hw hf hc => ?_⟩
  · rw [Context.queryParams, hq]; exact key _ hw
  · rw [((C39_single_chunk_partial c).1 _).2 hf hc]; exact key _ hw

/-- A submitted form with all kinds of fields. -/
example (repair : Bytes → Str) {q : Bytes}
    (hw : WritesForm [(s "name", s "bob & co"), (s "tags", s "x"), (s "tags", s "y"), (s "level", s "-7")] q) :
    parseQueries (urlParse repair) forwards backwards (.struct demoFields none) q =
      .ok (.ok (.struct [.str (s "bob & co"), .list [.str (s "x"), .str (s "y")], .none, .int (-7)])) := by
  obtain ⟨k1, m1⟩ := entries_spec forwards_visits backwards_visits
    [(s "name", s "bob & co"), (s "tags", s "x"), (s "tags", s "y"), (s "level", s "-7")]
  refine (C62_struct demoFields_distinct repair forwards_visits backwards_visits hw k1 m1 _).2
    (submits_value ?_ (.inl rfl) m1)
  have e1 : ∀ k, allValues [(s "name", s "bob & co"), (s "tags", s "x"), (s "tags", s "y"), (s "level", s "-7")] k =
      if k = s "name" then [s "bob & co"] else if k = s "tags" then [s "x", s "y"] else
      if k = s "level" then [s "-7"] else [] := by
    intro k
    simp only [allValues, List.filter_cons, List.filter_nil]
    by_cases h1 : k = s "name"
    · subst h1; decide +kernel
    by_cases h2 : k = s "tags"
    · subst h2; decide +kernel
    by_cases h3 : k = s "level"
    · subst h3; decide +kernel
    simp [h1, h2, h3, Ne.symm h1, Ne.symm h2, Ne.symm h3]
  refine .cons ⟨?_, nofun, ?_⟩ (.cons ⟨?_, ?_, ?_⟩ (.cons ⟨?_, nofun, ?_⟩ (.cons ⟨?_, nofun, ?_⟩ .nil)))
  · rw [e1, if_pos rfl]; simp only [SentAs, Item]; exact ⟨_, by decide +kernel, rfl, rfl⟩
  · exact fun _ => .inl rfl
  · rw [e1, if_neg (by decide +kernel), if_pos rfl]; simp only [SentAs, Item]
    exact ⟨_, rfl, by simp, .cons (ys := [s "x"]) ⟨_, by decide +kernel, rfl, rfl⟩
      (.cons (ys := [s "y"]) (zs := []) ⟨_, by decide +kernel, rfl, rfl⟩ .nil)⟩
  · intro a ha _
    simp only [List.mem_singleton] at ha
    rw [e1, ha]; decide +kernel
  · exact fun _ => .inl rfl
  · rw [e1, if_neg (by decide +kernel), if_neg (by decide +kernel), if_neg (by decide +kernel)]
    simp only [SentAs]; exact .inl ⟨trivial, trivial⟩
  · exact fun _ => .inl rfl
  · rw [e1, if_neg (by decide +kernel), if_neg (by decide +kernel), if_pos rfl]; simp only [SentAs, Item]
    refine ⟨_, by decide +kernel, rfl, -7, rfl, ⟨s "7", by decide +kernel, by decide +kernel, .inr (.inr ?_)⟩, ?_⟩
    · decide +kernel
    · rw [IntRange]; decide
  · rw [e1]; decide +kernel

theorem parseQueries_writes (repair : Bytes → Str) (i1 i2 : Iter) (shape : Shape) {pairs : List (Str × Str)}
    {q : Bytes} (hw : WritesForm pairs q) :
    parseQueries (urlParse repair) i1 i2 shape q = parseQueries (fun _ => pairs) i1 i2 shape [] := by
  rw [parseQueries, urlParse_writes repair hw, parseQueries]

/-- **C67 fails**: an empty text is not received, nor is an empty list. -/
theorem C67_false (repair : Bytes → Str) (q : Bytes) :
    (WritesForm [(s "name", [])] q →
      parseQueries (urlParse repair) forwards forwards (.struct [⟨s "name", [], string, none⟩] none) q =
        .ok (.error (.formError (.message (s "missing field `name`"))))) ∧
    (WritesForm [] q →
      parseQueries (urlParse repair) forwards forwards (.struct [⟨s "tags", [], .seq string, none⟩] none) q =
        .ok (.error (.formError (.message (s "missing field `tags`"))))) := by
  refine ⟨fun h => ?_, fun h => ?_⟩ <;> rw [parseQueries_writes repair _ _ _ h] <;> rfl

example : WritesForm [(s "name", [])] (hexForm [(s "name", [])]) := hexForm_writes _

/-! ### C68 -/

/-- `(i32, i32)`. -/
abbrev pairTy : Ty := .tuple (s "a tuple of size 2") [i32, i32]

/-- **C68 fails**: the second value of a number, the third value of a pair and all but the first character
of a `char` are ignored. -/
theorem C68_false (repair : Bytes → Str) (q : Bytes) :
    (WritesForm [(s "id", s "1"), (s "id", s "2")] q →
      parseQueries (urlParse repair) forwards forwards (.struct [⟨s "id", [], i32, none⟩] none) q =
        .ok (.ok (.struct [.int 1]))) ∧
    (WritesForm [(s "p", s "1"), (s "p", s "2"), (s "p", s "x")] q →
      parseQueries (urlParse repair) forwards forwards (.struct [⟨s "p", [], pairTy, none⟩] none) q =
        .ok (.ok (.struct [.list [.int 1, .int 2]]))) ∧
    (WritesForm [(s "c", s "abc")] q →
      parseQueries (urlParse repair) forwards forwards (.struct [⟨s "c", [], .scalar .char, none⟩] none) q =
        .ok (.ok (.struct [.char 'a']))) := by
  refine ⟨fun h => ?_, fun h => ?_, fun h => ?_⟩ <;> rw [parseQueries_writes repair _ _ _ h] <;> rfl

/-- **C68, what holds**: if decoding succeeds, then lists have one element for each non-empty value, fields
that are given once have this value, no field was given under two names, and if unknown fields are denied,
there are none. Missing: fields with more values than they can hold, where the claim is false. -/
theorem C68_all_values_partial {fields : List Field} {deny : Option (Str → Str)} (hd : Distinct fields)
    (urlParse : Bytes → List (Str × Str)) {i1 i2 : Iter} (h1 : Visits i1) (h2 : Visits i2) (q : Bytes)
    {vs : List Val} (h : parseQueries urlParse i1 i2 (.struct fields deny) q = .ok (.ok (.struct vs))) :
    Each (fun f v =>
      (∀ key, key = f.name ∨ key ∈ f.aliases → valuesOf (urlParse q) key ≠ [] →
        (∀ k, f.ty = .seq (.scalar k) →
          ∃ ws, v = .list ws ∧ Each (fun x w => Written k x w) (valuesOf (urlParse q) key) ws) ∧
        (∀ k x, f.ty = .scalar k → valuesOf (urlParse q) key = [x] → Written k x v) ∧
        ∀ key', key' = f.name ∨ key' ∈ f.aliases → valuesOf (urlParse q) key' ≠ [] → key' = key)) fields vs ∧
    (deny ≠ none → ∀ p ∈ urlParse q, p.2 ≠ [] → ∃ f ∈ fields, p.1 = f.name ∨ p.1 ∈ f.aliases) := by
  obtain ⟨k1, m1⟩ := entries_spec h1 h2 (urlParse q)
  obtain ⟨e1, e2⟩ := (C37_form hd urlParse h1 h2 q k1 m1 vs).1 h
  refine ⟨e1.imp fun f _ v hv key hk hne => ?_, fun hdeny p hp hne => ?_⟩
  · have he := (m1 key _).2 ⟨rfl, hne⟩
    have hk' := (C37_names f key).2 hk
    rcases hv with ⟨e, _, _, hu, hm⟩ | ⟨hno, _⟩
    · have hee := hu _ he hk'
      subst hee
      refine ⟨fun k ht => ?_, fun k x ht hx => ?_, fun key' hk2 hn2 => ?_⟩
      · rw [ht] at hm
        obtain ⟨ws, h1, _, h2⟩ := ((C37_values _ v).2.1 k).1 hm
        exact ⟨ws, h1, h2⟩
      · rw [ht, hx] at hm
        obtain ⟨y, h1, h2⟩ := ((C37_values _ v).1 k).1 hm
        simp at h1; subst h1; exact h2
      · exact congrArg Prod.fst (hu _ ((m1 key' _).2 ⟨rfl, hn2⟩) ((C37_names f key').2 hk2))
    · have := hno _ he
      simp only [hk'] at this
      exact absurd this (by simp)
  · have hv : p.2 ∈ valuesOf (urlParse q) p.1 := by
      rw [valuesOf, List.mem_filterMap]
      exact ⟨p, hp, by simp [hne]⟩
    rcases e2 _ ((m1 p.1 _).2 ⟨rfl, List.ne_nil_of_mem hv⟩) with ⟨f, hf, hk⟩ | hd'
    · exact ⟨f, hf, (C37_names f _).1 hk⟩
    · exact absurd hd' hdeny

/-- The theorem applies to the demo form. -/
example : parseQueries (fun _ => demoPairs) forwards backwards (.struct demoFields none) [] =
    .ok (.ok (.struct [.str (s "bob"), .list [.str (s "x"), .str (s "y")], .none, .int (-7)])) := rfl

/-! ### C69 -/

/-- **C69 fails**: an empty text is an error for a `String` and is missing from a map. -/
theorem C69_false (repair : Bytes → Str) (q : Bytes) (hw : WritesForm [(s "name", [])] q) :
    parseQueries (urlParse repair) forwards forwards (.struct [⟨s "name", [], string, none⟩] none) q =
      .ok (.error (.formError (.message (s "missing field `name`")))) ∧
    parseQueries (urlParse repair) forwards forwards (.map string) q = .ok (.ok (.map HMap.empty)) := by
  rw [parseQueries_writes repair _ _ _ hw, parseQueries_writes repair _ _ _ hw]
  exact ⟨rfl, rfl⟩

theorem valuesOf_filter (pairs : List (Str × Str)) (k : Str) :
    valuesOf (pairs.filter (fun p => p.2 ≠ [])) k = valuesOf pairs k := by
  induction pairs with
  | nil => rfl
  | cons p ps ih =>
    rw [List.filter_cons]
    by_cases hp : p.2 = []
    · simp only [hp, ne_eq, not_true_eq_false, decide_false, Bool.false_eq_true, if_false]
      rw [ih]; simp [valuesOf, hp]
    · simp only [hp, ne_eq, not_false_eq_true, decide_true, if_true]
      simp only [valuesOf, List.filterMap_cons] at ih ⊢
      rw [ih]

/-- **C69, what holds**: an empty value is the same as no value: the form is decoded to a struct exactly
as it would be without the empty values. So fields with only empty values are `None` or have their
default, and non-empty texts are received. Missing: empty texts for required fields, where the claim is
false. -/
theorem C69_as_if_absent_partial {fields : List Field} {deny : Option (Str → Str)} (hd : Distinct fields)
    (repair : Bytes → Str) {i1 i2 : Iter} (h1 : Visits i1) (h2 : Visits i2)
    {pairs : List (Str × Str)} {q q' : Bytes} (hw : WritesForm pairs q)
    (hw' : WritesForm (pairs.filter (fun p => p.2 ≠ [])) q') (vs : List Val) :
    (parseQueries (urlParse repair) i1 i2 (.struct fields deny) q = .ok (.ok (.struct vs)) ↔
      parseQueries (urlParse repair) i1 i2 (.struct fields deny) q' = .ok (.ok (.struct vs))) ∧
    (parseQueries (urlParse repair) i1 i2 (.struct fields deny) q = .ok (.ok (.struct vs)) →
      Each (fun f v => (∀ key, key = f.name ∨ key ∈ f.aliases → ∀ x ∈ allValues pairs key, x = []) →
        f.default = some v ∨ (f.default = none ∧ (∃ t, f.ty = .option t) ∧ v = .none)) fields vs) := by
  obtain ⟨k1, m1⟩ := entries_spec h1 h2 pairs
  have e := C62_struct (deny := deny) hd repair h1 h2 hw k1 m1 vs
  refine ⟨?_, fun h => ?_⟩
  · rw [e, C62_struct hd repair h1 h2 hw' k1 (fun k vals => by rw [valuesOf_filter]; exact m1 k vals)]
  · refine (e.1 h).1.imp fun f _ v hv hall => ?_
    rcases hv with ⟨⟨k, xs⟩, he, hk, _, _⟩ | ⟨_, hv⟩
    · obtain ⟨e1, e2⟩ := (m1 k xs).1 he
      cases xs with
      | nil => exact absurd rfl e2
      | cons x xs =>
        have hx : x ∈ valuesOf pairs k := by rw [← e1]; simp
        refine absurd (hall k ((C37_names f k).1 hk) x ?_) (valuesOf_ne hx)
        rw [valuesOf, List.mem_filterMap] at hx
        obtain ⟨p, hp, hpx⟩ := hx
        split at hpx
        · next hc =>
          injection hpx with hpx
          exact List.mem_map.2 ⟨p, List.mem_filter.2 ⟨hp, by simpa using hc.1⟩, hpx⟩
        · cases hpx
    · exact hv

/-- The field `age` of the demo form is empty. -/
example : (∀ x ∈ allValues demoPairs (s "age"), x = []) ∧ allValues demoPairs (s "age") = [[]] := by decide +kernel

/-! ### C70 -/

/-- **C70 fails**: neither enums nor nested structs can be submitted. -/
theorem C70_false (repair : Bytes → Str) (q : Bytes) :
    (WritesForm [(s "colour", s "Red")] q →
      parseQueries (urlParse repair) forwards forwards
        (.struct [⟨s "colour", [], .enum (s "enum Colour"), none⟩] none) q =
        .ok (.error (.formError (.message (s "invalid type: string \"Red\", expected enum Colour"))))) ∧
    (WritesForm [(s "point", s "1")] q →
      parseQueries (urlParse repair) forwards forwards
        (.struct [⟨s "point", [], .nested (s "struct Point"), none⟩] none) q =
        .ok (.error (.formError (.message (s "invalid type: string \"1\", expected struct Point"))))) := by
  refine ⟨fun h => ?_, fun h => ?_⟩ <;> rw [parseQueries_writes repair _ _ _ h] <;> rfl

theorem readsAll_sub {R : List Str → Val → List Str → Prop}
    (hR : ∀ {xs v r}, R xs v r → (∀ x ∈ xs, x ≠ []) → False) {xs : List Str} {vs : List Val}
    (h : ReadsAll R xs vs) (hx : ∀ x ∈ xs, x ≠ []) : False := by
  cases h with
  | last h => exact hR h hx
  | more h _ => exact hR h hx

mutual
theorem reads_sub : ∀ {t : Ty} {xs : List Str} {v : Val} {r : List Str}, Reads t xs v r → ∀ x ∈ r, x ∈ xs
  | .scalar k, xs, v, r, h => by
    rw [Reads] at h; obtain ⟨y, rfl, _⟩ := h; exact fun x hx => List.mem_cons_of_mem _ hx
  | .unit, xs, v, r, h => by
    rw [Reads] at h; obtain ⟨y, rfl, _⟩ := h; exact fun x hx => List.mem_cons_of_mem _ hx
  | .option t, xs, v, r, h => by
    rw [Reads] at h
    rcases h with ⟨rfl, _⟩ | ⟨_, v', _, h⟩
    · exact fun x hx => List.mem_cons_of_mem _ hx
    · exact reads_sub h
  | .newtype t, xs, v, r, h => by rw [Reads] at h; exact reads_sub h
  | .seq t, xs, v, r, h => by rw [Reads] at h; rw [h.1]; simp
  | .tuple e ts, xs, v, r, h => by
    rw [Reads] at h
    obtain ⟨vs, _, ⟨_, _, y, rfl⟩ | ⟨_, h⟩⟩ := h
    · exact fun x hx => List.mem_cons_of_mem _ hx
    · exact readsEach_sub h
  | .fails e, xs, v, r, h => by rw [Reads] at h; exact h.elim
theorem readsEach_sub : ∀ {ts : List Ty} {xs : List Str} {vs : List Val} {r : List Str},
    ReadsEach ts xs vs r → ∀ x ∈ r, x ∈ xs
  | [], xs, vs, r, h => by rw [ReadsEach] at h; rw [h.2]; exact fun x hx => hx
  | t :: ts, xs, vs, r, h => by
    rw [ReadsEach] at h
    obtain ⟨v, vs', r', _, h1, h2⟩ := h
    exact fun x hx => reads_sub h1 x (readsEach_sub h2 x hx)
end

theorem readsEach_mem {t : Ty} (ht : ∀ {xs v r}, Reads t xs v r → (∀ x ∈ xs, x ≠ []) → False) :
    ∀ {ts : List Ty}, t ∈ ts → ∀ {xs : List Str} {vs : List Val} {r : List Str},
    ReadsEach ts xs vs r → (∀ x ∈ xs, x ≠ []) → False
  | [], h, _, _, _, _, _ => absurd h (by simp)
  | u :: us, h, xs, vs, r, hr, hx => by
    rw [ReadsEach] at hr
    obtain ⟨v, vs', r', rfl, h1, h2⟩ := hr
    rcases List.mem_cons.1 h with rfl | h
    · exact ht h1 hx
    · exact readsEach_mem ht h h2 (fun x hx' => hx x (reads_sub h1 x hx'))

theorem refused_reads {t : Ty} (ht : Refused t) : ∀ {xs : List Str} {v : Val} {r : List Str},
    Reads t xs v r → (∀ x ∈ xs, x ≠ []) → False := by
  induction ht with
  | enum e => intro xs v r h hx; rw [Ty.enum, Reads] at h; obtain ⟨x, _, h⟩ := h; cases h
  | nested e => intro xs v r h hx; rw [Ty.nested, Reads] at h; obtain ⟨x, _, h⟩ := h; cases h
  | option _ ih =>
    intro xs v r h hx
    rw [Reads] at h
    rcases h with ⟨rfl, _⟩ | ⟨_, v', _, h⟩
    · exact hx [] (by simp) rfl
    · exact ih h hx
  | newtype _ ih => intro xs v r h hx; rw [Reads] at h; exact ih h hx
  | seq _ ih =>
    intro xs v r h hx; rw [Reads] at h
    obtain ⟨_, vs, _, h⟩ := h
    exact readsAll_sub ih h hx
  | tuple hm _ ih =>
    intro xs v r h hx; rw [Reads] at h
    obtain ⟨vs, _, ⟨rfl, _⟩ | ⟨_, h⟩⟩ := h
    · simp at hm
    · exact readsEach_mem ih hm h hx

/-- **C70, what holds**: a form with a value for a field that holds an enum or a nested struct is never
decoded to anything: there is an error, and no panic. If there is no value, the field has its default or
is `None`. Missing: decoding the value, where the claim is false. -/
theorem C70_refused_partial {fields : List Field} {deny : Option (Str → Str)} (hd : Distinct fields)
    (urlParse : Bytes → List (Str × Str)) {i1 i2 : Iter} (h1 : Visits i1) (h2 : Visits i2) (q : Bytes) :
    (∀ f ∈ fields, Refused f.ty → ∀ key, key = f.name ∨ key ∈ f.aliases → valuesOf (urlParse q) key ≠ [] →
      ∃ e, parseQueries urlParse i1 i2 (.struct fields deny) q = .ok (.error e)) ∧
    (∀ vs, parseQueries urlParse i1 i2 (.struct fields deny) q = .ok (.ok (.struct vs)) →
      Each (fun f v => Refused f.ty →
        f.default = some v ∨ (f.default = none ∧ (∃ t, f.ty = .option t) ∧ v = .none)) fields vs) := by
  obtain ⟨k1, m1⟩ := entries_spec h1 h2 (urlParse q)
  have absent : ∀ vs, parseQueries urlParse i1 i2 (.struct fields deny) q = .ok (.ok (.struct vs)) →
      Each (fun f v => Refused f.ty → (∀ e ∈ i2 (cowMap (i1 (groupPairs (urlParse q)))), f.has e.1 = false) ∧
        (f.default = some v ∨ (f.default = none ∧ (∃ t, f.ty = .option t) ∧ v = .none))) fields vs := by
    intro vs h
    refine ((C37_form hd urlParse h1 h2 q k1 m1 vs).1 h).1.imp fun f _ v hv hr => ?_
    rcases hv with ⟨e, he, _, _, r, hm⟩ | h
    · refine (refused_reads hr hm fun x hx => ?_).elim
      rw [((m1 e.1 e.2).1 he).1] at hx
      exact valuesOf_ne hx
    · exact h
  refine ⟨fun f hf hr key hk hne => ?_, fun vs h => (absent vs h).imp fun f _ v hv hr => (hv hr).2⟩
  cases hp : parseQueries urlParse i1 i2 (.struct fields deny) q with
  | error c => exact absurd hp (C38_form urlParse h1 h2 _ q c)
  | ok r =>
    cases r with
    | error e => exact ⟨e, rfl⟩
    | ok d =>
      exfalso
      have : ∃ vs, d = .struct vs := by
        rw [parseQueries, fromCowMap.eq_def] at hp
        simp only at hp
        cases hs : structLoop fields deny (i2 (cowMap (i1 (groupPairs (urlParse q)))))
            (fields.map fun _ => none) with
        | err e => rw [hs] at hp; simp [Res.bind, Res.toExcept] at hp
        | crash c => rw [hs] at hp; simp [Res.bind, Res.toExcept] at hp
        | ok seen =>
          rw [hs] at hp
          simp only [Res.bind] at hp
          cases hf : finishFields fields seen with
          | err e => rw [hf] at hp; simp [Res.toExcept] at hp
          | crash c => rw [hf] at hp; simp [Res.toExcept] at hp
          | ok vs => rw [hf] at hp; simp [Res.toExcept] at hp; exact ⟨vs, hp.symm⟩
      obtain ⟨vs, rfl⟩ := this
      have hall : ∀ {fs : List Field} {ws : List Val}, Each (fun f v => Refused f.ty →
          (∀ e ∈ i2 (cowMap (i1 (groupPairs (urlParse q)))), f.has e.1 = false) ∧
          (f.default = some v ∨ (f.default = none ∧ (∃ t, f.ty = .option t) ∧ v = .none))) fs ws → f ∈ fs →
          f.has key = false := by
        intro fs ws h
        induction h with
        | nil => simp
        | @cons g w gs ws h _ ih =>
          intro hm
          rcases List.mem_cons.1 hm with rfl | hm
          · exact (h hr).1 _ ((m1 key _).2 ⟨rfl, hne⟩)
          · exact ih hm
      have := hall (absent vs hp) hf
      rw [(C37_names f key).2 hk] at this
      cases this

/-- A form with and without a value for an optional enum. -/
example : Refused (.option (.enum (s "enum Colour"))) ∧
    parseQueries (fun _ => [(s "id", s "1")]) forwards forwards
      (.struct [⟨s "id", [], i32, none⟩, ⟨s "colour", [], .option (.enum (s "enum Colour")), none⟩] none) [] =
      .ok (.ok (.struct [.int 1, .none])) := ⟨.option (.enum _), rfl⟩

/-! ### C71 -/

/-- **C71 fails**: maps whose keys are numbers or characters cannot be decoded, nor can optional structs
or lists of pairs. -/
theorem C71_false (repair : Bytes → Str) (q : Bytes) (hw : WritesForm [(s "1", s "x")] q) :
    parseQueries (urlParse repair) forwards forwards (.numberKeys (s "i32")) q =
      .ok (.error (.formError (.message (s "invalid type: string \"1\", expected i32")))) ∧
    parseQueries (urlParse repair) forwards forwards (.otherKeys (s "a character")) q =
      .ok (.error (.formError (.message (s "invalid type: map, expected a character")))) ∧
    parseQueries (urlParse repair) forwards forwards (.refuses (s "option")) q =
      .ok (.error (.formError (.message (s "invalid type: map, expected option")))) ∧
    parseQueries (urlParse repair) forwards forwards (.refuses (s "a sequence")) q =
      .ok (.error (.formError (.message (s "invalid type: map, expected a sequence")))) := by
  simp only [parseQueries_writes repair _ _ _ hw]
  exact ⟨rfl, rfl, rfl, rfl⟩

/-- **C71, what holds**: with keys of type `String`, a query or form is decoded to a map exactly if the
values of every key can be decoded, whatever the type of the values, and then the map has these values for
these keys and no others. A map with other keys is never decoded to a map with wrong keys: there is an error,
unless there are no values at all. Missing: other types, where the claim is false. -/
theorem C71_maps_partial (urlParse : Bytes → List (Str × Str)) {i1 i2 : Iter} (h1 : Visits i1)
    (h2 : Visits i2) (q : Bytes) :
    (∀ t, ((∀ k, valuesOf (urlParse q) k ≠ [] → ∃ v, Means t (valuesOf (urlParse q) k) v) ↔
      ∃ m, parseQueries urlParse i1 i2 (.map t) q = .ok (.ok (.map m))) ∧
      ∀ m, parseQueries urlParse i1 i2 (.map t) q = .ok (.ok (.map m)) → ∀ k,
        (valuesOf (urlParse q) k = [] ∧ m.get k = none) ∨
        ∃ v, m.get k = some v ∧ Means t (valuesOf (urlParse q) k) v) ∧
    (∀ reject, (∀ k, valuesOf (urlParse q) k = []) →
      parseQueries urlParse i1 i2 (.keyed reject) q = .ok (.ok (.map HMap.empty))) ∧
    (∀ reject k, valuesOf (urlParse q) k ≠ [] →
      ∃ k', valuesOf (urlParse q) k' ≠ [] ∧
        parseQueries urlParse i1 i2 (.keyed reject) q = .ok (.error (.formError (reject k')))) := by
  obtain ⟨hk, hm⟩ := entries_spec h1 h2 (urlParse q)
  refine ⟨fun t => ?_, fun reject h => ?_, fun reject k h => ?_⟩
  · have fits : ∀ e ∈ i2 (cowMap (i1 (groupPairs (urlParse q)))), ∀ v, Dec t e.2 v ↔ Means t e.2 v := by
      intro e he v
      obtain ⟨h3, h4⟩ := (hm e.1 e.2).1 he
      exact (decode_spec t e.2 ⟨h4, .inr (fun x hx => by rw [h3] at hx; exact valuesOf_ne hx)⟩).2 v
    obtain ⟨l1, l2⟩ := mapLoop_ok (t := t) (m := HMap.empty) hk
    have conv : ∀ m, parseQueries urlParse i1 i2 (.map t) q = .ok (.ok (.map m)) ↔
        mapLoop t (i2 (cowMap (i1 (groupPairs (urlParse q))))) HMap.empty = .ok m := by
      intro m
      rw [parseQueries, fromCowMap]
      cases mapLoop t (i2 (cowMap (i1 (groupPairs (urlParse q))))) HMap.empty <;>
        simp [Res.bind, Res.toExcept]
    refine ⟨⟨fun h => ?_, fun ⟨m, h⟩ k hne => ?_⟩, fun m h k => ?_⟩
    · obtain ⟨m, h'⟩ := l1.2 (fun e he => by
        obtain ⟨h3, h4⟩ := (hm e.1 e.2).1 he
        obtain ⟨v, hv⟩ := h e.1 (by rw [← h3]; exact h4)
        rw [← h3] at hv
        exact ⟨v, (fits e he v).2 hv⟩)
      exact ⟨m, (conv m).2 h'⟩
    · obtain ⟨v, hv⟩ := l1.1 ⟨m, (conv m).1 h⟩ _ ((hm k _).2 ⟨rfl, hne⟩)
      exact ⟨v, (fits _ ((hm k _).2 ⟨rfl, hne⟩) v).1 hv⟩
    · rcases l2 m ((conv m).1 h) k with ⟨⟨k', vs⟩, he, rfl, v, hv, hg⟩ | ⟨hno, hg⟩
      · have := (fits _ he v).1 hv
        rw [((hm _ vs).1 he).1] at this
        exact .inr ⟨v, hg, this⟩
      · refine .inl ⟨Classical.byContradiction fun hv => ?_, by rw [hg, HMap.get_empty]⟩
        exact absurd rfl (hno _ ((hm k _).2 ⟨rfl, hv⟩))
  · rw [parseQueries, fromCowMap.eq_def]
    cases he : i2 (cowMap (i1 (groupPairs (urlParse q)))) with
    | nil => rfl
    | cons e es =>
      obtain ⟨k, vs⟩ := e
      obtain ⟨h3, h4⟩ := (hm k vs).1 (by rw [he]; simp)
      exact absurd (h3.trans (h k)) h4
  · have hin := (hm k _).2 ⟨rfl, h⟩
    rw [parseQueries, fromCowMap.eq_def]
    cases he : i2 (cowMap (i1 (groupPairs (urlParse q)))) with
    | nil => rw [he] at hin; simp at hin
    | cons e es =>
      obtain ⟨k', vs⟩ := e
      obtain ⟨h3, h4⟩ := (hm k' vs).1 (by rw [he]; simp)
      exact ⟨k', by rw [← h3]; exact h4, rfl⟩

/-- The demo form as a `HashMap<String, String>`: the first value of each key. -/
example : ∃ m, parseQueries (fun _ => demoPairs) forwards forwards (.map string) [] = .ok (.ok (.map m)) ∧
    m.get (s "tags") = some (.str (s "x")) ∧ m.get (s "age") = none := ⟨_, rfl, rfl, rfl⟩

end Obsidian.Props
