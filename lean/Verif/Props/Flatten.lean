import Verif.Proofs.Flatten
import Verif.Props.Form

/- C93: structs with flattened parts. -/
namespace Obsidian.Props
open Obsidian Spec

/-- Texts for the examples. -/
def demoTexts : Texts := ⟨fun _ => "u32".toList, fun _ x => "unknown variant `".toList ++ x ++ ['`']⟩

/-- **C93 fails**: the number in a flattened part is refused, though it is accepted in the struct itself. -/
theorem C93_false : ∃ (urlParse : Bytes → List (Str × Str)) (q : Bytes) (own part : List Field),
    urlParse q = [(s "name", s "a"), (s "page", s "5")] ∧
    own = [⟨s "name", [], .scalar .string, none⟩] ∧
    part = [⟨s "page", [], .scalar (.int false 32), none⟩] ∧
    parseQueries urlParse forwards forwards (.struct (own ++ part) none) q =
      .ok (.ok (.struct [.str (s "a"), .int 5])) ∧
    parseQueriesFlat urlParse forwards forwards demoTexts own [.struct (part.map flatField)] q =
      .ok (.error (.formError (.message (s "invalid type: string \"5\", expected u32")))) :=
  ⟨fun _ => [(s "name", s "a"), (s "page", s "5")], [], _, _, rfl, rfl, rfl, rfl, rfl⟩

theorem spare_of_entries {own : List Field} {es : List (Str × List Str)} (hk : KeysDistinct es)
    {pairs : List (Str × Str)} (hm : ∀ k vs, (k, vs) ∈ es ↔ vs = valuesOf pairs k ∧ vs ≠ []) :
    (fun k => (keptOf own es).lookup k) = spare own (fun k => (valuesOf pairs k).head?) := by
  funext k
  rw [keptOf_lookup own hk, spare, spare]
  congr 1
  by_cases h : valuesOf pairs k = []
  · have : es.lookup k = none := by
      cases hl : es.lookup k with
      | none => rfl
      | some vs =>
        have := (hm k vs).1 ((lookup_some_iff hk).1 hl)
        exact absurd (this.1.trans h) this.2
    rw [this, h]; rfl
  · rw [(lookup_some_iff hk).2 ((hm k _).2 ⟨rfl, h⟩)]; rfl

theorem toExcept_ok {α : Type} {r : Res α} {d : α} : r.toExcept = .ok (.ok d) ↔ r = .ok d := by
  cases r <;> simp [Res.toExcept]

/-- **C93, exactly what a struct with flattened parts gets** (1): the own fields are read as if there were
no parts; the parts get the first values of the other keys, as texts. -/
theorem C93_parts {urlParse : Bytes → List (Str × Str)} {i1 i2 : Iter} (h1 : Visits i1) (h2 : Visits i2)
    {tx : Texts} {own : List Field} {parts : List Part} (hd : PartsDistinct parts) (ho : OptionApart parts)
    {q : Bytes} {d : FlatDecoded} (h : parseQueriesFlat urlParse i1 i2 tx own parts q = .ok (.ok d)) :
    parseQueries urlParse i1 i2 (.struct own none) q = .ok (.ok (.struct d.own)) ∧
    PartsValue parts (spare own (fun k => (valuesOf (urlParse q) k).head?)) d.parts := by
  obtain ⟨hk, hm⟩ := entries_spec h1 h2 (urlParse q)
  rw [parseQueriesFlat, toExcept_ok, fromCowMapFlat_ok] at h
  refine ⟨by rw [parseQueries, toExcept_ok]; exact h.1, ?_⟩
  have := decodeParts_sound tx hd ho (keptOf_nodup own hk) h.2
  rwa [spare_of_entries hk hm] at this

/-- **C93** (2): and if the own fields and the parts can be read in this way, the struct is read. -/
theorem C93_read {urlParse : Bytes → List (Str × Str)} {i1 i2 : Iter} (h1 : Visits i1) (h2 : Visits i2)
    {tx : Texts} {own : List Field} {parts : List Part} (hd : PartsDistinct parts) (ho : OptionApart parts)
    {q : Bytes} {vs : List Val} {r : List PartVal}
    (h : parseQueries urlParse i1 i2 (.struct own none) q = .ok (.ok (.struct vs)))
    (hp : PartsValue parts (spare own (fun k => (valuesOf (urlParse q) k).head?)) r) :
    ∃ ps, parseQueriesFlat urlParse i1 i2 tx own parts q = .ok (.ok ⟨vs, ps⟩) := by
  obtain ⟨hk, hm⟩ := entries_spec h1 h2 (urlParse q)
  rw [parseQueries, toExcept_ok] at h
  rw [← spare_of_entries hk hm] at hp
  obtain ⟨ps, hps⟩ := decodeParts_complete tx hd ho (keptOf_nodup own hk) hp
  exact ⟨ps, by rw [parseQueriesFlat, toExcept_ok, fromCowMapFlat_ok]; exact ⟨h, hps⟩⟩

/-- **C93** (3): there are no panics. -/
theorem C93_total {urlParse : Bytes → List (Str × Str)} {i1 i2 : Iter} (h1 : Visits i1) (h2 : Visits i2)
    (tx : Texts) (own : List Field) (parts : List Part) (q : Bytes) (c : Crash) :
    parseQueriesFlat urlParse i1 i2 tx own parts q ≠ .error c := by
  intro h
  refine C38_form urlParse h1 h2 (.struct own none) q c ?_
  rw [parseQueriesFlat] at h
  rw [parseQueries]
  have : fromCowMapFlat tx own parts (i2 (cowMap (i1 (groupPairs (urlParse q))))) = .crash c := by
    cases hr : fromCowMapFlat tx own parts (i2 (cowMap (i1 (groupPairs (urlParse q))))) <;> rw [hr] at h <;>
      simp [Res.toExcept] at h
    rw [h]
  rw [fromCowMapFlat_crash.1 this]; rfl

/-! ### As if the fields were own fields -/

theorem dec_text : ∀ {t : Ty} (_ : ByText t = true) {x : Str} (_ : x ≠ []) (xs : List Str) (v : Val),
    Dec t (x :: xs) v ↔ Taken t x v
  | .scalar .string, _, x, hx, xs, v => by simp [Dec, decode, decodeScalar, Scalar.parse, Taken, eq_comm]
  | .scalar (.ofString f), _, x, hx, xs, v => by
    simp only [Dec, decode, decodeScalar, Scalar.parse, Taken]
    cases f x <;> simp
  | .newtype t, ht, x, hx, xs, v => by
    have := dec_text (t := t) ht hx xs v
    rw [Taken, ← this, Dec, Dec]
    simp only [decode]
  | .option t, ht, x, hx, xs, v => by
    have ih := fun v => dec_text (t := t) ht hx xs v
    have hs : startsEmpty (x :: xs) = false := by cases x with | nil => exact absurd rfl hx | cons => rfl
    simp only [Dec, decode, hs, Bool.false_eq_true, if_false, Res.bind_eq_ok, Taken]
    constructor
    · rintro ⟨r, ⟨w, r'⟩, h1, h2⟩
      injection h2 with h2; injection h2 with h2 h3
      exact ⟨w, h2.symm, (ih w).1 ⟨r', h1⟩⟩
    · rintro ⟨w, rfl, h⟩
      obtain ⟨r, hr⟩ := (ih w).2 h
      exact ⟨r, (w, r), hr, rfl⟩

theorem each_append {α β : Type} {R : α → β → Prop} : ∀ {as bs : List α} {vs : List β},
    Each R (as ++ bs) vs ↔ Each R as (vs.take as.length) ∧ Each R bs (vs.drop as.length)
  | [], bs, vs => by simp only [List.nil_append, List.length_nil, List.take_zero, List.drop_zero]
                     exact ⟨fun h => ⟨.nil, h⟩, And.right⟩
  | a :: as, bs, [] => by
    simp only [List.take_nil, List.drop_nil]
    constructor
    · intro h; cases h
    · rintro ⟨h, _⟩; cases h
  | a :: as, bs, v :: vs => by
    have ih := each_append (R := R) (as := as) (bs := bs) (vs := vs)
    simp only [List.cons_append, List.length_cons, List.take_succ_cons, List.drop_succ_cons]
    constructor
    · intro h
      cases h with
      | cons h1 h2 => exact ⟨.cons h1 (ih.1 h2).1, (ih.1 h2).2⟩
    · rintro ⟨h, h'⟩
      cases h with
      | cons h1 h2 => exact .cons h1 (ih.2 ⟨h2, h'⟩)

theorem each_length {α β : Type} {R : α → β → Prop} {as : List α} {vs : List β} (h : Each R as vs) :
    vs.length = as.length := by
  induction h with
  | nil => rfl
  | cons _ _ ih => simp [ih]

theorem each_mapped {α β γ : Type} {R : β → γ → Prop} {f : α → β} {as : List α} {vs : List γ} :
    Each R (as.map f) vs ↔ Each (fun a v => R (f a) v) as vs := by
  induction as generalizing vs with
  | nil => constructor <;> (intro h; cases h; exact .nil)
  | cons a as ih =>
    constructor
    · intro h; cases h with | cons h1 h2 => exact .cons h1 (ih.1 h2)
    · intro h; cases h with | cons h1 h2 => exact .cons h1 (ih.2 h2)

/-- **C93, what holds of the claim**: if the fields of the flattened struct are texts — strings, types made
from strings, options and newtypes of these — the struct is read as if they were its own fields. Missing:
fields of other types, for which the claim is false (see `C93_parts`: they are refused, except texts of one
character for characters; and `C70`: enums, which are only accepted in flattened parts). -/
theorem C93_texts_partial {urlParse : Bytes → List (Str × Str)} {i1 i2 : Iter} (h1 : Visits i1)
    (h2 : Visits i2) (tx : Texts) {own fs : List Field} (hd : Distinct (own ++ fs))
    (ha : ∀ f ∈ fs, f.aliases = []) (ht : ∀ f ∈ fs, ByText f.ty = true) (q : Bytes) :
    (∀ vs, parseQueries urlParse i1 i2 (.struct (own ++ fs) none) q = .ok (.ok (.struct vs)) ↔
      vs.length = own.length + fs.length ∧
      parseQueriesFlat urlParse i1 i2 tx own [.struct (fs.map flatField)] q = .ok (.ok (partedAt own.length vs))) ∧
    (∀ d, parseQueriesFlat urlParse i1 i2 tx own [.struct (fs.map flatField)] q = .ok (.ok d) →
      ∃ vs, vs.length = own.length + fs.length ∧ d = partedAt own.length vs) := by
  obtain ⟨hk, hm⟩ := entries_spec h1 h2 (urlParse q)
  have hne : ∀ e ∈ i2 (cowMap (i1 (groupPairs (urlParse q)))), ∃ x xs, e.2 = x :: xs ∧ x ≠ [] := by
    intro e he
    obtain ⟨h3, h4⟩ := (hm e.1 e.2).1 he
    cases hx : e.2 with
    | nil => exact absurd hx h4
    | cons x xs =>
      refine ⟨x, xs, rfl, valuesOf_ne (pairs := urlParse q) (k := e.1) ?_⟩
      rw [← h3, hx]; simp
  simp only [parseQueries, parseQueriesFlat, toExcept_ok, fromCowMapFlat_ok]
  revert hk hm hne
  generalize i2 (cowMap (i1 (groupPairs (urlParse q)))) = es
  intro hk hm hne
  obtain ⟨hd1, hd2, hd3⟩ := List.pairwise_append.1 hd
  have hhas : ∀ f ∈ fs, ∀ k, f.has k = true ↔ f.name = k := by
    intro f hf k; simp [Field.has, ha f hf]
  have hdist : PartsDistinct [.struct (fs.map flatField)] := by
    intro p hp
    rw [List.mem_singleton] at hp
    subst hp
    dsimp only
    rw [List.map_map]
    have : ((fun f : FlatField => f.name) ∘ flatField) = Field.name := rfl
    rw [this, List.Nodup, List.pairwise_map]
    refine hd2.imp_of_mem ?_
    intro f g hf hg h hfg
    have := h f.name ((hhas f hf _).2 rfl)
    rw [(hhas g hg _).2 hfg.symm] at this
    cases this
  have hkept : ∀ r, decodeParts tx [.struct (fs.map flatField)] (keptOf own es) = .ok r ↔
      ∃ us, r = [.struct us] ∧ Each (FieldValue Dec es) fs us := by
    intro r
    have hval : ∀ f ∈ fs, ∀ v, FlatValue (fun k => (keptOf own es).lookup k) (flatField f) v ↔ FieldValue Dec es f v := by
      intro f hf v
      have hnown : ¬ own.any (fun g => g.has f.name) = true := by
        rw [List.any_eq_true]
        rintro ⟨g, hg, h⟩
        have := hd3 g hg f hf f.name h
        rw [(hhas f hf _).2 rfl] at this; cases this
      rw [FlatValue]
      show (match (keptOf own es).lookup f.name with | some x => _ | none => _) ↔ _
      rw [keptOf_lookup own hk, spare, if_neg hnown]
      rw [FieldValue]
      cases hl : es.lookup f.name with
      | none =>
        have hno : ∀ e ∈ es, f.has e.1 = false := by
          intro e he
          cases hb : f.has e.1 with
          | false => rfl
          | true =>
            have hn := (hhas f hf _).1 hb
            have := (lookup_some_iff hk (k := e.1) (x := e.2)).2 he
            rw [← hn, hl] at this; cases this
        dsimp only [Option.bind_none, flatField]
        constructor
        · intro h; exact .inr ⟨hno, by simpa using h⟩
        · rintro (⟨e, he, hb, _⟩ | ⟨_, h⟩)
          · rw [hno e he] at hb; cases hb
          · simpa using h
      | some vals =>
        have hmem := (lookup_some_iff hk).1 hl
        obtain ⟨x, xs, hx, hx0⟩ := hne _ hmem
        dsimp only at hx
        subst hx
        show TakenFlat (flatField f).ty x v ↔ _
        show Taken f.ty x v ↔ _
        rw [← dec_text (ht f hf) hx0 xs v]
        constructor
        · intro h
          refine .inl ⟨_, hmem, (hhas f hf _).2 rfl, ?_, h⟩
          intro e he hb
          have hn := (hhas f hf _).1 hb
          have := (lookup_some_iff hk (k := e.1) (x := e.2)).2 he
          rw [← hn, hl] at this
          injection this with this
          obtain ⟨a, b⟩ := e
          dsimp only at hn this
          rw [hn, this]
        · rintro (⟨e, he, hb, _, h⟩ | ⟨h, _⟩)
          · have hn := (hhas f hf _).1 hb
            have := (lookup_some_iff hk (k := e.1) (x := e.2)).2 he
            rw [← hn, hl] at this
            injection this with this
            rw [this]; exact h
          · have := h _ hmem
            rw [(hhas f hf _).2 rfl] at this; cases this
    have heach : ∀ us, Each (FlatValue (fun k => (keptOf own es).lookup k)) (fs.map flatField) us ↔
        Each (FieldValue Dec es) fs us := by
      intro us
      rw [each_mapped]
      clear hdist hd hd2 hd3 ht ha hhas
      induction fs generalizing us with
      | nil => constructor <;> (intro h; cases h; exact .nil)
      | cons f fs ih =>
        have ih := ih (fun g hg => hval g (List.mem_cons_of_mem _ hg))
        constructor
        · intro h; cases h with | cons h1 h2 => exact .cons ((hval f (by simp) _).1 h1) ((ih _).1 h2)
        · intro h; cases h with | cons h1 h2 => exact .cons ((hval f (by simp) _).2 h1) ((ih _).2 h2)
    constructor
    · intro h
      obtain ⟨us, r', hr, h3, h4⟩ := decodeParts_sound tx hdist trivial (keptOf_nodup own hk) h
      rw [PartsValue] at h4
      exact ⟨us, by rw [hr, h4], (heach us).1 h3⟩
    · rintro ⟨us, rfl, h⟩
      have hp := (structPart_ok tx (hdist _ List.mem_cons_self) (keptOf_nodup own hk)).2 ((heach us).2 h)
      simp only [decodeParts, decodePart]
      cases hs : structPart tx (fs.map flatField) (keptOf own es) with
      | mk x left => rw [hs] at hp; dsimp only at hp; subst hp; rfl
  have hign : ∀ fields : List Field, ∀ e ∈ es, (∀ f ∈ fields, f.has e.1 = false) → e.2 ≠ [] := by
    intro _ e he _ h
    obtain ⟨x, xs, hx, _⟩ := hne e he
    rw [h] at hx; cases hx
  have hown : ∀ (fields : List Field) (hd : Distinct fields) vs,
      fromCowMap (.struct fields none) es = .ok (.struct vs) ↔ Each (FieldValue Dec es) fields vs := by
    intro fields hd vs
    rw [decode_struct hd hk]
    exact ⟨fun h => h.1.1, fun h => ⟨⟨h, fun _ _ => .inr rfl⟩, hign fields⟩⟩
  constructor
  · intro vs
    rw [hown _ hd, each_append, hkept, hown _ hd1]
    simp only [partedAt]
    constructor
    · rintro ⟨h3, h4⟩
      have e3 := each_length h3
      have e4 := each_length h4
      rw [List.length_take] at e3
      rw [List.length_drop] at e4
      exact ⟨by omega, h3, _, rfl, h4⟩
    · rintro ⟨_, h3, us, hus, h4⟩
      injection hus with hus; injection hus with hus
      rw [hus]; exact ⟨h3, h4⟩
  · rintro ⟨o, p⟩ ⟨h3, h4⟩
    obtain ⟨us, hus, h5⟩ := (hkept _).1 h4
    dsimp only at hus h3
    subst hus
    have e3 := each_length ((hown _ hd1 _).1 h3)
    have e4 := each_length h5
    refine ⟨o ++ us, by simp [e3, e4], ?_⟩
    rw [partedAt, ← e3, List.take_left, List.drop_left]

/-! ### Types that do not take texts -/

/-- No value of the type is made from a text. -/
theorem not_taken : ∀ {t : Ty} (_ : Deaf t = true) (x : Str) (v : Val), ¬ Taken t x v
  | .scalar .bool, _, _, _ | .scalar (.int _ _), _, _, _ | .scalar (.float _), _, _, _
  | .unit, _, _, _ | .seq _, _, _, _ | .tuple _ _, _, _, _ | .fails _, _, _, _ => id
  | .newtype t, ht, x, v => not_taken (t := t) ht x v
  | .option t, ht, x, v => fun ⟨v', _, h⟩ => not_taken (t := t) ht x v' h

/-- **C93**, how it fails: whenever there is a value for a number, a `bool`, a sequence or a tuple in the
flattened struct (also inside options and newtypes), the whole query is refused. -/
theorem C93_refused {urlParse : Bytes → List (Str × Str)} {i1 i2 : Iter} (h1 : Visits i1) (h2 : Visits i2)
    (tx : Texts) {own : List Field} {fs : List FlatField} (hd : (fs.map (·.name)).Nodup) {q : Bytes}
    {f : FlatField} (hf : f ∈ fs) {t : Ty} (hft : f.ty = .of t) (ht : Deaf t = true)
    (hown : ∀ g ∈ own, g.has f.name = false) (hv : valuesOf (urlParse q) f.name ≠ []) :
    ∃ e, parseQueriesFlat urlParse i1 i2 tx own [.struct fs] q = .ok (.error e) := by
  cases h : parseQueriesFlat urlParse i1 i2 tx own [.struct fs] q with
  | error c => exact absurd h (C93_total h1 h2 tx own _ q c)
  | ok r =>
    cases r with
    | error e => exact ⟨e, rfl⟩
    | ok d =>
      exfalso
      have hd' : PartsDistinct [.struct fs] := by
        intro p hp; rw [List.mem_singleton] at hp; subst hp; exact hd
      have ho : OptionApart [.struct fs] := trivial
      obtain ⟨_, vs, r', h4, h3, h5⟩ := C93_parts h1 h2 hd' ho h
      clear h4 h5 hd' ho
      have : ∃ v, FlatValue (spare own (fun k => (valuesOf (urlParse q) k).head?)) f v := by
        clear hd h hown hv
        induction h3 with
        | nil => cases hf
        | cons h4 _ ih =>
          rcases List.mem_cons.1 hf with rfl | hf
          · exact ⟨_, h4⟩
          · exact ih hf
      obtain ⟨v, hv'⟩ := this
      rw [FlatValue, spare, if_neg] at hv'
      · cases hx : valuesOf (urlParse q) f.name with
        | nil => exact hv hx
        | cons x xs =>
          simp only [hx, List.head?_cons, hft] at hv'
          exact not_taken ht x v hv'
      · rw [List.any_eq_true]
        rintro ⟨g, hg, h⟩
        rw [hown g hg] at h; cases h

/-- **C93** for a flattened `HashMap<String, String>`: it gets the first value of every key that is not an
own field, and nothing else; and it is never the reason for an error. -/
theorem C93_rest {urlParse : Bytes → List (Str × Str)} {i1 i2 : Iter} (h1 : Visits i1) (h2 : Visits i2)
    (tx : Texts) (own : List Field) (q : Bytes) (vs : List Val) :
    parseQueries urlParse i1 i2 (.struct own none) q = .ok (.ok (.struct vs)) ↔
    ∃ m, parseQueriesFlat urlParse i1 i2 tx own [.map (.of (.scalar .string))] q = .ok (.ok ⟨vs, [.map m]⟩) ∧
      ∀ k, m.get k = if (∃ f ∈ own, f.has k = true) then none
        else (valuesOf (urlParse q) k).head?.map Val.str := by
  have hd : PartsDistinct [.map (.of (.scalar .string))] := by
    intro p hp; rw [List.mem_singleton] at hp; subst hp; trivial
  obtain ⟨hk, hm⟩ := entries_spec h1 h2 (urlParse q)
  constructor
  · intro h
    obtain ⟨m, hm'⟩ := (mapPart_ok tx (t := .of (.scalar .string)) (m := HMap.empty)
      (keptOf_nodup own hk)).2 (fun k x _ => ⟨.str x, rfl⟩)
    have hflat : parseQueriesFlat urlParse i1 i2 tx own [.map (.of (.scalar .string))] q =
        .ok (.ok ⟨vs, [.map m]⟩) := by
      rw [parseQueries, toExcept_ok] at h
      rw [parseQueriesFlat, toExcept_ok, fromCowMapFlat_ok]
      exact ⟨h, by simp only [decodeParts, decodePart, hm']⟩
    refine ⟨m, hflat, fun k => ?_⟩
    obtain ⟨_, m', r', he, h3, _⟩ := C93_parts h1 h2 hd trivial hflat
    injection he with he; injection he with he; subst he
    obtain ⟨h4, h5⟩ := h3 k
    by_cases hex : ∃ f ∈ own, f.has k = true
    · rw [if_pos hex]
      exact h5 (by rw [spare, if_pos (List.any_eq_true.2 hex)])
    · rw [if_neg hex]
      have hsp : spare own (fun k => (valuesOf (urlParse q) k).head?) k = (valuesOf (urlParse q) k).head? := by
        rw [spare, if_neg (fun h => hex (List.any_eq_true.1 h))]
      rw [hsp] at h4 h5
      cases hx : (valuesOf (urlParse q) k).head? with
      | none => exact h5 hx
      | some x =>
        obtain ⟨v, hv, h6⟩ := h4 x hx
        have hv : v = .str x := hv
        rw [h6, hv]; rfl
  · rintro ⟨m, h, _⟩
    exact (C93_parts h1 h2 hd trivial h).1

/-! ### Examples -/

/-- A query for the examples. -/
def flatPairs : List (Str × Str) :=
  [(s "name", s "a"), (s "page", s "5"), (s "sort", s "up"), (s "page", s "6"), (s "x", s "y")]

/-- Own fields for the examples. -/
def flatOwn : List Field := [⟨s "name", [], .scalar .string, none⟩]

example : (∀ f ∈ [(⟨s "sort", [], .option (.scalar .string), none⟩ : Field)], ByText f.ty = true) ∧
    parseQueriesFlat (fun _ => flatPairs) forwards backwards demoTexts flatOwn
      [.struct [flatField ⟨s "sort", [], .option (.scalar .string), none⟩]] [] =
    .ok (.ok ⟨[.str (s "a")], [.struct [.some (.str (s "up"))]]⟩) ∧
    parseQueries (fun _ => flatPairs) forwards backwards
      (.struct (flatOwn ++ [⟨s "sort", [], .option (.scalar .string), none⟩]) none) [] =
    .ok (.ok (.struct [.str (s "a"), .some (.str (s "up"))])) :=
  ⟨by simp [ByText], rfl, rfl⟩

/-- An enum in a flattened struct, an optional struct that cannot be read, and a map. -/
example : parseQueriesFlat (fun _ => flatPairs) forwards backwards demoTexts flatOwn
      [.struct [⟨s "sort", .enum [s "down", s "up"], none⟩],
       .option [⟨s "page", .of (.scalar (.int false 32)), none⟩]] [] =
    .ok (.ok ⟨[.str (s "a")], [.struct [.opaque 1], .option none]⟩) := rfl

example : ∃ m, parseQueriesFlat (fun _ => flatPairs) forwards backwards demoTexts flatOwn
      [.map (.of (.scalar .string))] [] = .ok (.ok ⟨[.str (s "a")], [.map m]⟩) ∧
    m.get (s "page") = some (.str (s "5")) ∧ m.get (s "x") = some (.str (s "y")) ∧
    m.get (s "name") = none := ⟨_, rfl, rfl, rfl, rfl⟩

example : Deaf (.option (.scalar (.int false 32))) = true ∧ valuesOf flatPairs (s "page") = [s "5", s "6"] ∧
    (∀ g ∈ flatOwn, g.has (s "page") = false) := ⟨rfl, by decide, by decide⟩

end Obsidian.Props
