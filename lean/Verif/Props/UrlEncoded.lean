import Verif.Spec.Answers
import Verif.Proofs.UrlEncoded
import Verif.Props.Form
import Verif.Props.AppCommon

/-
C62: names and values survive url-encoding.  Whatever way a client writes the pairs of a form or a query
(any byte may be written with a percent sign, spaces also as `+`), handlers get the same pairs.
-/
namespace Obsidian.Props
open Obsidian Spec
variable {U : Univ}

theorem hexByte_writes (b : UInt8) : WritesByte b (hexByte b) := by
  have key : ∀ n, n < 16 →
      HexDigit (UInt8.ofNat ("0123456789ABCDEF".toList[n]?.getD '0').toNat) n ∧
      HexDigit (UInt8.ofNat ("0123456789abcdef".toList[n]?.getD '0').toNat) n := by
    unfold HexDigit; decide +kernel
  have hb : b.toNat < 256 := UInt8.toNat_lt b
  exact .percent (key _ (by omega)).1 (key _ (by omega)).2 (by omega)

theorem hexByte_noEq (b : UInt8) : 61 ∉ hexByte b := by
  have := hexByte_writes b
  intro h
  rw [hexByte] at h this
  cases this with
  | percent h1 h2 _ =>
    simp only [List.mem_cons, List.not_mem_nil, or_false] at h
    rcases h with h | h | h
    · exact absurd h (by decide)
    · exact (hexDigit_plain h1).2 h.symm
    · exact (hexDigit_plain h2).2 h.symm

theorem hexWrites (bs : Bytes) : Writes bs (bs.flatMap hexByte) ∧ 61 ∉ bs.flatMap hexByte := by
  refine ⟨?_, ?_⟩
  · induction bs with
    | nil => exact .nil
    | cons b bs ih => rw [List.flatMap_cons]; exact .cons (hexByte_writes b) ih
  · intro h
    obtain ⟨b, _, hb⟩ := List.mem_flatMap.1 h
    exact hexByte_noEq b hb

/-- Every form can be written. -/
theorem hexForm_writes (ps : List (Str × Str)) : WritesForm ps (hexForm ps) := by
  induction ps with
  | nil => exact .nil
  | cons p ps ih =>
    obtain ⟨k, v⟩ := p
    cases ps with
    | nil => exact .one (.both (hexWrites _).2 (hexWrites _).1 (hexWrites _).1)
    | cons q ps => exact .more (.both (hexWrites _).2 (hexWrites _).1 (hexWrites _).1) ih

/-- A byte that is not special can be written as it is. -/
theorem plainWrites {bs : Bytes} (h : ∀ b ∈ bs, ¬ special b) : Writes bs bs := by
  induction bs with
  | nil => exact .nil
  | cons b bs ih =>
    exact .cons (e := [b]) (.plain (h b (List.mem_cons_self ..))) (ih fun b hb => h b (List.mem_cons_of_mem _ hb))

/-- **C62** for `query_params` at the type `HashMap<String, Vec<String>>`: each key has exactly the list
of the non-empty values that were written. -/
theorem C62_query (c : Context U) (repair : Bytes → Str) {i1 i2 : Iter} (h1 : Visits i1) (h2 : Visits i2)
    {query : Str} (hq : c.request.query = some query) {pairs : List (Str × Str)}
    (hw : WritesForm pairs (utf8 query)) :
    ∃ m, c.queryParams (parseQueries (urlParse repair) i1 i2 (.map (.seq string))) = .ok (.ok (.map m)) ∧
      ∀ k, m.get k = if valuesOf pairs k = [] then none else some (.list ((valuesOf pairs k).map .str)) := by
  obtain ⟨m, hm, hg⟩ := C35_query c (urlParse repair) h1 h2
  refine ⟨m, hm, fun k => ?_⟩
  rw [hg k, hq, Option.getD_some, urlParse_writes repair hw]

/-- **C62** for `form`, if the body arrives in one piece (see C39). -/
theorem C62_form (c : Context U) (repair : Bytes → Str) {i1 i2 : Iter} (h1 : Visits i1) (h2 : Visits i2)
    {pairs : List (Str × Str)} (hw : WritesForm pairs c.request.body.bytes)
    (hf : c.request.body.fails = false)
    (hc : (c.request.body.chunks.filter (fun c => !c.isEmpty)).length ≤ 1) :
    ∃ m, (c.form (parseQueries (urlParse repair) i1 i2 (.map (.seq string)))).map (·.1) =
        .ok (.ok (.map m)) ∧
      ∀ k, m.get k = if valuesOf pairs k = [] then none else some (.list ((valuesOf pairs k).map .str)) := by
  rw [((C39_single_chunk_partial c).1 _).2 hf hc]
  obtain ⟨m, hm, hg⟩ := parseQueries_map (urlParse repair) h1 h2 c.request.body.bytes
  refine ⟨m, hm, fun k => ?_⟩
  rw [hg k, urlParse_writes repair hw]

/-- **C62** for structs: the fields get the values that were written. -/
theorem C62_struct {fields : List Field} {deny : Option (Str → Str)} (hd : Distinct fields)
    (repair : Bytes → Str) {i1 i2 : Iter} (h1 : Visits i1) (h2 : Visits i2)
    {pairs : List (Str × Str)} {q : Bytes} (hw : WritesForm pairs q)
    {es : List (Str × List Str)} (hk : KeysDistinct es)
    (hm : ∀ k vals, (k, vals) ∈ es ↔ vals = valuesOf pairs k ∧ vals ≠ []) (vs : List Val) :
    parseQueries (urlParse repair) i1 i2 (.struct fields deny) q = .ok (.ok (.struct vs)) ↔
      StructValue Means fields deny es vs :=
  C37_form hd _ h1 h2 q hk (by rw [urlParse_writes repair hw]; exact hm) vs

/-- **C62**: it does not matter which way a client chooses to write the pairs, for any type. -/
theorem C62_any_writing (repair : Bytes → Str) (i1 i2 : Iter) (shape : Shape) {pairs : List (Str × Str)}
    {q q' : Bytes} (hw : WritesForm pairs q) (hw' : WritesForm pairs q') :
    parseQueries (urlParse repair) i1 i2 shape q = parseQueries (urlParse repair) i1 i2 shape q' := by
  rw [parseQueries, parseQueries, urlParse_writes repair hw, urlParse_writes repair hw']

/-- **C62**: every query and every body, of whatever bytes, is a way to write exactly one list of names and
values. -/
theorem C62_every_input (q : Bytes) : ∃ parts, WritesParts parts q ∧ ∀ parts', WritesParts parts' q → parts' = parts := by
  obtain ⟨ps, h⟩ := parts_exist _ q (Nat.le_refl _)
  exact ⟨ps, h, fun ps' h' => parts_unique h' h⟩

/-- **C62**, for queries of whatever bytes: each key has the non-empty values that were written, with
bytes that are not UTF-8 replaced by something. -/
theorem C62_any_query (repair : Bytes → Str) {i1 i2 : Iter} (h1 : Visits i1) (h2 : Visits i2) {q : Bytes}
    {parts : List (Bytes × Bytes)} (hw : WritesParts parts q) {pairs : List (Str × Str)}
    (hr : Each (fun b t => ReadsAs repair b.1 t.1 ∧ ReadsAs repair b.2 t.2) parts pairs) :
    ∃ m, parseQueries (urlParse repair) i1 i2 (.map (.seq string)) q = .ok (.ok (.map m)) ∧
      ∀ k, m.get k = if valuesOf pairs k = [] then none else some (.list ((valuesOf pairs k).map .str)) := by
  have key : ∀ {parts : List (Bytes × Bytes)} {pairs : List (Str × Str)},
      Each (fun b t => ReadsAs repair b.1 t.1 ∧ ReadsAs repair b.2 t.2) parts pairs → parts.map (textsOf repair) = pairs := by
    intro parts pairs hr
    induction hr with
    | nil => rfl
    | cons h _ ih => rw [List.map_cons, ih, textsOf, textOf_reads.2 h.1, textOf_reads.2 h.2]
  have hp : urlParse repair q = pairs := by rw [urlParse_parts repair hw, key hr]
  rw [← hp]
  exact parseQueries_map _ h1 h2 q

/-- **C62**, round trip for structs of texts: fields given once, with a non-empty value, have this value,
whatever characters it consists of. -/
theorem C62_texts (repair : Bytes → Str) {i1 i2 : Iter} (h1 : Visits i1) (h2 : Visits i2)
    {pairs : List (Str × Str)} (hn : (pairs.map (·.1)).Nodup) (hv : ∀ p ∈ pairs, p.2 ≠ [])
    {q : Bytes} (hw : WritesForm pairs q) (deny : Option (Str → Str)) :
    parseQueries (urlParse repair) i1 i2 (.struct (pairs.map fun p => ⟨p.1, [], string, none⟩) deny) q =
      .ok (.ok (.struct (pairs.map fun p => .str p.2))) := by
  have vals : ∀ (l : List (Str × Str)), (l.map (·.1)).Nodup → (∀ p ∈ l, p.2 ≠ []) → ∀ k,
      (∀ p ∈ l, p.1 = k → valuesOf l k = [p.2]) ∧ ((∀ p ∈ l, p.1 ≠ k) → valuesOf l k = []) := by
    intro l
    induction l with
    | nil => exact fun _ _ k => ⟨nofun, fun _ => rfl⟩
    | cons a l ih =>
      intro hn hv k
      rw [List.map_cons, List.nodup_cons] at hn
      obtain ⟨ih1, ih2⟩ := ih hn.2 (fun p hp => hv p (List.mem_cons_of_mem _ hp)) k
      have ha := hv a (List.mem_cons_self ..)
      rw [valuesOf, List.filterMap_cons]
      refine ⟨fun p hp hpk => ?_, fun h => ?_⟩
      · rcases List.mem_cons.1 hp with rfl | hp
        · simp only [hpk, true_and, if_pos ha]
          have := ih2 (fun p' hp' e => hn.1 (List.mem_map.2 ⟨p', hp', e.trans hpk.symm⟩))
          rw [valuesOf] at this
          rw [this]
        · have hak : a.1 ≠ k := fun e => hn.1 (List.mem_map.2 ⟨p, hp, hpk.trans e.symm⟩)
          simp only [hak, false_and, if_false]
          exact ih1 p hp hpk
      · have hak : a.1 ≠ k := h a (List.mem_cons_self ..)
        simp only [hak, false_and, if_false]
        exact ih2 (fun p hp => h p (List.mem_cons_of_mem _ hp))
  have hd : Distinct (pairs.map fun p => (⟨p.1, [], string, none⟩ : Field)) := by
    rw [Distinct, List.pairwise_map]
    rw [List.Nodup, List.pairwise_map] at hn
    refine hn.imp fun {a b} hab k hk => ?_
    simp only [Field.has, List.contains_nil, Bool.or_false,] at hk ⊢
    exact decide_eq_false fun h => hab ((of_decide_eq_true hk).trans h.symm)
  refine (C62_struct hd repair h1 h2 hw (es := pairs.map fun p => (p.1, [p.2])) ?_ ?_ _).2 ⟨?_, ?_⟩
  · rw [KeysDistinct, List.map_map]; exact hn
  · intro k vs
    rw [List.mem_map]
    constructor
    · rintro ⟨p, hp, e⟩
      injection e with e1 e2
      exact ⟨by rw [(vals pairs hn hv k).1 p hp e1, e2], by rw [← e2]; exact nofun⟩
    · rintro ⟨e, hne⟩
      by_cases h : ∃ p ∈ pairs, p.1 = k
      · obtain ⟨p, hp, hk⟩ := h
        exact ⟨p, hp, by rw [e, (vals pairs hn hv k).1 p hp hk, hk]⟩
      · exact absurd (e.trans ((vals pairs hn hv k).2 (fun p hp hk => h ⟨p, hp, hk⟩))) hne
  · have each : ∀ l : List (Str × Str), (∀ p ∈ l, p ∈ pairs) →
        Each (FieldValue Means (pairs.map fun p => (p.1, [p.2])))
          (l.map fun p => ⟨p.1, [], string, none⟩) (l.map fun p => .str p.2) := by
      intro l
      induction l with
      | nil => exact fun _ => .nil
      | cons a l ih =>
        intro hl
        refine .cons (.inl ⟨(a.1, [a.2]), List.mem_map.2 ⟨a, hl a (List.mem_cons_self ..), rfl⟩, ?_, ?_, ?_⟩)
          (ih fun p hp => hl p (List.mem_cons_of_mem _ hp))
        · simp [Field.has]
        · intro e he hfe
          obtain ⟨p, hp, rfl⟩ := List.mem_map.1 he
          simp only [Field.has, List.contains_nil, Bool.or_false] at hfe
          replace hfe := of_decide_eq_true hfe
          have e1 := (vals pairs hn hv p.1).1 p hp rfl
          have e2 := (vals pairs hn hv p.1).1 a (hl a (List.mem_cons_self ..)) hfe
          rw [e1] at e2
          rw [e2, hfe]
        · exact ((C37_values _ _).1 _).2 ⟨a.2, rfl, rfl⟩
    exact each pairs fun _ h => h
  · intro e he
    obtain ⟨p, hp, rfl⟩ := List.mem_map.1 he
    exact .inl ⟨_, List.mem_map.2 ⟨p, hp, rfl⟩, by simp [Field.has]⟩

/-- The name `a&b`, the value `x = 1`, with some bytes written as they are, and with `+`. -/
example : WritesForm [(s "a&b", s "x = 1"), (s "c", [])] (utf8 (s "a%26b=x+%3d%201&c")) := by
  have h : utf8 (s "a%26b=x+%3d%201&c") =
      ([97] ++ ([37, 50, 54] ++ ([98] ++ []))) ++ 61 :: ([120] ++ ([43] ++ ([37, 51, 100] ++ ([37, 50, 48] ++ ([49] ++ []))))) ++
        38 :: ([99] ++ []) := by decide +kernel
  have h1 : utf8 (s "a&b") = [97, 38, 98] := by decide +kernel
  have h2 : utf8 (s "x = 1") = [120, 32, 61, 32, 49] := by decide +kernel
  have h3 : utf8 (s "c") = [99] := by decide +kernel
  have h4 : utf8 [] = [] := by decide +kernel
  have pl : ∀ b ∈ [97, 98, 120, 49, 99], ¬ special b := by unfold special; decide
  have hex : HexDigit 50 2 ∧ HexDigit 54 6 ∧ HexDigit 51 3 ∧ HexDigit 100 13 ∧ HexDigit 48 0 := by
    unfold HexDigit; decide +kernel
  obtain ⟨x2, x6, x3, xd, x0⟩ := hex
  simp only [WritesForm, List.map_cons, List.map_nil]
  rw [h, h1, h2, h3, h4]
  refine .more (.both (by decide) ?_ ?_) (.one (.name (by decide) (by decide) ?_))
  · exact .cons (.plain (pl _ (by decide))) (.cons (.percent x2 x6 (by decide)) (.cons (.plain (pl _ (by decide))) .nil))
  · exact .cons (.plain (pl _ (by decide))) (.cons .plus (.cons (.percent x3 xd (by decide))
      (.cons (.percent x2 x0 (by decide)) (.cons (.plain (pl _ (by decide))) .nil))))
  · exact .cons (.plain (pl _ (by decide))) .nil

/-- `&rate=5%=x&&` is a way to write the name `rate` and the value `5%=x`. -/
example : WritesForm [(s "rate", s "5%=x")] (utf8 (s "&rate=5%=x&&")) := by
  have h : utf8 (s "&rate=5%=x&&") = 38 :: (([114, 97, 116, 101] ++ 61 :: ([53] ++ 37 :: ([61] ++ ([120] ++ [])))) ++ 38 :: (38 :: [])) := by
    decide +kernel
  have h1 : utf8 (s "rate") = [114, 97, 116, 101] := by decide +kernel
  have h2 : utf8 (s "5%=x") = [53, 37, 61, 120] := by decide +kernel
  simp only [WritesForm, List.map_cons, List.map_nil]
  rw [h, h1, h2]
  refine .skip (.more (.both (by decide) (plainWrites (by unfold special; decide)) ?_) (.skip .nil))
  refine .cons (.plain (by unfold special; decide)) (.bare ?_ (.cons (.plain (by unfold special; decide)) (.cons (.plain (by unfold special; decide)) .nil)))
  rintro ⟨a, l, r, m, n, e, h1, _⟩
  injection e with e
  exact (hexDigit_plain h1).2 e.symm

/-- The value `50% & ü` of the field `what` arrives. -/
example (repair : Bytes → Str) :
    parseQueries (urlParse repair) forwards backwards (.struct [⟨s "what", [], string, none⟩] none)
      (hexForm [(s "what", s "50% & ü")]) = .ok (.ok (.struct [.str (s "50% & ü")])) :=
  C62_texts repair forwards_visits backwards_visits (pairs := [(s "what", s "50% & ü")]) (by decide +kernel)
    (by decide +kernel) (hexForm_writes _) none

/-- **C39 fails** for forms as clients send them. -/
theorem C39_false_urlencoded (c : Context U) (repair : Bytes → Str) :
    ∃ (whole split : Body) (shape : Shape), whole.bytes = split.bytes ∧ whole.fails = false ∧
      split.fails = false ∧
      (({ c with request := { c.request with body := whole } } : Context U).form
        (parseQueries (urlParse repair) forwards forwards shape)).map (·.1) =
        .ok (.ok (.struct [.int 1, .int 2])) ∧
      (({ c with request := { c.request with body := split } } : Context U).form
        (parseQueries (urlParse repair) forwards forwards shape)).map (·.1) =
        .ok (.error (.formError (.message (s "missing field `b`")))) := by
  have pair : ∀ {k v : Str} (b1 b2 : UInt8), utf8 k = [b1] → utf8 v = [b2] → ¬ special b1 → ¬ special b2 →
      b1 ≠ 61 → WritesPart (utf8 k, utf8 v) [b1, 61, b2] := by
    intro k v b1 b2 h1 h2 s1 s2 s3
    rw [h1, h2]
    refine .both (ek := [b1]) (ev := [b2]) (by simpa using s3.symm) ?_ ?_
    · exact .cons (e := [b1]) (es := []) (.plain s1) .nil
    · exact .cons (e := [b2]) (es := []) (.plain s2) .nil
  have a1 : WritesPart (utf8 (s "a"), utf8 (s "1")) [97, 61, 49] :=
    pair 97 49 (by decide +kernel) (by decide +kernel) (by unfold special; decide) (by unfold special; decide) (by decide)
  have b2 : WritesPart (utf8 (s "b"), utf8 (s "2")) [98, 61, 50] :=
    pair 98 50 (by decide +kernel) (by decide +kernel) (by unfold special; decide) (by unfold special; decide) (by decide)
  refine C39_false c (urlParse repair) (urlParse_writes repair ?_) (urlParse_writes repair ?_)
  · have : utf8 (s "a=1&b=2") = [97, 61, 49] ++ 38 :: [98, 61, 50] := by decide +kernel
    rw [this]; exact .more a1 (.one b2)
  · have : utf8 (s "a=1") = [97, 61, 49] := by decide +kernel
    rw [this]; exact .one a1

end Obsidian.Props
