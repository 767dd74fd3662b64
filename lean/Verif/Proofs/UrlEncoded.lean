import Verif.Model.UrlEncoded
import Verif.Spec.UrlEncoded
import Verif.Proofs.Static

/- Reading what clients write. -/
namespace Obsidian
open Spec

theorem hexVal_digit {c : UInt8} {n : Nat} (h : HexDigit c n) : hexVal c = some (UInt8.ofNat n) ∧ n < 16 := by
  have hn : n < 16 := by
    rcases h with h | h
    all_goals
      refine Classical.byContradiction fun hn => ?_
      rw [List.getElem?_eq_none (by simp; omega)] at h
      exact nomatch h
  refine ⟨?_, hn⟩
  have key : ∀ (c : UInt8) (k : Nat), some k = some c.toNat → c = UInt8.ofNat k := by
    intro c k h
    injection h with h
    rw [h, UInt8.ofNat_toNat]
  have cases16 : n = 0 ∨ n = 1 ∨ n = 2 ∨ n = 3 ∨ n = 4 ∨ n = 5 ∨ n = 6 ∨ n = 7 ∨ n = 8 ∨ n = 9 ∨ n = 10 ∨ n = 11 ∨
      n = 12 ∨ n = 13 ∨ n = 14 ∨ n = 15 := by omega
  rcases cases16 with rfl | rfl | rfl | rfl | rfl | rfl | rfl | rfl | rfl | rfl | rfl | rfl | rfl | rfl | rfl | rfl <;>
  rcases h with h | h <;> (have := key c _ h; subst this; decide)

theorem hexVal_some {c a : UInt8} (h : hexVal c = some a) : HexDigit c a.toNat := by
  have key : ∀ n : Fin 256, ∀ a, hexVal (UInt8.ofNat n) = some a → HexDigit (UInt8.ofNat n) a.toNat := by
    unfold HexDigit
    decide +kernel
  have := key ⟨c.toNat, c.toNat_lt⟩
  simp only [UInt8.ofNat_toNat] at this
  exact this a h

theorem hexDigit_plain {c : UInt8} {n : Nat} (h : HexDigit c n) : ¬ special c ∧ c ≠ 61 := by
  have := (hexVal_digit h).1
  refine ⟨?_, ?_⟩
  · rintro (rfl | rfl | rfl) <;> exact absurd this (by simp [hexVal])
  · rintro rfl; exact absurd this (by simp [hexVal])

theorem percentDecode_plain {c : UInt8} (h : c ≠ 37) (r : Bytes) : percentDecode (c :: r) = c :: percentDecode r := by
  rw [percentDecode.eq_def]; simp only [if_neg h]

theorem percentDecode_hex {h l a b : UInt8} (h1 : hexVal h = some a) (h2 : hexVal l = some b) (r : Bytes) :
    percentDecode (37 :: h :: l :: r) = (a * 16 + b) :: percentDecode r := by
  rw [percentDecode.eq_def]; simp only [if_true, h1, h2]

theorem percentDecode_bare {r : Bytes} (h : ∀ h l r' a b, r = h :: l :: r' → hexVal h = some a → hexVal l = some b → False) :
    percentDecode (37 :: r) = 37 :: percentDecode r := by
  rw [percentDecode.eq_def]
  simp only [if_true]
  match r with
  | [] => simp [percentDecode]
  | [x] => rfl
  | x :: y :: r' =>
    have := h x y r'
    cases hx : hexVal x with
    | none => simp only [hx]
    | some a =>
      cases hy : hexVal y with
      | none => simp only [hx, hy]
      | some b => exact (this a b rfl hx hy).elim

/-- The replacement of plus signs. -/
def plus (c : UInt8) : UInt8 := if c = 43 then 32 else c

theorem plus_plain {c : UInt8} (h : ¬ special c) : plus c = c := by
  rw [plus, if_neg]; rintro rfl; exact h (.inr (.inr rfl))

theorem plus_hex {c a : UInt8} (h : hexVal (plus c) = some a) : hexVal c = some a := by
  rw [plus] at h
  split at h
  · rw [show hexVal 32 = none by decide] at h; exact nomatch h
  · exact h

theorem decode_writes {bs es : List UInt8} (h : Writes bs es) : percentDecode (es.map plus) = bs := by
  induction h with
  | nil => rfl
  | bare hn _ ih =>
    rw [List.map_cons]
    show percentDecode (37 :: _) = _
    rw [percentDecode_bare, ih]
    intro h l r' a b hr h1 h2
    rename_i es _
    match es, hr with
    | x :: y :: r, hr =>
      simp only [List.map_cons, List.cons.injEq] at hr
      obtain ⟨rfl, rfl, _⟩ := hr
      exact hn ⟨_, _, _, _, _, rfl, hexVal_some (plus_hex h1), hexVal_some (plus_hex h2)⟩
  | cons hb _ ih =>
    rw [List.map_append]
    cases hb with
    | plain hs =>
      rw [List.map_cons, List.map_nil, plus_plain hs, List.cons_append, List.nil_append,
        percentDecode_plain (fun h => hs (.inl h)), ih]
    | plus =>
      show percentDecode (32 :: List.map Obsidian.plus _) = _
      rw [percentDecode_plain (by decide), ih]
    | percent h1 h2 h3 =>
      rename_i b _ _ hh ll m n
      have e1 := hexVal_digit h1
      have e2 := hexVal_digit h2
      rw [List.map_cons, List.map_cons, List.map_cons, List.map_nil, plus_plain (hexDigit_plain h1).1,
        plus_plain (hexDigit_plain h2).1]
      show percentDecode (37 :: hh :: ll :: List.map plus _) = _
      rw [percentDecode_hex e1.1 e2.1, ih]
      congr 1
      apply UInt8.toNat.inj
      rw [UInt8.toNat_add, UInt8.toNat_mul, h3, UInt8.toNat_ofNat', UInt8.toNat_ofNat']
      have := e1.2
      have := e2.2
      show (m % 256 * 16 % 256 + n % 256) % 256 = 16 * m + n
      omega

theorem writes_plain {bs es : List UInt8} (h : Writes bs es) : 38 ∉ es := by
  induction h with
  | nil => exact nofun
  | bare _ _ ih => exact fun h => (List.mem_cons.1 h).elim (by decide) ih
  | cons hb _ ih =>
    simp only [List.mem_append]
    cases hb with
    | plain hs =>
      rintro (h | h)
      · rw [List.mem_singleton] at h; exact hs (.inr (.inl h.symm))
      · exact ih h
    | plus => exact fun h => h.elim (by decide) ih
    | percent h1 h2 h3 =>
      have p1 := (hexDigit_plain h1).1
      have p2 := (hexDigit_plain h2).1
      rintro (h | h)
      · simp only [List.mem_cons, List.not_mem_nil, or_false] at h
        rcases h with h | h | h
        · exact absurd h (by decide)
        · exact p1 (.inr (.inl h.symm))
        · exact p2 (.inr (.inl h.symm))
      · exact ih h

/-- Every text without `&` is a way to write something. -/
theorem writes_exists : ∀ (n : Nat) (es : List UInt8), es.length ≤ n → 38 ∉ es → ∃ bs, Writes bs es
  | _, [], _, _ => ⟨[], .nil⟩
  | 0, c :: r, h, _ => by simp at h
  | n + 1, c :: r, h, h38 => by
    have h38' : 38 ∉ r := fun h => h38 (List.mem_cons_of_mem _ h)
    have hlen : r.length ≤ n := by simp at h; omega
    by_cases hc : c = 37
    · subst hc
      by_cases ht : TwoDigits r
      · obtain ⟨a, l, r', m, k, rfl, h1, h2⟩ := ht
        obtain ⟨bs, hb⟩ := writes_exists n r' (by simp at hlen; omega) (fun h => h38' (by simp [h]))
        have e1 := (hexVal_digit h1).2
        have e2 := (hexVal_digit h2).2
        refine ⟨UInt8.ofNat (16 * m + k) :: bs, .cons (e := [37, a, l]) (.percent h1 h2 ?_) hb⟩
        rw [UInt8.toNat_ofNat']
        show (16 * m + k) % 256 = _
        omega
      · obtain ⟨bs, hb⟩ := writes_exists n r hlen h38'
        exact ⟨_, .bare ht hb⟩
    · obtain ⟨bs, hb⟩ := writes_exists n r hlen h38'
      by_cases hp : c = 43
      · subst hp; exact ⟨_, .cons (e := [43]) .plus hb⟩
      · refine ⟨_, .cons (e := [c]) (.plain ?_) hb⟩
        rintro (h | h | h)
        · exact hc h
        · exact h38 (by simp [h])
        · exact hp h

/-- The text that is read. -/
def textOf (repair : Bytes → Str) (bs : Bytes) : Str := (fromUtf8 bs).getD (repair bs)

theorem textOf_utf8 (repair : Bytes → Str) (t : Str) : textOf repair (utf8 t) = t := by
  rw [textOf, fromUtf8_eq.2 rfl]; rfl

theorem urlDecode_writes (repair : Bytes → Str) {bs es : List UInt8} (h : Writes bs es) :
    urlDecode repair es = textOf repair bs := by
  have := decode_writes h
  rw [urlDecode, textOf]
  show (fromUtf8 (percentDecode (es.map plus))).getD _ = _
  rw [this]
  show _ = (fromUtf8 bs).getD (repair bs)
  congr 2

theorem splitFirst_at {sep : UInt8} {a b : Bytes} (h : sep ∉ a) : splitFirst sep (a ++ sep :: b) = (a, b) := by
  induction a with
  | nil => simp [splitFirst]
  | cons c a ih =>
    rw [List.cons_append, splitFirst, if_neg (fun e => h (by simp [e])), ih (fun e => h (by simp [e]))]

theorem splitFirst_none {sep : UInt8} {a : Bytes} (h : sep ∉ a) : splitFirst sep a = (a, []) := by
  induction a with
  | nil => rfl
  | cons c a ih => rw [splitFirst, if_neg (fun e => h (by simp [e])), ih (fun e => h (by simp [e]))]

theorem splitBytes_none {sep : UInt8} {a : Bytes} (h : sep ∉ a) : splitBytes sep a = [a] := by
  induction a with
  | nil => rfl
  | cons c a ih => rw [splitBytes, if_neg (fun e => h (by simp [e])), ih (fun e => h (by simp [e]))]

theorem splitBytes_at {sep : UInt8} {a b : Bytes} (h : sep ∉ a) :
    splitBytes sep (a ++ sep :: b) = a :: splitBytes sep b := by
  induction a with
  | nil => simp [splitBytes]
  | cons c a ih =>
    rw [List.cons_append, splitBytes, if_neg (fun e => h (by simp [e])), ih (fun e => h (by simp [e]))]

theorem writes_ne {bs es : List UInt8} (h : Writes bs es) (ht : bs ≠ []) : es ≠ [] := by
  rintro rfl
  have := decode_writes h
  rw [List.map_nil, percentDecode] at this
  exact ht this.symm

/-- The texts that are read. -/
def textsOf (repair : Bytes → Str) (p : Bytes × Bytes) : Str × Str := (textOf repair p.1, textOf repair p.2)

theorem writesPart_read {α : Type} {d g : Bytes → α} (hd : ∀ {bs es}, Writes bs es → d es = g bs) {p : Bytes × Bytes}
    {e : List UInt8} (h : WritesPart p e) :
    e ≠ [] ∧ 38 ∉ e ∧ (d (splitFirst 61 e).1, d (splitFirst 61 e).2) = (g p.1, g p.2) := by
  cases h with
  | both h0 h1 h2 =>
    refine ⟨by simp, ?_, ?_⟩
    · simp only [List.mem_append, List.mem_cons]
      rintro (h | h | h)
      · exact writes_plain h1 h
      · exact absurd h (by decide)
      · exact writes_plain h2 h
    · rw [splitFirst_at h0, hd h1, hd h2]
  | name hk h0 h1 =>
    refine ⟨writes_ne h1 hk, writes_plain h1, ?_⟩
    rw [splitFirst_none h0, hd h1, hd .nil]

theorem parse_parts {α : Type} {d g : Bytes → α} (hd : ∀ {bs es}, Writes bs es → d es = g bs) {ps : List (Bytes × Bytes)}
    {q : List UInt8} (h : WritesParts ps q) :
    (((splitBytes 38 q).filter (fun x => !x.isEmpty)).map fun x => (d (splitFirst 61 x).1, d (splitFirst 61 x).2)) =
      ps.map fun p => (g p.1, g p.2) := by
  have ne : ∀ {e : List UInt8}, e ≠ [] → (!e.isEmpty) = true := by intro e he; cases e <;> simp_all
  induction h with
  | nil => rfl
  | one hp =>
    obtain ⟨h1, h2, h3⟩ := writesPart_read hd hp
    rw [splitBytes_none h2, List.filter_cons, if_pos (ne h1), List.filter_nil, List.map_cons, h3]
    rfl
  | more hp _ ih =>
    obtain ⟨h1, h2, h3⟩ := writesPart_read hd hp
    rw [splitBytes_at h2, List.filter_cons, if_pos (ne h1), List.map_cons, h3, ih, List.map_cons]
  | skip _ ih =>
    rw [splitBytes, if_pos rfl, List.filter_cons, if_neg (by simp)]
    exact ih

theorem urlParse_parts (repair : Bytes → Str) {ps : List (Bytes × Bytes)} {q : List UInt8} (h : WritesParts ps q) :
    urlParse repair q = ps.map (textsOf repair) :=
  parse_parts (urlDecode_writes repair) h

theorem parts_unique {ps ps' : List (Bytes × Bytes)} {q : List UInt8} (h : WritesParts ps q) (h' : WritesParts ps' q) : ps = ps' := by
  have e := (parse_parts (g := id) decode_writes h).symm.trans (parse_parts decode_writes h')
  simpa using e

theorem textOf_reads {repair : Bytes → Str} {bs : Bytes} {t : Str} : textOf repair bs = t ↔ ReadsAs repair bs t := by
  rw [textOf, ReadsAs]
  cases h : fromUtf8 bs with
  | none =>
    have hn : ∀ t', utf8 t' ≠ bs := fun t' e => by rw [fromUtf8_eq.2 e] at h; exact nomatch h
    constructor
    · intro e; exact .inr ⟨hn, e.symm⟩
    · rintro (e | e)
      · exact absurd e (hn t)
      · exact e.2.symm
  | some x =>
    have hx : utf8 x = bs := fromUtf8_eq.1 h
    constructor
    · intro e; exact .inl (by rw [← e]; exact hx)
    · rintro (e | e)
      · have := fromUtf8_eq.2 e
        rw [h] at this; injection this
      · exact absurd hx (e.1 x)

/-- Whatever way a form is written, reading it gives the pairs. -/
theorem urlParse_writes (repair : Bytes → Str) {ps : List (Str × Str)} {q : List UInt8} (h : WritesForm ps q) :
    urlParse repair q = ps := by
  rw [urlParse_parts repair h, List.map_map]
  have : (textsOf repair ∘ fun p : Str × Str => (utf8 p.1, utf8 p.2)) = id := by
    funext p; simp [textsOf, textOf_utf8]
  rw [this, List.map_id]

theorem split_at {c : UInt8} : ∀ {q : List UInt8}, c ∈ q → ∃ a b, q = a ++ c :: b ∧ c ∉ a
  | x :: q, h => by
    by_cases hx : x = c
    · exact ⟨[], q, by simp [hx], by simp⟩
    · obtain ⟨a, b, rfl, h2⟩ := split_at (q := q) ((List.mem_cons.1 h).resolve_left fun e => hx e.symm)
      exact ⟨x :: a, b, rfl, fun h => (List.mem_cons.1 h).elim (fun e => hx e.symm) h2⟩

theorem part_exists {e : List UInt8} (hne : e ≠ []) (h : 38 ∉ e) : ∃ p, WritesPart p e := by
  by_cases h61 : 61 ∈ e
  · obtain ⟨a, b, rfl, ha⟩ := split_at h61
    obtain ⟨k, hk⟩ := writes_exists _ a (Nat.le_refl _) (fun h' => h (by simp [h']))
    obtain ⟨v, hv⟩ := writes_exists _ b (Nat.le_refl _) (fun h' => h (by simp [h']))
    exact ⟨(k, v), .both ha hk hv⟩
  · obtain ⟨k, hk⟩ := writes_exists _ e (Nat.le_refl _) h
    refine ⟨(k, []), .name ?_ h61 hk⟩
    rintro rfl
    cases hk
    exact hne rfl

/-- Every text is a way to write a form. -/
theorem parts_exist : ∀ (n : Nat) (q : List UInt8), q.length ≤ n → ∃ ps, WritesParts ps q
  | _, [], _ => ⟨[], .nil⟩
  | 0, c :: r, h => by simp at h
  | n + 1, c :: r, h => by
    by_cases h38 : 38 ∈ c :: r
    · obtain ⟨a, b, hab, ha⟩ := split_at h38
      have hl : (c :: r).length = a.length + b.length + 1 := by rw [hab]; simp; omega
      obtain ⟨ps, hps⟩ := parts_exist n b (by omega)
      rw [hab]
      by_cases h0 : a = []
      · subst h0; exact ⟨ps, .skip hps⟩
      · obtain ⟨p, hp⟩ := part_exists h0 ha
        exact ⟨p :: ps, .more hp hps⟩
    · obtain ⟨p, hp⟩ := part_exists (by simp) h38
      exact ⟨[p], .one hp⟩

end Obsidian
