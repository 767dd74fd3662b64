import Verif.Spec.FlatOrder
import Verif.Props.FlatComplain
import Verif.Props.Form

/-
C100: flattened parts and the order in which hash maps are visited.
-/
namespace Obsidian.Props
open Obsidian Spec

theorem taken_unique : ∀ {t : Ty} {x : Str} {v v' : Val}, Taken t x v → Taken t x v' → v = v'
  | .scalar .string, _, _, _, h, h' => by rw [Taken] at h h'; rw [h, h']
  | .scalar .char, _, _, _, ⟨c, h1, h2⟩, ⟨c', h1', h2'⟩ => by rw [h1] at h1'; cases h1'; rw [h2, h2']
  | .scalar (.ofString f), _, _, _, h, h' => by rw [Taken] at h h'; rw [h] at h'; injection h'
  | .option t, _, _, _, ⟨v, h1, h2⟩, ⟨v', h1', h2'⟩ => by rw [h1, h1', taken_unique h2 h2']
  | .newtype t, _, _, _, h, h' => taken_unique (t := t) h h'
  | .scalar .bool, _, _, _, h, _ => h.elim
  | .scalar (.int _ _), _, _, _, h, _ => h.elim
  | .scalar (.float _), _, _, _, h, _ => h.elim
  | .unit, _, _, _, h, _ => h.elim
  | .seq _, _, _, _, h, _ => h.elim
  | .tuple _ _, _, _, _, h, _ => h.elim
  | .fails _, _, _, _, h, _ => h.elim

theorem takenFlat_unique {t : FlatTy} {x : Str} {v v' : Val} (h : TakenFlat t x v) (h' : TakenFlat t x v') : v = v' := by
  cases t with
  | of t => exact taken_unique (t := t) h h'
  | enum vs =>
    obtain ⟨i, h1, h2, h3⟩ := h
    obtain ⟨j, h1', h2', h3'⟩ := h'
    have : i = j := by
      rcases Nat.lt_trichotomy i j with h | h | h
      · exact absurd h2 (h3' i h)
      · exact h
      · exact absurd h2' (h3 j h)
    rw [h1, h1', this]

theorem flatValue_unique {a : Str → Option Str} {f : FlatField} {v v' : Val} (h : FlatValue a f v) (h' : FlatValue a f v') : v = v' := by
  unfold FlatValue at h h'
  cases ha : a f.name with
  | some x => rw [ha] at h h'; exact takenFlat_unique h h'
  | none =>
    rw [ha] at h h'
    rcases h with h | ⟨h, _, h0⟩ <;> rcases h' with h' | ⟨h', _, h0'⟩
    · rw [h] at h'; injection h'
    · rw [h] at h'; cases h'
    · rw [h] at h'; cases h'
    · rw [h0, h0']

theorem each_unique {α β : Type} {R : α → β → Prop} (hR : ∀ a b b', R a b → R a b' → b = b') {as : List α} {bs bs' : List β}
    (h : Each R as bs) (h' : Each R as bs') : bs = bs' := by
  induction h generalizing bs' with
  | nil => cases h'; rfl
  | cons h1 _ ih => cases h' with | cons h2 h3 => rw [hR _ _ _ h1 h2, ih h3]

theorem partsValue_unique : ∀ {ps : List Part} {a : Str → Option Str} {r r' : List PartVal},
    PartsValue ps a r → PartsValue ps a r' → Each SamePart r r'
  | [], _, _, _, h, h' => by rw [PartsValue] at h h'; rw [h, h']; exact .nil
  | .struct fs :: ps, a, r, r', ⟨vs, q, h1, h2, h3⟩, ⟨vs', q', h1', h2', h3'⟩ => by
    rw [h1, h1', each_unique (R := FlatValue a) (fun _ _ _ => flatValue_unique) h2 h2']
    exact .cons rfl (partsValue_unique h3 h3')
  | .option fs :: ps, a, r, r', ⟨o, q, h1, h2, h3⟩, ⟨o', q', h1', h2', h3'⟩ => by
    have : o = o' := by
      rcases h2 with ⟨vs, h4, h5⟩ | ⟨h4, h5⟩ <;> rcases h2' with ⟨vs', h4', h5'⟩ | ⟨h4', h5'⟩
      · rw [h4, h4', each_unique (R := FlatValue a) (fun _ _ _ => flatValue_unique) h5 h5']
      · exact absurd ⟨vs, h5⟩ h5'
      · exact absurd ⟨vs', h5'⟩ h5
      · rw [h4, h4']
    rw [h1, h1', this]
    exact .cons rfl (partsValue_unique h3 h3')
  | .map t :: ps, a, r, r', ⟨m, q, h1, h2, h3⟩, ⟨m', q', h1', h2', h3'⟩ => by
    rw [h1, h1']
    refine .cons (fun k => ?_) (partsValue_unique h3 h3')
    cases ha : a k with
    | none => rw [(h2 k).2 ha, (h2' k).2 ha]
    | some x =>
      obtain ⟨v, h4, h5⟩ := (h2 k).1 x ha
      obtain ⟨v', h4', h5'⟩ := (h2' k).1 x ha
      rw [h5, h5', takenFlat_unique h4 h4']

/-- **C100 fails**: an optional part that cannot be read has already taken some of the texts, and which ones
depends on the order of the map; the part after it gets the others. -/
theorem C100_false : ∃ (i j : Iter), Visits i ∧ Visits j ∧
    ∃ (parts : List Part) (q : List (Str × Str)) (m m' : HMap Str Val),
      parts = [.option [⟨s "page", .of (.scalar (.int false 32)), none⟩, ⟨s "sort", .of (.scalar .string), none⟩], .map (.of (.scalar .string))] ∧
      q = [(s "page", s "5"), (s "sort", s "up")] ∧
      parseQueriesFlat (fun _ => q) i i demoTexts [] parts [] = .ok (.ok ⟨[], [.option none, .map m]⟩) ∧
      parseQueriesFlat (fun _ => q) j i demoTexts [] parts [] = .ok (.ok ⟨[], [.option none, .map m']⟩) ∧
      m.get (s "sort") = some (.str (s "up")) ∧ m'.get (s "sort") = none :=
  ⟨forwards, backwards, forwards_visits, backwards_visits, _, _, _, _, rfl, rfl, rfl, rfl, by decide +kernel, by decide +kernel⟩

/-- **C100, what holds**: the orders do not matter, neither for whether the struct is read, nor for what is
read, if no part after an optional one has to do with the texts of its fields. Missing: maps after optional
parts, and parts that share names with an optional part before them, where the claim is false; the texts of
errors (see C98). -/
theorem C100_order_partial {urlParse : Bytes → List (Str × Str)} {i1 i2 j1 j2 : Iter} (h1 : Visits i1) (h2 : Visits i2)
    (h1' : Visits j1) (h2' : Visits j2) (tx : Texts) {own : List Field} (hown : Distinct own) {parts : List Part} (hd : PartsDistinct parts)
    (ho : OptionApart parts) {q : Bytes} {d : FlatDecoded}
    (h : parseQueriesFlat urlParse i1 i2 tx own parts q = .ok (.ok d)) :
    ∃ d', parseQueriesFlat urlParse j1 j2 tx own parts q = .ok (.ok d') ∧ d'.own = d.own ∧ Each SamePart d.parts d'.parts := by
  obtain ⟨h3, h4⟩ := C93_parts h1 h2 hd ho h
  have h5 := (C36_form hown urlParse h1 h2 h1' h2' q _).1 h3
  obtain ⟨ps, h6⟩ := C93_read h1' h2' (tx := tx) hd ho h5 h4
  exact ⟨_, h6, rfl, partsValue_unique h4 (C93_parts h1' h2' hd ho h6).2⟩

/-- Two optional parts and a struct, none of which shares a name with another. -/
def apartDemo : List Part :=
  [.map (.of (.scalar .string)), .option [⟨s "page", .of (.scalar (.int false 32)), none⟩], .struct [⟨s "sort", .of (.scalar .string), none⟩],
    .option [⟨s "first", .of (.scalar .string), none⟩]]

example : PartsDistinct apartDemo ∧ OptionApart apartDemo ∧
    ∃ d, parseQueriesFlat (fun _ => [(s "page", s "5"), (s "sort", s "up")]) forwards forwards demoTexts [] apartDemo [] = .ok (.ok d) ∧
    ∃ d', parseQueriesFlat (fun _ => [(s "page", s "5"), (s "sort", s "up")]) backwards forwards demoTexts [] apartDemo [] = .ok (.ok d') ∧
      Each SamePart d.parts d'.parts := by
  have h1 : PartsDistinct apartDemo := by
    intro p hp
    simp only [apartDemo, List.mem_cons, List.not_mem_nil, or_false] at hp
    rcases hp with rfl | rfl | rfl | rfl
    · trivial
    all_goals simp
  have h2 : OptionApart apartDemo := by
    have e1 : s "sort" ≠ s "page" := by decide +kernel
    have e2 : s "first" ≠ s "page" := by decide +kernel
    simp [apartDemo, OptionApart, Apart, e1, e2]
  refine ⟨h1, h2, _, rfl, ?_⟩
  obtain ⟨d', h3, _, h4⟩ := C100_order_partial (urlParse := fun _ => [(s "page", s "5"), (s "sort", s "up")]) (q := []) forwards_visits forwards_visits
    backwards_visits forwards_visits demoTexts (own := []) (by simp [Distinct]) h1 h2 rfl
  exact ⟨d', h3, h4⟩

end Obsidian.Props
