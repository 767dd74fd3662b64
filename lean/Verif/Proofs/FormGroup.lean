import Verif.Proofs.FormStruct

/- Grouping of form values. -/
namespace Obsidian
open Spec

/-! ### Maps as lists of entries -/

namespace HMap
variable {K V : Type} [DecidableEq K]

/-- No key occurs twice. -/
def Wf (m : HMap K V) : Prop := (m.entries.map (·.1)).Nodup

theorem wf_empty : (HMap.empty : HMap K V).Wf := by simp [Wf, HMap.empty]

theorem wf_insert {m : HMap K V} (h : m.Wf) (k : K) (v : V) : (m.insert k v).Wf := by
  rw [Wf, HMap.insert]
  simp only [List.map_cons, List.nodup_cons]
  constructor
  · simp
  · exact List.Nodup.sublist (List.Sublist.map _ List.filter_sublist) h

theorem lookup_eq_some {l : List (K × V)} (h : (l.map (·.1)).Nodup) {k : K} {v : V} :
    l.lookup k = some v ↔ (k, v) ∈ l := by
  induction l with
  | nil => simp
  | cons e l ih =>
    obtain ⟨a, b⟩ := e
    simp only [List.map_cons, List.nodup_cons] at h
    rw [List.lookup]
    by_cases ha : k = a
    · subst ha
      simp only [beq_self_eq_true]
      constructor
      · intro h'; injection h' with h'; subst h'; simp
      · intro h'
        rcases List.mem_cons.1 h' with h' | h'
        · injection h' with _ h'; rw [h']
        · exact absurd (List.mem_map_of_mem (f := (·.1)) h') h.1
    · have : (k == a) = false := by simpa using ha
      rw [this]
      rw [ih h.2]
      simp [ha]

theorem get_eq_some {m : HMap K V} (h : m.Wf) {k : K} {v : V} : m.get k = some v ↔ (k, v) ∈ m.entries :=
  lookup_eq_some h

end HMap

theorem keysDistinct_perm {es es' : List (Str × List Str)} (h : es.Perm es') (hk : KeysDistinct es) :
    KeysDistinct es' := (h.map _).nodup_iff.1 hk

/-! ### Grouping -/

/-- One step of `groupPairs`. -/
def groupStep (m : HMap Str (List Str)) (p : Str × Str) : HMap Str (List Str) :=
  if !p.2.isEmpty then m.insert p.1 (((m.get p.1).getD []) ++ [p.2]) else m

theorem groupPairs_eq (pairs : List (Str × Str)) : groupPairs pairs = pairs.foldl groupStep HMap.empty := rfl

theorem groupPairs_spec (pairs : List (Str × Str)) (m : HMap Str (List Str)) (hm : m.Wf) :
    (pairs.foldl groupStep m).Wf ∧ ∀ k, (pairs.foldl groupStep m).get k =
      if valuesOf pairs k = [] then m.get k else some (((m.get k).getD []) ++ valuesOf pairs k) := by
  induction pairs generalizing m with
  | nil => exact ⟨hm, fun k => by simp [valuesOf]⟩
  | cons p pairs ih =>
    obtain ⟨k0, v0⟩ := p
    rw [List.foldl_cons]
    cases v0 with
    | nil =>
      have : groupStep m (k0, []) = m := by simp [groupStep]
      rw [this]
      obtain ⟨h1, h2⟩ := ih m hm
      refine ⟨h1, fun k => ?_⟩
      have e : valuesOf ((k0, []) :: pairs) k = valuesOf pairs k := by simp [valuesOf]
      rw [e]; exact h2 k
    | cons c v =>
      have e0 : groupStep m (k0, c :: v) = m.insert k0 (((m.get k0).getD []) ++ [c :: v]) := by
        simp [groupStep]
      rw [e0]
      obtain ⟨h1, h2⟩ := ih _ (HMap.wf_insert hm k0 (((m.get k0).getD []) ++ [c :: v]))
      refine ⟨h1, fun k => ?_⟩
      rw [h2 k, HMap.get_insert]
      by_cases hk : k0 = k
      · subst hk
        have e : valuesOf ((k0, c :: v) :: pairs) k0 = (c :: v) :: valuesOf pairs k0 := by simp [valuesOf]
        rw [e]
        by_cases hn : valuesOf pairs k0 = []
        · simp [hn]
        · simp [hn]
      · have e : valuesOf ((k0, c :: v) :: pairs) k = valuesOf pairs k := by
          simp only [valuesOf, List.filterMap_cons]
          rw [if_neg (by simp [hk])]
        have hk' : ¬ k = k0 := fun h => hk h.symm
        rw [e, if_neg hk']

/-- One step of `cowMap`. -/
def cowStep (m : HMap Str (List Str)) (e : Str × List Str) : HMap Str (List Str) :=
  match m.get e.1 with | some _ => m | none => m.insert e.1 e.2

theorem cowMap_eq (es : List (Str × List Str)) : cowMap es = es.foldl cowStep HMap.empty := rfl

theorem cowMap_spec (es : List (Str × List Str)) (m : HMap Str (List Str)) (hm : m.Wf)
    (hk : KeysDistinct es) (hd : ∀ e ∈ es, m.get e.1 = none) :
    (es.foldl cowStep m).Wf ∧ ∀ k vs, (es.foldl cowStep m).get k = some vs ↔
      (k, vs) ∈ es ∨ m.get k = some vs := by
  induction es generalizing m with
  | nil => exact ⟨hm, fun k vs => by simp⟩
  | cons e es ih =>
    obtain ⟨k0, v0⟩ := e
    rw [KeysDistinct, List.map_cons, List.nodup_cons] at hk
    have hm0 := hd (k0, v0) (by simp)
    have e0 : cowStep m (k0, v0) = m.insert k0 v0 := by simp only [cowStep]; dsimp only at hm0; rw [hm0]
    rw [List.foldl_cons, e0]
    obtain ⟨h1, h2⟩ := ih _ (HMap.wf_insert hm k0 v0) hk.2 (by
      intro e he
      rw [HMap.get_insert, if_neg]
      · exact hd e (by simp [he])
      · intro h; exact hk.1 (h ▸ List.mem_map_of_mem (f := (·.1)) he))
    refine ⟨h1, fun k vs => ?_⟩
    rw [h2, HMap.get_insert]
    by_cases hkk : k = k0
    · subst hkk
      dsimp only at hm0
      simp only [if_true, hm0, List.mem_cons, Prod.mk.injEq, true_and, Option.some.injEq]
      constructor
      · rintro (h | h)
        · exact .inl (.inr h)
        · exact .inl (.inl h.symm)
      · rintro ((h | h) | h)
        · exact .inr h.symm
        · exact .inl h
        · simp at h
    · simp [hkk]

/-- The entries that are decoded. -/
theorem entries_spec {i1 i2 : Iter} (h1 : Visits i1) (h2 : Visits i2) (pairs : List (Str × Str)) :
    KeysDistinct (i2 (cowMap (i1 (groupPairs pairs)))) ∧
    ∀ k vs, (k, vs) ∈ i2 (cowMap (i1 (groupPairs pairs))) ↔ vs = valuesOf pairs k ∧ vs ≠ [] := by
  obtain ⟨g1, g2⟩ := groupPairs_spec pairs HMap.empty HMap.wf_empty
  rw [← groupPairs_eq] at g1 g2
  have p1 := h1 (groupPairs pairs)
  have k1 : KeysDistinct (i1 (groupPairs pairs)) := keysDistinct_perm p1.symm g1
  obtain ⟨c1, c2⟩ := cowMap_spec (i1 (groupPairs pairs)) HMap.empty HMap.wf_empty k1 (by simp)
  rw [← cowMap_eq] at c1 c2
  have p2 := h2 (cowMap (i1 (groupPairs pairs)))
  refine ⟨keysDistinct_perm p2.symm c1, fun k vs => ?_⟩
  rw [p2.mem_iff, ← HMap.get_eq_some c1, c2, p1.mem_iff, ← HMap.get_eq_some g1, g2]
  by_cases hn : valuesOf pairs k = []
  · simp [hn]
  · simp only [hn, if_false, HMap.get_empty, Option.getD_none, List.nil_append, Option.some.injEq]
    constructor
    · rintro (rfl | h)
      · exact ⟨rfl, hn⟩
      · simp at h
    · rintro ⟨rfl, _⟩; exact .inl rfl

theorem valuesOf_ne {pairs : List (Str × Str)} {k x : Str} (h : x ∈ valuesOf pairs k) : x ≠ [] := by
  unfold valuesOf at h
  obtain ⟨p, _, h2⟩ := List.mem_filterMap.1 h
  split at h2
  · next h3 => injection h2 with h2; subst h2; exact h3.2
  · simp at h2

theorem nodup_of_map {α β : Type} {f : α → β} {l : List α} (h : (l.map f).Nodup) : l.Nodup := by
  induction l with
  | nil => simp
  | cons a l ih =>
    rw [List.map_cons, List.nodup_cons] at h
    exact List.nodup_cons.2 ⟨fun h' => h.1 (List.mem_map_of_mem h'), ih h.2⟩

/-- Two lists of entries with the same members are permutations of each other, if no key occurs twice. -/
theorem perm_of_mem {es es' : List (Str × List Str)} (h : KeysDistinct es) (h' : KeysDistinct es')
    (hm : ∀ e, e ∈ es ↔ e ∈ es') : es.Perm es' := by
  have n1 : es.Nodup := by
    rw [KeysDistinct] at h
    exact nodup_of_map h
  have n2 : es'.Nodup := by
    rw [KeysDistinct] at h'
    exact nodup_of_map h'
  exact (List.perm_ext_iff_of_nodup n1 n2).2 hm

/-! ### Independence of the order -/

theorem Spec.FieldValue.congr {dec dec' : Ty → List Str → Val → Prop} {es es' : List (Str × List Str)}
    {f : Field} {v : Val} (hm : ∀ e, e ∈ es ↔ e ∈ es')
    (hd : ∀ e ∈ es, f.has e.1 = true → dec f.ty e.2 v → dec' f.ty e.2 v)
    (h : FieldValue dec es f v) : FieldValue dec' es' f v := by
  rcases h with ⟨e, he, h1, h2, h3⟩ | ⟨h1, h2⟩
  · exact .inl ⟨e, (hm e).1 he, h1, fun e' he' => h2 e' ((hm e').2 he'), hd e he h1 h3⟩
  · exact .inr ⟨fun e he => h1 e ((hm e).2 he), h2⟩

theorem Spec.Each.imp {α β : Type} {R S : α → β → Prop} {as : List α} {bs : List β}
    (h : ∀ a ∈ as, ∀ b, R a b → S a b) (h' : Each R as bs) : Each S as bs := by
  induction h' with
  | nil => exact .nil
  | cons h1 _ ih => exact .cons (h _ (by simp) _ h1) (ih (fun a ha => h a (by simp [ha])))

theorem Spec.StructValue.congr {dec dec' : Ty → List Str → Val → Prop} {es es' : List (Str × List Str)}
    {fields : List Field} {deny : Option (Str → Str)} {vs : List Val} (hm : ∀ e, e ∈ es ↔ e ∈ es')
    (hd : ∀ f ∈ fields, ∀ e ∈ es, f.has e.1 = true → ∀ v, dec f.ty e.2 v → dec' f.ty e.2 v)
    (h : StructValue dec fields deny es vs) : StructValue dec' fields deny es' vs :=
  ⟨h.1.imp (fun f hf v h' => h'.congr hm (fun e he hk => hd f hf e he hk v)),
    fun e he => h.2 e ((hm e).2 he)⟩

end Obsidian
