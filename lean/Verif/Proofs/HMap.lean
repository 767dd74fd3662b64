import Verif.Model.HMap

/- Lemmas about hash maps. -/
namespace Obsidian.HMap
variable {K V : Type} [DecidableEq K]

@[simp] theorem get_empty (k : K) : (empty : HMap K V).get k = none := rfl

theorem lookup_filter (l : List (K × V)) {k k' : K} (h : k' ≠ k) :
    (l.filter (fun e => !(e.1 == k))).lookup k' = l.lookup k' := by
  induction l with
  | nil => rfl
  | cons e l ih =>
    obtain ⟨a, b⟩ := e
    by_cases ha : a = k
    · subst ha
      simp [List.lookup, ih]
      have : (k' == a) = false := by simpa using h
      simp [this]
    · simp only [List.filter_cons]
      have : (!(a == k)) = true := by simp [ha]
      rw [if_pos this]
      simp only [List.lookup, ih]

theorem get_insert (m : HMap K V) (k : K) (v : V) (k' : K) :
    (m.insert k v).get k' = if k' = k then some v else m.get k' := by
  unfold insert get
  by_cases h : k' = k
  · subst h; simp [List.lookup]
  · rw [if_neg h]
    simp only [List.lookup]
    have : (k' == k) = false := by simpa using h
    rw [this]
    exact lookup_filter m.entries h

end Obsidian.HMap
