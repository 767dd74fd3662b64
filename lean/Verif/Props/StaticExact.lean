import Verif.Spec.StaysIn
import Verif.Props.Static

/- C43: which requests stay in the directory, exactly. -/
namespace Obsidian.Props
open Obsidian Spec
variable {U : Univ} {σ : Type}

theorem stays_prefix {xs : List Str} {n : Nat} (h : staysIn n xs = true) (base names : List Str)
    (hn : names.length = n) : base <+: xs.foldl go (base ++ names) := by
  induction xs generalizing n names with
  | nil => exact List.prefix_append _ _
  | cons x xs ih =>
    rw [staysIn] at h
    rw [List.foldl_cons, go]
    by_cases h1 : x = ".".toList
    · rw [if_pos h1] at h ⊢; exact ih h names hn
    · rw [if_neg h1] at h ⊢
      by_cases h2 : x = "..".toList
      · rw [if_pos h2] at h ⊢
        cases n with
        | zero => simp at h
        | succ n =>
          have hne : names ≠ [] := by rintro rfl; cases hn
          rw [List.dropLast_append_of_ne_nil hne]
          exact ih (by simpa using h) names.dropLast (by rw [List.length_dropLast, hn]; rfl)
      · rw [if_neg h2] at h ⊢
        rw [List.append_assoc]
        exact ih h (names ++ [x]) (by simp [hn])

theorem not_back {D : Str} {loc : List Str} {xs : List Str} (hD : D ∉ xs) (l : List Str)
    (h : ¬ loc ++ [D] <+: l) : ¬ loc ++ [D] <+: xs.foldl go l := by
  induction xs generalizing l with
  | nil => exact h
  | cons x xs ih =>
    rw [List.foldl_cons]
    refine ih (fun hx => hD (by simp [hx])) _ ?_
    rw [go]
    split
    · exact h
    · split
      · exact fun hp => h (hp.trans (List.dropLast_prefix l))
      · intro hp
        rcases List.prefix_concat_iff.1 hp with he | hp
        · have := congrArg List.getLast? he
          simp only [List.getLast?_concat, Option.some.injEq] at this
          exact hD (by simp [this])
        · exact h hp

theorem leaves {D : Str} {xs : List Str} (hD : D ∉ xs) {n : Nat} (h : staysIn n xs = false) (loc names : List Str)
    (hn : names.length = n) : ¬ loc ++ [D] <+: xs.foldl go (loc ++ [D] ++ names) := by
  induction xs generalizing n names with
  | nil => cases h
  | cons x xs ih =>
    have hD' : D ∉ xs := fun hx => hD (by simp [hx])
    rw [staysIn] at h
    rw [List.foldl_cons, go]
    by_cases h1 : x = ".".toList
    · rw [if_pos h1] at h ⊢; exact ih hD' h names hn
    · rw [if_neg h1] at h ⊢
      by_cases h2 : x = "..".toList
      · rw [if_pos h2] at h ⊢
        cases n with
        | zero =>
          have hne : names = [] := by simpa using hn
          subst hne
          rw [List.append_nil, List.dropLast_concat]
          exact not_back hD' loc fun hp => by have := hp.length_le; simp at this; omega
        | succ n =>
          have hne : names ≠ [] := by rintro rfl; cases hn
          rw [List.dropLast_append_of_ne_nil hne]
          exact ih hD' (by simpa using h) names.dropLast (by rw [List.length_dropLast, hn]; rfl)
      · rw [if_neg h2] at h ⊢
        rw [List.append_assoc]
        exact ih hD' h (names ++ [x]) (by simp [hn])

/-- A name that does not occur in the list. -/
theorem fresh_name (xs : List Str) : ∃ D : Str, D ∉ xs ∧ D ≠ [] ∧ '/' ∉ D ∧ D ≠ ".".toList ∧ D ≠ "..".toList := by
  have key : ∀ xs : List Str, ∃ n, ∀ m, n ≤ m → List.replicate m 'x' ∉ xs := by
    intro xs
    induction xs with
    | nil => exact ⟨0, fun _ _ => by simp⟩
    | cons x xs ih =>
      obtain ⟨n, hn⟩ := ih
      refine ⟨n + x.length + 1, fun m hm hx => ?_⟩
      rcases List.mem_cons.1 hx with he | hx
      · have := congrArg List.length he; simp at this; omega
      · exact hn m (by omega) hx
  obtain ⟨n, hn⟩ := key xs
  refine ⟨List.replicate (n + 1) 'x', hn _ (by omega), by simp, ?_, ?_, ?_⟩
  · intro h; have := List.eq_of_mem_replicate h; revert this; decide
  · intro h; have : 'x' ∈ ".".toList := h ▸ by simp
    revert this; decide
  · intro h; have : 'x' ∈ "..".toList := h ▸ by simp
    revert this; decide

/-- Which file is looked at is determined. -/
theorem looks_unique [Inhabited σ] {v d : Str} {c : Context U} {p : Str}
    (h : LooksOnlyAt (fun fs : ReadFile σ => staticVirtualFileHandler fs v d c) p) :
    p = pathOf (segments d ++ (segments c.request.path).drop (segments v).length) := by
  by_cases hp : p = pathOf (segments d ++ (segments c.request.path).drop (segments v).length)
  · exact hp
  · have := h (fun _ q => if q = p then .error [] else .ok []) (fun _ _ => .error []) default (by simp)
    exfalso
    have hf : fromUtf8 [] = some [] := by decide +kernel
    simp only [virtual_reads, Response.fileAct, Act.bind, Act.run, readToString, if_neg (Ne.symm hp), hf] at this
    have := congrArg Act.Done.printed this
    simp at this

/-- **C43, exactly**, for `use_static_to(v, d)`: a request reads only files in the directory, wherever this
is, if and only if its pieces after the virtual path never go up further than they went down. -/
theorem C43_exactly_partial [Inhabited σ] (v : Str) (c : Context U) :
    (∀ (d : Str) (cwd : List Str), ¬ Absolute d →
      ∃ p, LooksOnlyAt (fun fs : ReadFile σ => staticVirtualFileHandler fs v d c) p ∧ locate cwd d <+: locate cwd p) ↔
    staysIn 0 ((segments c.request.path).drop (segments v).length) = true := by
  constructor
  · intro h
    obtain ⟨D, h1, h2, h3, h4, h5⟩ := fresh_name ((segments c.request.path).drop (segments v).length)
    have hs : segments D = [D] := by
      have := segments_pathOf (ss := [D]) (by simpa using ⟨h2, h3⟩)
      simpa [pathOf] using this
    have habs : ¬ Absolute D := by
      intro ha
      cases D with
      | nil => exact h2 rfl
      | cons x D => simp only [Absolute, List.head?_cons, Option.some.injEq] at ha; exact h3 (by simp [ha])
    obtain ⟨p, hp, hpre⟩ := h D [] habs
    have := looks_unique hp
    subst this
    by_cases hst : staysIn 0 ((segments c.request.path).drop (segments v).length) = true
    · exact hst
    · exfalso
      have hl := leaves h1 (by simpa using hst) [] [] rfl
      rw [locate_pathOf, List.foldl_append, locate, if_neg (show ¬ D.head? = some '/' from habs), hs] at hpre
      · simp only [List.foldl_cons, List.foldl_nil, go, if_neg h4, if_neg h5] at hpre
        exact hl (by simpa using hpre)
      · intro t ht
        rcases List.mem_append.1 ht with ht | ht
        · exact segments_names _ t ht
        · exact segments_names _ t (List.mem_of_mem_drop ht)
  · intro h d cwd hd
    refine ⟨pathOf (segments d ++ (segments c.request.path).drop (segments v).length), fun fs fs' w h => ?_, ?_⟩
    · simp only [virtual_reads, Response.fileAct, Act.bind, Act.run, readToString, h]
    · rw [locate_pathOf, List.foldl_append, locate, if_neg (show ¬ d.head? = some '/' from hd)]
      · have := stays_prefix h ((segments d).foldl go cwd) [] rfl
        rwa [List.append_nil] at this
      · intro t ht
        rcases List.mem_append.1 ht with ht | ht
        · exact segments_names d t ht
        · exact segments_names _ t (List.mem_of_mem_drop ht)

/-- Going up inside the directory is harmless, going up first is not. -/
example : staysIn 0 ((segments (s "/static/css/../img/./logo.svg")).drop (segments (s "/static")).length) = true ∧
    staysIn 0 ((segments (s "/static/css/../../secrets/key")).drop (segments (s "/static")).length) = false := by
  decide +kernel

end Obsidian.Props
