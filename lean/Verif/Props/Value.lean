import Verif.Proofs.RunRegs
import Verif.Proofs.Bridge
import Verif.Props.Names

/-
The value of a parameter does not decide where a request goes.
-/
namespace Obsidian.Props
open Obsidian Spec
variable {M H : Type}

theorem find_value {L : Log M H} {x v : Str} : ∀ {req : List Str} {p q : Str} {b : List (Str × Str)},
    find L p req = some (q, b) → b.lookup x = some v →
    ∃ before after, req = before ++ v :: after ∧ ∀ v', ∃ b', find L p (before ++ v' :: after) = some (q, b') ∧
      b'.lookup x = some v' ∧ ∀ y, y ≠ x → b'.lookup y = b.lookup y
  | [], p, q, b, h, _ => by simp [find] at h
  | s :: rest, p, q, b, h, hb => by
    have tail : ∀ {p' : Str} {b₁ : List (Str × Str)}, find L p' rest = some (q, b₁) → b₁.lookup x = some v →
        ∃ before after, rest = before ++ v :: after ∧ rest.isEmpty = false ∧
          ∀ v', (before ++ v' :: after).isEmpty = false ∧ ∃ b', find L p' (before ++ v' :: after) = some (q, b') ∧
            b'.lookup x = some v' ∧ ∀ y, y ≠ x → b'.lookup y = b₁.lookup y := fun h1 h2 => by
      obtain ⟨before, after, rfl, h3⟩ := find_value h1 h2
      exact ⟨before, after, rfl, by simp, fun v' => ⟨by simp, h3 v'⟩⟩
    rw [find] at h
    cases hp : paramAt L p with
    | some z =>
      rw [hp] at h
      simp only at h
      by_cases hr : rest.isEmpty = true
      · rw [if_pos hr] at h
        split at h
        · next he =>
          simp only [Option.some.injEq, Prod.mk.injEq] at h
          obtain ⟨rfl, rfl⟩ := h
          by_cases hz : x = z
          · subst hz
            simp only [List.lookup_cons_self, Option.some.injEq] at hb
            subst hb
            refine ⟨[], rest, rfl, fun v' => ⟨[(x, v')], ?_, by simp, fun y hy => ?_⟩⟩
            · rw [List.nil_append, find, hp]; simp only; rw [if_pos hr, if_pos he]
            · have : (y == x) = false := by simpa using hy
              rw [List.lookup_cons, List.lookup_cons, this]
          · have e : (x == z) = false := by simpa using hz
            rw [List.lookup_cons, e] at hb; simp at hb
        · simp at h
      · rw [if_neg hr] at h
        obtain ⟨⟨q', b₁⟩, h1, h2⟩ := Option.map_eq_some_iff.1 h
        simp only [Prod.mk.injEq] at h2
        obtain ⟨rfl, rfl⟩ := h2
        by_cases hz : x = z
        · subst hz
          simp only [List.lookup_cons_self, Option.some.injEq] at hb
          subst hb
          refine ⟨[], rest, rfl, fun v' => ⟨(x, v') :: b₁, ?_, by simp, fun y hy => ?_⟩⟩
          · rw [List.nil_append, find, hp]; simp only; rw [if_neg hr, h1]; rfl
          · have : (y == x) = false := by simpa using hy
            rw [List.lookup_cons, List.lookup_cons, this]
        · have e : (x == z) = false := by simpa using hz
          rw [List.lookup_cons, e] at hb
          obtain ⟨before, after, rfl, _, h3⟩ := tail h1 hb
          refine ⟨s :: before, after, rfl, fun v' => ?_⟩
          obtain ⟨h4, b', h5, h6, h7⟩ := h3 v'
          refine ⟨(z, s) :: b', ?_, by rw [List.lookup_cons, e]; exact h6, fun y hy => ?_⟩
          · rw [List.cons_append, find, hp]; simp only; rw [h4, h5]; rfl
          · rw [List.lookup_cons, List.lookup_cons, h7 y hy]
    | none =>
      rw [hp] at h
      simp only at h
      by_cases hk : s.head? ≠ some '*' ∧ known L (p ++ s) = true
      · rw [if_pos hk] at h
        by_cases hr : rest.isEmpty = true
        · exfalso
          rw [if_pos hr] at h
          split at h
          · next r' he =>
            simp only [Option.some.injEq] at h
            subst h
            split at he
            · simp only [Option.some.injEq, Prod.mk.injEq] at he
              rw [← he.2] at hb; simp at hb
            · split at he
              · simp only [Option.some.injEq, Prod.mk.injEq] at he
                rw [← he.2] at hb; simp at hb
              · simp at he
          · split at h
            · simp only [Option.some.injEq, Prod.mk.injEq] at h
              rw [← h.2] at hb; simp at hb
            · simp at h
        · rw [if_neg hr] at h
          cases hf : find L (p ++ s) rest with
          | none =>
            rw [hf] at h
            simp only at h
            split at h
            · simp only [Option.some.injEq, Prod.mk.injEq] at h
              rw [← h.2] at hb; simp at hb
            · simp at h
          | some r' =>
            rw [hf] at h
            simp only [Option.some.injEq] at h
            subst h
            obtain ⟨before, after, rfl, _, h3⟩ := tail hf hb
            refine ⟨s :: before, after, rfl, fun v' => ?_⟩
            obtain ⟨h4, b', h5, h6, h7⟩ := h3 v'
            refine ⟨b', ?_, h6, h7⟩
            rw [List.cons_append, find, hp]; simp only; rw [if_pos hk, h4, h5]; rfl
      · exfalso
        rw [if_neg hk] at h
        simp only at h
        split at h
        · simp only [Option.some.injEq, Prod.mk.injEq] at h
          rw [← h.2] at hb; simp at hb
        · simp at h

/-- **C108**: the value of a parameter does not decide where a request goes.  If a request has a value for a
parameter, this value is one of its segments, and with anything else in the place of this segment (whatever
characters it is made of, also stars, colons, or texts that are registered elsewhere) the request is served by the same
handler for every method, inside the same middlewares, with the new value for this parameter and the same values for the
others. -/
theorem C108_any_value {prog : List (Reg M H)} (hc : CleanRegs prog) {r : Router M H} (hb : build prog = (r, none))
    {path x v : Str} (hv : paramFor r path x = some v) :
    ∃ before after, segments path = before ++ v :: after ∧
      ∀ path' v', segments path' = before ++ v' :: after →
        isFound r path' = true ∧ (∀ m, handlerFor r m path' = handlerFor r m path) ∧
        chainFor r path' = chainFor r path ∧ paramFor r path' x = some v' ∧
        ∀ y, y ≠ x → paramFor r path' y = paramFor r path y := by
  have hr := build_rep hc hb
  cases hl : lookup (logOf prog) path with
  | none => rw [(hr.obs_none hl).2.2.2] at hv; simp at hv
  | some qb =>
    obtain ⟨q, b⟩ := qb
    obtain ⟨a1, a2, a3, a4⟩ := hr.obs_some hl
    rw [a4] at hv
    rw [lookup] at hl
    by_cases h0 : segments path = []
    · simp only [h0, if_true] at hl
      split at hl
      · simp only [Option.some.injEq, Prod.mk.injEq] at hl
        rw [← hl.2] at hv; simp at hv
      · simp at hl
    · simp only [h0, if_false] at hl
      cases hf : find (logOf prog) [] (segments path) with
      | none => rw [hf] at hl; simp at hl
      | some qb =>
        obtain ⟨q', b'⟩ := qb
        rw [hf] at hl
        simp only at hl
        split at hl
        · next he =>
          simp only [Option.some.injEq, Prod.mk.injEq] at hl
          obtain ⟨rfl, rfl⟩ := hl
          obtain ⟨before, after, h1, h2⟩ := find_value hf hv
          refine ⟨before, after, h1, fun path' v' h3 => ?_⟩
          obtain ⟨b₂, h4, h5, h6⟩ := h2 v'
          have hl' : lookup (logOf prog) path' = some (q', b₂) := by
            rw [lookup, h3, if_neg (by simp), h4]; simp only; rw [if_pos he]
          obtain ⟨c1, c2, c3, c4⟩ := hr.obs_some hl'
          exact ⟨c1, fun m => by rw [c2, a2], by rw [c3, a3], by rw [c4]; exact h5, fun y hy => by rw [c4, a4]; exact h6 y hy⟩
        · simp at hl

/-- A program with parameters, a wildcard, a middleware and texts that could also be values. -/
def valueProg : Prog :=
  [.get (s "/users/:id") 1, .get (s "/users/:id/edit") 2, .get (s "/*") 3, .useServiceTo (s "/users") 7,
   .get (s "/about/:page") 4, .post (s "/users/:id/posts/:post") 5]

theorem valueProg_clean : CleanRegs valueProg := by
  simp only [valueProg, CleanRegs, CleanReg, and_true, true_and]; decide +kernel

/-- It is accepted, and a request has a value for a parameter. -/
example : (build valueProg).2 = none ∧ paramFor (build valueProg).1 (s "/users/5/edit") (s "id") = some (s "5") := by
  decide +kernel

/-- With other values, among them a star, the name of the parameter, and texts that are registered, the request goes the
same way, with the same middlewares. -/
example : ∀ v ∈ [s "5", s "*", s ":id", s "about", s "edit", s "users", s "é"],
    handlerFor (build valueProg).1 .get (s "/users/" ++ v ++ s "/edit") = some 2 ∧
    handlerFor (build valueProg).1 .post (s "/users/" ++ v ++ s "/edit") = none ∧
    chainFor (build valueProg).1 (s "/users/" ++ v ++ s "/edit") = some [7] ∧
    paramFor (build valueProg).1 (s "/users/" ++ v ++ s "/edit") (s "id") = some v := by
  decide +kernel

/-- Segments that are no values do matter. -/
example : handlerFor (build valueProg).1 .get (s "/users/5/edit") = some 2 ∧
    handlerFor (build valueProg).1 .get (s "/users/5/about") = some 3 ∧
    handlerFor (build valueProg).1 .get (s "/user/5/edit") = some 3 := by
  decide +kernel

/-- The documented syntax is needed: with `/a:id` and `/ab`, the request `/a/c` has the value `c` for `id`, but `/a/b` goes
elsewhere. -/
theorem C108_syntax_needed : ∃ (prog : Prog) (r : Router Nat Nat), prog = [.get (s "/a:id") 1, .get (s "/ab") 2] ∧
    build prog = (r, none) ∧ paramFor r (s "/a/c") (s "id") = some (s "c") ∧ handlerFor r .get (s "/a/c") = some 1 ∧
    paramFor r (s "/a/b") (s "id") = none ∧ handlerFor r .get (s "/a/b") = some 2 :=
  ⟨_, _, rfl, Prod.ext rfl (by decide +kernel), by decide +kernel, by decide +kernel, by decide +kernel, by decide +kernel⟩

end Obsidian.Props
