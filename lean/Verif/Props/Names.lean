import Verif.Proofs.Names

/-
C104: the names of parameters.
-/
namespace Obsidian.Props
open Obsidian Spec
variable {M H : Type}

/-- C104, full claim: parameters may be called otherwise, as long as different ones keep different names: the same
programs are accepted, every request finds the same handler and the same middlewares, and every parameter has the same
value under its new name. -/
def NamesDoNotMatter (M H : Type) : Prop :=
  ∀ (ρ : Str → Str), Renaming ρ → ∀ prog : List (Reg M H), CleanRegs prog →
    ((build (renRegs ρ prog)).2 = none ↔ (build prog).2 = none) ∧
    ∀ r r', build prog = (r, none) → build (renRegs ρ prog) = (r', none) → ∀ path,
      isFound r' path = isFound r path ∧ (∀ m, handlerFor r' m path = handlerFor r m path) ∧
      chainFor r' path = chainFor r path ∧ ∀ x, paramFor r' path (ρ x) = paramFor r path x

/-- **C104** (partial): for requests whose path has colons at most at the beginning of segments.  Missing: other paths, for
which it is false (`C104_false`). -/
theorem C104_names_partial {ρ : Str → Str} (hρ : Renaming ρ) {prog : List (Reg M H)} (hc : CleanRegs prog) :
    ((build (renRegs ρ prog)).2 = none ↔ (build prog).2 = none) ∧
    ∀ r r', build prog = (r, none) → build (renRegs ρ prog) = (r', none) → ∀ path, CleanPath path →
      isFound r' path = isFound r path ∧ (∀ m, handlerFor r' m path = handlerFor r m path) ∧
      chainFor r' path = chainFor r path ∧ ∀ x, paramFor r' path (ρ x) = paramFor r path x :=
  ⟨build_ren hρ hc, fun _ _ h h' _ hp => router_ren hρ hc h h' hp⟩

/-- `id` is called `user` and the other way round. -/
def idUser (x : Str) : Str :=
  if x = "id".toList then "user".toList else if x = "user".toList then "id".toList else x

theorem idUser_renaming : Renaming idUser := by
  have hc : ∀ c : Char, c ∉ "id".toList → c ∉ "user".toList → ∀ x, c ∈ idUser x ↔ c ∈ x := by
    intro c h1 h2 x
    unfold idUser
    split
    · next e => subst e; exact iff_of_false h2 h1
    · split
      · next e => subst e; exact iff_of_false h1 h2
      · rfl
  refine ⟨?_, hc '/' (by decide) (by decide), hc ':' (by decide) (by decide), hc '*' (by decide) (by decide)⟩
  have hinv : ∀ x, idUser (idUser x) = x := by
    intro x
    by_cases h1 : x = "id".toList
    · subst h1; decide
    · by_cases h2 : x = "user".toList
      · subst h2; decide
      · simp only [idUser, if_neg h1, if_neg h2]
  intro x y e
  rw [← hinv x, ← hinv y, e]

/-- A program with parameters, a wildcard, middlewares and a nested router. -/
def namesProg : List (Reg Nat Nat) :=
  [.useService 1, .get "/a/:id".toList 2, .useServiceTo "/a/:id".toList 3,
   .scope "/b/:user".toList [.post "/c/:id".toList 4, .get "/d/*".toList 5, .useServiceTo "/c".toList 6]]

theorem namesProg_clean : CleanRegs namesProg := by
  simp only [namesProg, CleanRegs, CleanReg, and_true, true_and]; decide +kernel

/-- It is accepted, also with the other names. -/
example : (build namesProg).2 = none ∧ (build (renRegs idUser namesProg)).2 = none := by decide +kernel

/-- What the theorem says about it, on a request through both parameters. -/
example :
    handlerFor (build namesProg).1 .post "/b/7/c/8".toList = some 4 ∧
    handlerFor (build (renRegs idUser namesProg)).1 .post "/b/7/c/8".toList = some 4 ∧
    chainFor (build (renRegs idUser namesProg)).1 "/b/7/c/8".toList = some [1, 6] ∧
    paramFor (build namesProg).1 "/b/7/c/8".toList "id".toList = some "8".toList ∧
    paramFor (build (renRegs idUser namesProg)).1 "/b/7/c/8".toList "user".toList = some "8".toList := by
  decide +kernel

/-- The text of a parameter as a segment of the request. -/
example : paramFor (build (renRegs idUser namesProg)).1 "/a/:id".toList "user".toList = some ":id".toList ∧
    CleanPath "/a/:id".toList := by decide +kernel

/-- Two names at the same place are rejected, with the other names too. -/
example : (build ([.get "/a/:id".toList 1, .get "/a/:user/b".toList 2] : List (Reg Nat Nat))).2 ≠ none ∧
    (build (renRegs idUser ([.get "/a/:id".toList 1, .get "/a/:user/b".toList 2] : List (Reg Nat Nat)))).2 ≠ none := by
  decide +kernel

/-- With colons elsewhere the full claim is false: `/a:id` is served by `/a/:id`, but not by `/a/:user`. -/
theorem C104_false : ¬ NamesDoNotMatter Nat Nat := by
  intro h
  obtain ⟨_, h2⟩ := h idUser idUser_renaming [.get "/a/:id".toList 1]
    (by simp only [CleanRegs, CleanReg, and_true]; decide +kernel)
  have h3 := (h2 _ _ (Prod.ext rfl (by decide +kernel)) (Prod.ext rfl (by decide +kernel)) "/a:id".toList).1
  revert h3
  decide +kernel

end Obsidian.Props
