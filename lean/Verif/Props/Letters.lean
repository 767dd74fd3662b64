import Verif.Proofs.Letters

/-
C105: characters without a meaning are all alike.
-/
namespace Obsidian.Props
open Obsidian Spec
variable {M H : Type}

/-- **C105**: with other characters in all registered paths (also ones of other lengths in UTF-8), the same programs are
accepted, the panics are the same up to the characters in them, and for the request with the other characters the lookup
gives the same handler, middlewares and parameters. -/
theorem C105_characters {σ : Char → Char} (hσ : Letters σ) (prog : List (Reg M H)) :
    (build (spellRegs σ prog)).2 = (build prog).2.map (spellPanic σ) ∧
    ∀ path,
      isFound (build (spellRegs σ prog)).1 (spell σ path) = isFound (build prog).1 path ∧
      (∀ m, handlerFor (build (spellRegs σ prog)).1 m (spell σ path) = handlerFor (build prog).1 m path) ∧
      chainFor (build (spellRegs σ prog)).1 (spell σ path) = chainFor (build prog).1 path ∧
      ∀ x, paramFor (build (spellRegs σ prog)).1 (spell σ path) (spell σ x) =
        (paramFor (build prog).1 path x).map (spell σ) := by
  rw [build_spell hσ]
  exact ⟨rfl, obs_spell hσ _⟩

/-- **C105**, if the panics of all calls are caught. -/
theorem C105_characters_caught {σ : Char → Char} (hσ : Letters σ) (cs : List (Reg M H)) (path : Str) :
    isFound (runCaught (spellRegs σ cs) Router.new) (spell σ path) = isFound (runCaught cs Router.new) path ∧
    (∀ m, handlerFor (runCaught (spellRegs σ cs) Router.new) m (spell σ path) =
      handlerFor (runCaught cs Router.new) m path) ∧
    chainFor (runCaught (spellRegs σ cs) Router.new) (spell σ path) = chainFor (runCaught cs Router.new) path ∧
    ∀ x, paramFor (runCaught (spellRegs σ cs) Router.new) (spell σ path) (spell σ x) =
      (paramFor (runCaught cs Router.new) path x).map (spell σ) := by
  have := caught_spell hσ cs Router.new
  rw [new_router_spell hσ] at this
  rw [this]
  exact obs_spell hσ _ path

/-- `a` and `ä` (two bytes) are exchanged, `b` and `語` (three bytes), and `c` and `C`. -/
def foreign (c : Char) : Char :=
  if c = 'a' then 'ä' else if c = 'ä' then 'a' else if c = 'b' then '語' else if c = '語' then 'b'
  else if c = 'c' then 'C' else if c = 'C' then 'c' else c

theorem foreign_letters : Letters foreign := by
  refine ⟨?_, by decide, by decide, by decide⟩
  have hinv : ∀ c, foreign (foreign c) = c := by
    intro c
    unfold foreign
    split
    · next h => subst h; decide
    · split
      · next h => subst h; decide
      · split
        · next h => subst h; decide
        · split
          · next h => subst h; decide
          · split
            · next h => subst h; decide
            · split
              · next h => subst h; decide
              · simp [*]
  intro c d e
  rw [← hinv c, ← hinv d, e]

/-- A program whose tree is split inside segments. -/
def lettersProg : List (Reg Nat Nat) :=
  [.get "/ab".toList 1, .useServiceTo "/aä".toList 2, .get "/aäb/:ca".toList 3, .scope "/b".toList [.get "/a/*".toList 4]]

/-- What the theorem says about it. -/
example :
    spell foreign "/aäb/bc".toList = "/äa語/語C".toList ∧
    handlerFor (build lettersProg).1 .get "/aäb/bc".toList = some 3 ∧
    handlerFor (build (spellRegs foreign lettersProg)).1 .get "/äa語/語C".toList = some 3 ∧
    chainFor (build (spellRegs foreign lettersProg)).1 "/äa語/語C".toList = some [2] ∧
    paramFor (build (spellRegs foreign lettersProg)).1 "/äa語/語C".toList "Cä".toList = some "語C".toList ∧
    handlerFor (build (spellRegs foreign lettersProg)).1 .get "/aäb/bc".toList = none := by
  decide +kernel

/-- And about a program that is rejected. -/
example :
    (build ([.get "/a/:b".toList 1, .get "/a/c".toList 2] : List (Reg Nat Nat))).2 =
      some (.ambiguous "c".toList ":b".toList "/a/c".toList) ∧
    (build (spellRegs foreign ([.get "/a/:b".toList 1, .get "/a/c".toList 2] : List (Reg Nat Nat)))).2 =
      some (.ambiguous "C".toList ":語".toList "/ä/C".toList) := by
  decide +kernel

end Obsidian.Props
