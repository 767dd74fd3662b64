import Verif.Proofs.Turn
import Verif.Props.Common

/-
C109: all methods are treated alike.
-/
namespace Obsidian.Props
open Obsidian Spec
variable {M H : Type}

/-- **C109**: if the methods are interchanged in all registrations, the same programs are accepted, the others stop with the
same panic, up to the method that it names, and a request with the interchanged method finds the same handler, the same
middlewares and the same parameters.  Paths may have any form. -/
theorem C109_methods {τ : Verb → Verb} {π : Method → Method} (h : Turns τ π) (prog : List (Reg M H)) :
    (build (turnRegs τ prog)).2 = (build prog).2.map (turnPanic π) ∧
    ∀ path,
      isFound (build (turnRegs τ prog)).1 path = isFound (build prog).1 path ∧
      (∀ m, handlerFor (build (turnRegs τ prog)).1 (π m) path = handlerFor (build prog).1 m path) ∧
      chainFor (build (turnRegs τ prog)).1 path = chainFor (build prog).1 path ∧
      ∀ x, paramFor (build (turnRegs τ prog)).1 path x = paramFor (build prog).1 path x := by
  rw [build_turn h]
  exact ⟨rfl, obs_turn h _⟩

/-- **C109**, if the panics of all calls are caught. -/
theorem C109_methods_caught {τ : Verb → Verb} {π : Method → Method} (h : Turns τ π) (cs : List (Reg M H)) (path : Str) :
    isFound (runCaught (turnRegs τ cs) Router.new) path = isFound (runCaught cs Router.new) path ∧
    (∀ m, handlerFor (runCaught (turnRegs τ cs) Router.new) (π m) path = handlerFor (runCaught cs Router.new) m path) ∧
    chainFor (runCaught (turnRegs τ cs) Router.new) path = chainFor (runCaught cs Router.new) path ∧
    ∀ x, paramFor (runCaught (turnRegs τ cs) Router.new) path x = paramFor (runCaught cs Router.new) path x := by
  have := caught_turn h cs Router.new
  rw [new_router_turn] at this
  rw [this]
  exact obs_turn h _ path

/-- `get`, `post` and `delete` in a circle. -/
def round : Verb → Verb
  | .get => .post
  | .post => .delete
  | .delete => .get
  | v => v

/-- The same for methods; `HEAD` and `OPTIONS` are exchanged too. -/
def roundMethod : Method → Method
  | .get => .post
  | .post => .delete
  | .delete => .get
  | .head => .options
  | .options => .head
  | m => m

/-- The way back. -/
def backMethod : Method → Method
  | .post => .get
  | .delete => .post
  | .get => .delete
  | .options => .head
  | .head => .options
  | m => m

theorem round_turns : Turns round roundMethod := by
  refine ⟨fun m m' e => ?_, fun v => by cases v <;> rfl⟩
  have hinv : ∀ m, backMethod (roundMethod m) = m := by intro m; cases m <;> rfl
  rw [← hinv m, ← hinv m', e]

/-- A program with several methods at the same paths, in a nested router and at the root. -/
def turnProg : Prog :=
  [.get (s "/a/:id") 1, .post (s "/a/:id") 2, .put (s "/a") 3, .useService 7,
   .scope (s "b") [.get (s "/") 4, .delete (s "/*") 5, .useServiceTo (s "/c") 8]]

example : turnRegs round turnProg =
    [.post (s "/a/:id") 1, .delete (s "/a/:id") 2, .put (s "/a") 3, .useService 7,
     .scope (s "b") [.post (s "/") 4, .get (s "/*") 5, .useServiceTo (s "/c") 8]] := rfl

/-- Both programs are accepted, and serve the same requests up to the method. -/
example : (build turnProg).2 = none ∧ (build (turnRegs round turnProg)).2 = none ∧
    handlerFor (build turnProg).1 .post (s "/a/x") = some 2 ∧
    handlerFor (build (turnRegs round turnProg)).1 .delete (s "/a/x") = some 2 ∧
    handlerFor (build (turnRegs round turnProg)).1 .post (s "/a/x") = some 1 ∧
    handlerFor (build turnProg).1 .delete (s "/b/x/y") = some 5 ∧
    handlerFor (build (turnRegs round turnProg)).1 .get (s "/b/x/y") = some 5 ∧
    chainFor (build (turnRegs round turnProg)).1 (s "/b/x/y") = some [7] := by
  decide +kernel

/-- A duplicate stays one, and the message names the other method. -/
example : (build ([.get (s "/a") 1, .post (s "/a") 2, .get (s "/a") 3] : Prog)).2 = some (.duplicated .get (s "/a")) ∧
    (build (turnRegs round ([.get (s "/a") 1, .post (s "/a") 2, .get (s "/a") 3] : Prog))).2 =
      some (.duplicated .post (s "/a")) := by
  decide +kernel

end Obsidian.Props
