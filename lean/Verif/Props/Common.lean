import Verif.Proofs.Bridge
import Verif.Spec.Text

/- Shared by the property files: concrete programs for the examples. -/
namespace Obsidian.Props
open Obsidian Spec

/-- In examples, handlers and middlewares are numbers. -/
abbrev Prog := List (Reg Nat Nat)

/-- A router whose construction is known to succeed. -/
theorem build_eq {M H : Type} {prog : List (Reg M H)} (h : (build prog).2 = none) : build prog = ((build prog).1, none) :=
  Prod.ext rfl h

/-- A program with static, parameter and wildcard routes, middlewares and a nested router. -/
def demo : Prog :=
  [.useService 100, .get (s "/") 1, .get (s "/users/all") 2, .post (s "/users/all") 3,
   .get (s "/items/:id/parts/:part") 4, .useServiceTo (s "/items") 101, .get (s "/files/*") 5,
   .useRouter (s "/api/v1") [.useService 102, .get (s "/ping") 6, .get (s "/echo/:word") 7],
   .scope (s "admin") [.get (s "/") 8, .delete (s "//list/") 9]]

theorem demo_clean : CleanRegs demo := by
  simp only [demo, CleanRegs, CleanReg, and_true]; decide +kernel

theorem demo_ok : (build demo).2 = none := by decide +kernel

/-- Paths with a colon inside a segment. -/
def clock : Prog := [.get (s "/meet/12a") 1, .get (s "/meet/12:30") 2, .get (s "/meet/11:45/x") 3]

theorem clock_ok : (build clock).2 = none := by decide +kernel

end Obsidian.Props
