import Verif.Spec.Calls
import Verif.Props.State

/-
C79: configuring an application is configuring its router.
-/
namespace Obsidian.Props
open Obsidian Spec
variable {U : Univ} {σ : Type}

theorem calls_router {t : U.Ty} (cs : List (AppCall U σ t)) (a : App U σ) :
    (App.calls cs a).1.router = (runRegs (registrations cs) a.router).1 ∧
    (App.calls cs a).2 = (runRegs (registrations cs) a.router).2 := by
  induction cs generalizing a with
  | nil => exact ⟨rfl, rfl⟩
  | cons c cs ih =>
    cases c with
    | reg c =>
      rw [App.calls, registrations, runRegs]
      cases h : c.run a.router with
      | mk r e =>
        cases e with
        | none => exact ih _
        | some e => exact ⟨rfl, rfl⟩
    | setAppState v => exact ih _

/-- **C79**: an application starts if and only if its registrations are accepted by an empty router; if
not, the configuration stops with the panic of the first one that is rejected.  The router is the one
these registrations build; for the default application, after the logger. -/
theorem C79_registrations {t : U.Ty} (cs : List (AppCall U σ t)) :
    ((App.calls cs App.new).2 = (build (registrations cs)).2 ∧
      (App.calls cs App.new).1.router = (build (registrations cs)).1) ∧
    (App.calls cs (App.default : App U σ)).2 = (build (.useService logger :: registrations cs)).2 ∧
      (App.calls cs (App.default : App U σ)).1.router = (build (.useService logger :: registrations cs)).1 := by
  refine ⟨⟨(calls_router cs _).2, (calls_router cs _).1⟩, ?_⟩
  rw [(calls_router cs _).2, (calls_router cs _).1]
  exact ⟨rfl, rfl⟩

/-- **C79**: when the state is set does not matter, nor how often, except for the last time: applications
with the same registrations in the same order and the same last state are the same. -/
theorem C79_order {t : U.Ty} {cs cs' : List (AppCall U σ t)} (a : App U σ)
    (hr : registrations cs = registrations cs') (hs : lastState cs = lastState cs') {b : App U σ}
    (hb : App.calls cs a = (b, none)) : App.calls cs' a = (b, none) := by
  have h1 := calls_router cs a
  have h2 := calls_router cs' a
  rw [hr, ← h2.1, ← h2.2, hb] at h1
  cases h : App.calls cs' a with
  | mk b' e =>
    rw [h] at h1
    have he : e = none := h1.2.symm
    subst he
    have h3 := calls_state hb
    have h4 := calls_state h
    rw [← hs, ← h3] at h4
    have h5 : b.router = b'.router := h1.1
    cases b; cases b'
    simp only at h4 h5
    rw [h4, h5]

/-- The same application in two ways; and one whose second registration is rejected. -/
example : App.calls (U := demoU) (σ := W) (t := true)
      [.setAppState (1 : Nat), .reg (.get (s "/n") silentHandler), .setAppState (2 : Nat)] App.new =
    App.calls (U := demoU) (σ := W) (t := true)
      [.setAppState (2 : Nat), .reg (.get (s "/n") silentHandler)] App.new ∧
    (App.calls (U := demoU) (σ := W) (t := true)
      [.reg (.get (s "/n") silentHandler), .reg (.get (s "/n") silentHandler), .setAppState (2 : Nat),
        .reg (.get (s "/m") silentHandler)] App.new).2 = some (.duplicated .get (s "/n")) := by
  refine ⟨?_, by decide +kernel⟩
  have hb : (App.calls (U := demoU) (σ := W) (t := true)
      [.setAppState (2 : Nat), .reg (.get (s "/n") silentHandler)] App.new).2 = none := by decide +kernel
  generalize hx : App.calls (U := demoU) (σ := W) (t := true)
      [.setAppState (2 : Nat), .reg (.get (s "/n") silentHandler)] App.new = x at hb
  obtain ⟨b, e⟩ := x
  simp only at hb; subst hb
  exact C79_order (U := demoU) (σ := W) (t := true) App.new rfl rfl hx

end Obsidian.Props
