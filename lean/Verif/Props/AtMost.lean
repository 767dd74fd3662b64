import Verif.Proofs.Tally
import Verif.Proofs.Serve
import Verif.Props.Chain
import Verif.Props.Common
import Verif.Props.AnyPath

/-
C102: a middleware runs at most as often as it was added.
-/
namespace Obsidian.Props
open Obsidian Spec Proofs
variable {M H : Type}

theorem chain_tally {r : Router M H} {path : Str} {c : List M} (hc : chainFor r path = some c) (p : M → Bool) :
    c.countP p ≤ tallyR p r := by
  have hr := tally_mws (p := p) r.routes.head
  have ht := tally_eq (p := p) r.routes.head
  have fin : ∀ (n : Node M H) (ps : HMap Str Str) (mws : List M) v, RouteTrie.finish n ps mws = some v → v.getMiddlewares = mws := by
    intro n ps mws v hv
    unfold RouteTrie.finish at hv
    split at hv
    · injection hv with hv; subst hv; rfl
    · cases hv
  unfold chainFor at hc
  split at hc
  · next v hs =>
    injection hc with hc
    subst hc
    unfold Router.searchRoute RouteTrie.searchRoute at hs
    split at hs
    · injection hs with hs
      rw [fin _ _ _ _ hs]
      unfold tallyR; omega
    · revert hs
      have hn := getNextNode_tally (p := p) r.routes.head (segs path) HMap.empty r.routes.head.mws false
      revert hn
      cases r.routes.head.getNextNode (segs path) HMap.empty r.routes.head.mws false with
      | panic e => intro _ hs; cases hs
      | notFound a b d => intro _ hs; cases hs
      | found n ps mws =>
        intro hn hs
        injection hs with hs
        rw [fin _ _ _ _ hs]
        simp only [SearchTally] at hn
        unfold tallyR; omega
  · cases hc

/-- **C102.** After any sequence of calls, with paths of any form, of which some may have panicked: among the
middlewares that run for a request, each (and all of a kind together) is there at most as often as it was added by
the calls that did not panic. -/
theorem C102_at_most_as_often_as_added (cs : List (Reg M H)) {path : Str} {c : List M}
    (hc : chainFor (runCaught cs Router.new) path = some c) (p : M → Bool) :
    c.countP p ≤ (addedMws cs Router.new).countP p := by
  have h1 := chain_tally hc p
  have h2 := caught_tally (p := p) cs (Router.new : Router M H)
  rw [tallyR_new] at h2
  omega

/-- **C102**, for accepted programs: at most as often as it is written in the program, nested routers included. -/
theorem C102_programs {prog : List (Reg M H)} {r : Router M H} (hb : build prog = (r, none)) {path : Str} {c : List M}
    (hc : chainFor r path = some c) (p : M → Bool) : c.countP p ≤ (mwsOfAll prog).countP p := by
  have h1 := chain_tally hc p
  have h2 := runRegs_tally (p := p) prog (Router.new : Router M H)
  rw [tallyR_new, show runRegs prog Router.new = (r, none) from hb] at h2
  simp only at h2
  omega

/-- **C102**: the chain is not longer than the number of middlewares that were added. -/
theorem C102_chain_length (cs : List (Reg M H)) {path : Str} {c : List M}
    (hc : chainFor (runCaught cs Router.new) path = some c) : c.length ≤ (addedMws cs Router.new).length := by
  have := C102_at_most_as_often_as_added cs hc (fun _ => true)
  simpa using this

section
variable {U : Univ} {σ : Type}

theorem ticks {p : Middleware U (σ × Nat) → Bool} (g : Handler U σ) : ∀ (ms : List (Middleware U (σ × Nat))),
    (∀ m ∈ ms, (p m = true ∧ ∃ l : Link U σ, m = l.ticking.mw) ∨ ∃ l : Link U σ, m = l.uncounted.mw) →
    ∀ (c : Context U) (w : σ) (n : Nat),
      ((execNext (fun c => withCounter (g c)) ms c).run (w, n)).world.2 ≤ n + ms.countP p
  | [], _, c, w, n => by simp [execNext, withCounter_run]
  | m :: ms, h, c, w, n => by
    have ih := ticks g ms (fun x hx => h x (List.mem_cons_of_mem _ hx))
    have un : ∀ (l : Link U σ) (w : σ) (k : Nat),
        ((l.uncounted.mw c (execNext (fun c => withCounter (g c)) ms)).run (w, k)).world.2 ≤ k + ms.countP p := by
      intro l w k
      rw [mw_uncounted, Act.run_bind, withCounter_run]
      simp only
      cases hd : ((l.decide c).run w).out with
      | error e => simp
      | ok d =>
        cases d with
        | answer r => simp
        | forward c' after =>
          have := ih c' ((l.decide c).run w).world k
          simp only
          rw [Act.run_bind]
          cases ho : ((execNext (fun c => withCounter (g c)) ms c').run (((l.decide c).run w).world, k)).out with
          | error e => exact this
          | ok r =>
            simp only
            revert this
            generalize ((execNext (fun c => withCounter (g c)) ms c').run (((l.decide c).run w).world, k)).world = x
            intro this
            rw [show x = (x.1, x.2) from rfl, withCounter_run]
            exact this
    rcases h m (List.mem_cons_self ..) with ⟨hp, l, rfl⟩ | ⟨l, rfl⟩
    · rw [List.countP_cons, hp]
      have := un l w (n + 1)
      show ((l.uncounted.mw c (execNext (fun c => withCounter (g c)) ms)).run (w, n + 1)).world.2 ≤ _
      simp only [if_true]
      omega
    · have := un l w n
      rw [List.countP_cons]
      show ((l.uncounted.mw c (execNext (fun c => withCounter (g c)) ms)).run (w, n)).world.2 ≤ _
      omega

/-- **C102**, for whole requests: if no middleware uses the rest of the chain more than once, then the middlewares of a
kind are started, during one request, at most as often as such middlewares were added. -/
theorem C102_started_at_most {a : App U (σ × Nat)} {cs : List (Reg (Middleware U (σ × Nat)) (Handler U (σ × Nat)))}
    (ha : a.router = runCaught cs Router.new) {p : Middleware U (σ × Nat) → Bool}
    (hm : ∀ m ∈ addedMws cs Router.new, (p m = true ∧ ∃ l : Link U σ, m = l.ticking.mw) ∨ ∃ l : Link U σ, m = l.uncounted.mw)
    (hh : ∀ m path h, handlerFor a.router m path = some h → ∃ g : Handler U σ, h = fun c => withCounter (g c))
    (req : Request U) (w : σ) (n : Nat) :
    ((a.serve req).run (w, n)).world.2 ≤ n + (addedMws cs Router.new).countP p := by
  cases hf : handlerFor a.router req.method req.path with
  | none => rw [serve_none hf]; exact Nat.le_add_right _ _
  | some h =>
    obtain ⟨chain, c, h1, _, h3⟩ := serve_some hf
    obtain ⟨g, rfl⟩ := hh _ _ _ hf
    rw [ha] at h1
    have hle := C102_at_most_as_often_as_added cs h1 p
    have hin : ∀ m ∈ chain, m ∈ addedMws cs Router.new := by
      intro m hmc
      classical
      have := C102_at_most_as_often_as_added cs h1 (fun x => decide (x = m))
      have hpos : 0 < chain.countP (fun x => decide (x = m)) := List.countP_pos_iff.2 ⟨m, hmc, by simp⟩
      obtain ⟨x, hx, e⟩ := List.countP_pos_iff.1 (Nat.lt_of_lt_of_le hpos this)
      rw [← of_decide_eq_true e]; exact hx
    have := ticks g chain (fun m hmc => hm m (hin m hmc)) c w n
    rw [h3, Act.run_bind]
    cases ho : ((execNext (fun c => withCounter (g c)) chain c).run (w, n)).out with
    | error e => simp only; omega
    | ok r =>
      simp only
      cases finish r <;> (simp only [Act.ofPure, Act.run]; omega)

end

/-! ### Examples -/

/-- The middleware 7 is added twice (once in a nested router), 8 once, and the second addition of 9 panics. -/
def atMostDemo : List (Reg Nat Nat) :=
  [.useService 7, .scope (s "a") [.useServiceTo (s "/b") 7, .get (s "/b/:c") 1, .useServiceTo (s "/b/:c") 8],
    .useServiceTo (s "/x/y") 9, .useServiceTo (s "/x/*/y") 9]

example : chainFor (runCaught atMostDemo Router.new) (s "/a/b/5") = some [7, 8, 7] := by decide +kernel
example : addedMws atMostDemo Router.new = [7, 7, 8, 9] := by decide +kernel
example : ([7, 8, 7] : List Nat).countP (· == 7) ≤ (addedMws atMostDemo Router.new).countP (· == 7) :=
  C102_at_most_as_often_as_added atMostDemo (path := s "/a/b/5") (by decide +kernel) _

/-- A middleware that only passesOn. -/
def passesOn : Link demoU W := ⟨fun c => .ret (.forward c .ret)⟩

/-- Two counting middlewares, one of them for everything, and a handler. -/
def tickingCalls : List (Reg (Middleware demoU (W × Nat)) (Handler demoU (W × Nat))) :=
  [.useService passesOn.ticking.mw, .get (s "/a") (fun c => withCounter (.ret (.ok c))), .useServiceTo (s "/a") passesOn.ticking.mw]

/-- The application of these calls. -/
def tickingApp : App demoU (W × Nat) := { (App.new : App demoU (W × Nat)) with router := runCaught tickingCalls Router.new }

example (req : Request demoU) (w : W) : ((tickingApp.serve req).run (w, 0)).world.2 ≤ 2 := by
  have hadd : addedMws tickingCalls Router.new = [passesOn.ticking.mw, passesOn.ticking.mw] := rfl
  have := C102_started_at_most (a := tickingApp) (cs := tickingCalls) rfl (p := fun _ => true)
    (fun m hm => by rw [hadd] at hm; exact .inl ⟨rfl, passesOn, by simpa using hm⟩)
    (fun m path h hh => by
      obtain ⟨x, hx, ss, req, he, _⟩ := (C65_reading_partial tickingCalls path).1 m h hh
      simp only [tickingCalls, List.mem_cons, List.not_mem_nil, or_false] at hx
      have hs : ¬ segments (s "/a") = [] := by decide +kernel
      rcases hx with rfl | rfl | rfl
      · simp [callLog, logReg] at he
      · simp [callLog, logReg] at he
        exact ⟨fun c => .ret (.ok c), he.2.2⟩
      · simp [callLog, logReg, hs] at he)
    req w 0
  rw [hadd] at this
  simpa using this

example : ((tickingApp.serve ⟨.get, s "/a", none, [], Extensions.empty, Body.empty⟩).run (0, 0)).world.2 = 2 := rfl

end Obsidian.Props
