import Verif.Proofs.Serve
import Verif.Props.Reach

/- Concrete applications for the examples. -/
namespace Obsidian.Props
open Obsidian Spec

variable {U : Univ} {σ : Type}

/-- An application without state. -/
def appOf {prog : List (Reg (Middleware U σ) (Handler U σ))} (_ : (build prog).2 = none) : App U σ :=
  ⟨(build prog).1, none⟩

theorem appOf_router {prog : List (Reg (Middleware U σ) (Handler U σ))} (h : (build prog).2 = none) :
    (appOf h).router = (build prog).1 := by rw [appOf]

theorem appOf_build {prog : List (Reg (Middleware U σ) (Handler U σ))} (h : (build prog).2 = none) :
    build prog = ((appOf h).router, none) := by rw [appOf_router]; exact build_eq h

theorem appOf_state {prog : List (Reg (Middleware U σ) (Handler U σ))} (h : (build prog).2 = none) :
    (appOf h).appState = none := by rw [appOf]

/-- Two storable types: numbers (`true`) and texts (`false`). -/
def demoU : Univ := ⟨Bool, fun t => if t then Nat else Str, inferInstance⟩

/-- A world with a counter. -/
abbrev W := Nat

/-- A handler that adds `n` to the counter and answers with a text. -/
def sayHandler (n : Nat) (x : String) : Handler demoU W := fun c =>
  .step (· + n) fun _ => .ret (c.build (.str x.toList)).ok

/-- A handler that fails. -/
def failHandler (e : ObsidianError) : Handler demoU W := fun _ => .step (· + 1) fun _ => .ret (.error e)

/-- A handler that returns the context without building a response. -/
def silentHandler : Handler demoU W := fun c => .ret (.ok c)

/-- A middleware that adds to the counter before and after. -/
def tickMiddleware (n : Nat) : Middleware demoU W := fun c next =>
  .step (· + n) fun _ => (next c).bind fun r => .step (· * 2) fun _ => .ret r

/-- The routes of the example application. -/
def demoAppProg : List (Reg (Middleware demoU W) (Handler demoU W)) :=
  [.useService (tickMiddleware 5), .get (s "/hello") (sayHandler 1 "hi"),
   .post (s "/items/:id") (sayHandler 2 "made"), .get (s "/fail") (failHandler (.generalError (s "oops"))),
   .get (s "/silent") silentHandler]

theorem demoAppProg_clean : CleanRegs demoAppProg := by
  simp only [demoAppProg, CleanRegs, CleanReg, and_true]; decide +kernel

theorem demoAppProg_ok : (build demoAppProg).2 = none := by decide +kernel

theorem demoAppProg_build : build demoAppProg = ((build demoAppProg).1, none) :=
  build_eq demoAppProg_ok

/-- The example application. -/
def demoApp : App demoU W := ⟨(build demoAppProg).1, none⟩

/-- A request without body. -/
def demoReq (m : Method) (path : String) : Request demoU := ⟨m, s path, none, [], Extensions.empty, Body.empty⟩

theorem demoAppProg_log : logOf demoAppProg =
    [⟨[], .middleware (tickMiddleware 5)⟩, ⟨[s "hello"], .route .get (sayHandler 1 "hi")⟩,
     ⟨[s "items", s ":id"], .route .post (sayHandler 2 "made")⟩,
     ⟨[s "fail"], .route .get (failHandler (.generalError (s "oops")))⟩,
     ⟨[s "silent"], .route .get silentHandler⟩] := by
  have h1 : segments (s "/hello") = [s "hello"] := by decide +kernel
  have h2 : segments (s "/items/:id") = [s "items", s ":id"] := by decide +kernel
  have h3 : segments (s "/fail") = [s "fail"] := by decide +kernel
  have h4 : segments (s "/silent") = [s "silent"] := by decide +kernel
  simp only [demoAppProg, logOf, logRegs, logReg, h1, h2, h3, h4, List.nil_append, List.cons_append]

theorem demoAppProg_chain {q : Str} (hq : hasEntry (logOf demoAppProg) q = true) :
    Spec.chain (logOf demoAppProg) q = [tickMiddleware 5] := by
  have key : ∀ p : Str, p ≠ [] → mwsAt (logOf demoAppProg) p = [] := by
    intro p hp
    rw [demoAppProg_log]
    simpa [mwsAt, Entry.isAt, flat] using hp
  have up : ∀ r p, upTo (logOf demoAppProg) p r = [] := by
    intro r
    induction r with
    | nil => intro p; rfl
    | cons c r ih => intro p; rw [upTo, ih, key _ (by simp)]; rfl
  rw [Spec.chain, up]
  rw [demoAppProg_log]
  simp [mwsAt, Entry.isAt]

theorem demoApp_router : demoApp.router = (build demoAppProg).1 := by rw [demoApp]

theorem demoApp_handler {ss : List Str} {m : Method} {h : Handler demoU W} {path : Str}
    (he : ⟨ss, .route m h⟩ ∈ logOf demoAppProg) (hs : Static ss) (hp : segments path = ss) :
    handlerFor demoApp.router m path = some h := by
  rw [demoApp_router]
  exact (C01_static_routes_reachable demoAppProg_build he hs hp).2

theorem demoApp_chain {path : Str} {c : List (Middleware demoU W)}
    (h : chainFor demoApp.router path = some c) : c = [tickMiddleware 5] := by
  rw [demoApp_router] at h
  obtain ⟨q, b, hl, rfl⟩ := (build_rep demoAppProg_clean demoAppProg_build).chain h
  refine demoAppProg_chain ?_
  rw [lookup] at hl
  split at hl
  · split at hl
    · next hq => simp at hl; rw [← hl.1]; exact hq
    · simp at hl
  · simp at hl

/-- What the demo application runs for a static route. -/
theorem demoApp_served {ss : List Str} {h : Handler demoU W} {req : Request demoU}
    (he : ⟨ss, .route req.method h⟩ ∈ logOf demoAppProg) (hs : Static ss)
    (hp : segments req.path = ss) {x : Act W (ContextResult demoU)} (hx : ServedBy demoApp req x) :
    ∃ c, Starts demoApp req c ∧ x = execNext h [tickMiddleware 5] c := by
  obtain ⟨h', chain, c, h1, h2, h3, h4⟩ := hx
  rw [demoApp_handler he hs hp] at h1
  injection h1 with h1
  subst h1
  rw [demoApp_chain h2] at h4
  exact ⟨c, h3, h4⟩

end Obsidian.Props
