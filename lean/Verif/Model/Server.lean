import Verif.Model.App

/-
Calls on an `App` and the server loop (app.rs:143-204): hyper and tokio accept connections, read
requests from them and run the service function as concurrent tasks.  What is modelled is that
requests arrive at any time, and that the tasks take their atomic steps in any order.
-/
namespace Obsidian
variable {U : Univ} {σ τ : Type}

/-- A call that configures an application whose state has the type `t` (app.rs:55-141; the state type
is the type parameter of `App`). -/
inductive AppCall (U : Univ) (σ : Type) (t : U.Ty) where
  | reg (c : Reg (Middleware U σ) (Handler U σ))
  | setAppState (v : U.Val t)

/-- Configuring an application, up to the first panic. -/
def App.calls {t : U.Ty} : List (AppCall U σ t) → App U σ → Out (App U σ)
  | [], a => (a, none)
  | .reg c :: cs, a =>
    match c.run a.router with
    | (r, none) => App.calls cs { a with router := r }
    | (r, some e) => ({ a with router := r }, some e)
  | .setAppState v :: cs, a => App.calls cs (a.setAppState t v)

/-- A request that is being served: the request and what remains to be done. -/
structure Task (U : Univ) (σ : Type) where
  req : Request U
  todo : Act σ Sent

/-- The server: the application, the tasks in order of arrival, the world and what has been printed.
Handlers work on `τ`; how the `i`-th task sees the world is given by `embed i` (see `Server.step`). -/
structure Server (U : Univ) (σ τ : Type) where
  app : App U τ
  tasks : List (Task U σ)
  world : σ
  printed : List Line

/-- What happens next: a request arrives, or the `i`-th task takes a step. -/
inductive Event (U : Univ) where
  | arrive (req : Request U)
  | step (i : Nat)

/-- One atomic step of a computation on the world; finished computations do nothing. -/
def Act.stepOnce {α : Type} : Act σ α → σ → Act σ α × σ × List Line
  | .ret a, w => (.ret a, w, [])
  | .panic c, w => (.panic c, w, [])
  | .step f k, w => (k w, f w, [])
  | .print l k, w => (k, w, [l])

/-- app.rs:146-164: a request is served with the application's router and a copy of its state, in a
task of its own; `embed i` makes the task see the world in its own way. -/
def Server.step (embed : Nat → Act τ Sent → Act σ Sent) (s : Server U σ τ) : Event U → Server U σ τ
  | .arrive req => { s with tasks := s.tasks ++ [⟨req, embed s.tasks.length (s.app.serve req)⟩] }
  | .step i =>
    match s.tasks[i]? with
    | some t =>
      let (todo, w, out) := t.todo.stepOnce s.world
      { s with tasks := s.tasks.set i { t with todo := todo }, world := w, printed := s.printed ++ out }
    | none => s

/-- Any sequence of events. -/
def Server.run (embed : Nat → Act τ Sent → Act σ Sent) (s : Server U σ τ) (es : List (Event U)) :
    Server U σ τ := es.foldl (Server.step embed) s

end Obsidian
