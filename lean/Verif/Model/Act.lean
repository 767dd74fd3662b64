import Verif.Model.Str

/-
Computations of asynchronous Rust code: handlers, middlewares and the server around them.

A computation is a tree of atomic steps (what happens between two points at which the task can be
suspended) on a shared world `σ` (files, databases, shared memory, ...), ending in a result or in a
panic.  Writing to standard output is a separate step that no computation can look at.

Not modelled: computations that never finish, and cancellation of tasks.
-/
namespace Obsidian

/-- Why a computation panicked. -/
inductive Crash where
  /-- response.rs:73, 103 `HeaderName::from_bytes(..).unwrap()` -/
  | headerName (name : Str)
  /-- app.rs:245 `HeaderValue::from_static` -/
  | headerValue (value : Str)
  /-- logger.rs:38 `context_after.response().as_ref().unwrap()` -/
  | noResponse
  /-- route_trie.rs: a panic while looking up a route -/
  | lookup
  /-- req_deserializer.rs:191, 231, 238, 245 `self.input[0]` -/
  | index
  /-- req_deserializer.rs:355 `&self.de.input[1..]` -/
  | slice
  /-- a loop that does not end -/
  | diverges
  /-- context.rs:191, 256 `unimplemented!()` -/
  | unimplemented
  /-- a panic of user code (a handler, a middleware, a conversion) -/
  | user (msg : Str)
deriving DecidableEq, Repr

/-- What the code prints (app.rs does not print per request; logger.rs:28, 31, 36-40, 44). -/
inductive Line where
  | request (method uri : Str)
  | debug
  | sent (status : Nat)
  | error (text : Str)
  /-- any other line (user code) -/
  | text (t : Str)
deriving DecidableEq, Repr

/-- An asynchronous computation. -/
inductive Act (σ α : Type) where
  /-- finished -/
  | ret (a : α)
  /-- panicked -/
  | panic (c : Crash)
  /-- an atomic step on the world, after which the computation goes on depending on the world it saw -/
  | step (f : σ → σ) (k : σ → Act σ α)
  /-- output -/
  | print (l : Line) (k : Act σ α)

namespace Act
variable {σ α β γ : Type}

/-- Sequencing (`.await` and `;`). -/
def bind : Act σ α → (α → Act σ β) → Act σ β
  | ret a, f => f a
  | panic c, _ => panic c
  | step g k, f => step g (fun w => bind (k w) f)
  | print l k, f => print l (bind k f)

instance : Monad (Act σ) where
  pure := ret
  bind := bind

/-- Code that may panic but does not touch the world. -/
def ofPure : Except Crash α → Act σ α
  | .ok a => ret a
  | .error c => panic c

/-- How a computation ends when it is run without interruption. -/
structure Done (σ α : Type) where
  out : Except Crash α
  world : σ
  printed : List Line

/-- Running a computation from start to end. -/
def run : Act σ α → σ → Done σ α
  | ret a, w => ⟨.ok a, w, []⟩
  | panic c, w => ⟨.error c, w, []⟩
  | step f k, w => run (k w) (f w)
  | print l k, w => let d := run k w; ⟨d.out, d.world, l :: d.printed⟩

end Act
end Obsidian
