import Verif.Model.Server

/-
app.rs:143-165: the services that `App::listen` hands to hyper, for connections of HTTP/1.1.

hyper makes one service for every connection (`make_service_fn`), which gets the requests of the
connection one after the other: the next one only when the response to the previous one is there.  A
panic ends the task of the connection.  If the client hangs up, what is running is dropped.
Connections are numbered; all of them exist from the beginning.
-/
namespace Obsidian
variable {U : Univ} {σ τ : Type}

/-- A connection: the requests that wait, what is being done, the responses sent so far. -/
structure Conn (U : Univ) (σ : Type) where
  waiting : List (Request U)
  current : Option (Act σ Sent)
  sent : List Sent
  closed : Bool

/-- A connection before the first request. -/
def Conn.new : Conn U σ := ⟨[], none, [], false⟩

/-- What happens next: a request arrives on a connection, the connection gets its turn, or the client
hangs up. -/
inductive ConnEvent (U : Univ) where
  | receive (i : Nat) (req : Request U)
  | turn (i : Nat)
  | hangUp (i : Nat)

/-- The server, its connections, the world and what has been printed. -/
structure ConnServer (U : Univ) (σ τ : Type) where
  app : App U τ
  conns : Nat → Conn U σ
  world : σ
  printed : List Line

/-- One turn of a connection; `serve` is the service of app.rs:151-155. -/
def Conn.turn (serve : Request U → Act σ Sent) (c : Conn U σ) (w : σ) : Conn U σ × σ × List Line :=
  if c.closed then (c, w, [])
  else
    match c.current with
    | none =>
      match c.waiting with
      | [] => (c, w, [])
      | req :: reqs => ({ c with waiting := reqs, current := some (serve req) }, w, [])
    | some (.ret sent) => ({ c with current := none, sent := c.sent ++ [sent] }, w, [])
    | some (.panic _) => ({ c with closed := true }, w, [])
    | some (.step f k) => ({ c with current := some (k w) }, f w, [])
    | some (.print l k) => ({ c with current := some k }, w, [l])

/-- A request arrives on a connection. -/
def Conn.receive (c : Conn U σ) (req : Request U) : Conn U σ :=
  if c.closed then c else { c with waiting := c.waiting ++ [req] }

/-- The client hangs up. -/
def Conn.hangUp (c : Conn U σ) : Conn U σ := { c with closed := true }

/-- app.rs:146-158: every connection has a service of its own, with a copy of the application; `embed i`
makes the `i`-th connection see the world in its own way. -/
def ConnServer.step (embed : Nat → Act τ Sent → Act σ Sent) (s : ConnServer U σ τ) : ConnEvent U → ConnServer U σ τ
  | .receive i req => { s with conns := fun j => if j = i then (s.conns i).receive req else s.conns j }
  | .hangUp i => { s with conns := fun j => if j = i then (s.conns i).hangUp else s.conns j }
  | .turn i =>
    let (c, w, out) := (s.conns i).turn (fun req => embed i (s.app.serve req)) s.world
    { s with conns := fun j => if j = i then c else s.conns j, world := w, printed := s.printed ++ out }

/-- Any sequence of events. -/
def ConnServer.run (embed : Nat → Act τ Sent → Act σ Sent) (s : ConnServer U σ τ) (es : List (ConnEvent U)) :
    ConnServer U σ τ := es.foldl (ConnServer.step embed) s

end Obsidian
