import Verif.Spec.Together
import Verif.Spec.Isolation
import Verif.Model.Conn

/-
What is expected on connections with several requests.
-/
namespace Obsidian.Spec
open Obsidian
variable {U : Univ} {σ τ : Type}

/-- The connection that an event is about. -/
def ConnEvent.about : ConnEvent U → Nat
  | .receive i _ => i
  | .turn i => i
  | .hangUp i => i

/-- The requests that arrive on the connection, in order. -/
def receivedOn (i : Nat) : List (ConnEvent U) → List (Request U)
  | [] => []
  | .receive j req :: es => if j = i then req :: receivedOn i es else receivedOn i es
  | .turn _ :: es => receivedOn i es
  | .hangUp _ :: es => receivedOn i es

/-- The responses to requests that are served one after the other, in a world of their own, until one of them
panics. -/
def oneByOne (a : App U τ) : List (Request U) → τ → List Sent
  | [], _ => []
  | req :: reqs, w =>
    match ((a.serve req).run w).out with
    | .ok sent => sent :: oneByOne a reqs ((a.serve req).run w).world
    | .error _ => []

/-- What comes of requests that are served one after the other, by nobody else, until one of them panics: the
responses, the world and the lines. -/
def oneAfterAnother (a : App U σ) : List (Request U) → σ → List Sent × σ × List Line
  | [], w => ([], w, [])
  | req :: reqs, w =>
    match ((a.serve req).run w).out with
    | .ok sent =>
      let (sents, w', lines) := oneAfterAnother a reqs ((a.serve req).run w).world
      (sent :: sents, w', ((a.serve req).run w).printed ++ lines)
    | .error _ => ([], ((a.serve req).run w).world, ((a.serve req).run w).printed)

/-- Nothing is left to be done on the connection. -/
def Idle (c : Conn U σ) : Prop := c.closed = true ∨ (c.current.isNone = true ∧ c.waiting.isEmpty = true)

/-- The requests are answered one after the other, with these steps, responses and lines. -/
inductive GoAll (a : App U σ) : List (Request U) → List (σ × (σ → σ)) → List Sent → List Line → Prop
  | nil : GoAll a [] [] [] []
  | more {reqs ps sents ls req ps' sent ls'} : GoAll a reqs ps sents ls → Goes (a.serve req) ps' (.ok sent) ls' →
      GoAll a (reqs ++ [req]) (ps ++ ps') (sents ++ [sent]) (ls ++ ls')

/-- The server before the first request. -/
def listening (a : App U τ) (w : σ) : ConnServer U σ τ := ⟨a, fun _ => Conn.new, w, []⟩

/-- The first `n` events of an infinite sequence. -/
def firstOf (es : Nat → ConnEvent U) (n : Nat) : List (ConnEvent U) := (List.range n).map es

/-- The events that are about the connection. -/
def eventsOf (i : Nat) (es : List (ConnEvent U)) : List (ConnEvent U) := es.filter fun e => ConnEvent.about e = i

/-- How far a connection has come with the requests that it received, if these were its steps and lines: some
are answered, in order; at most one, the next one, is being served; the others wait. -/
def Progress (a : App U σ) (c : Conn U σ) (received : List (Request U)) (ps : List (σ × (σ → σ))) (ls : List Line) : Prop :=
  ∃ done rest ps1 ls1 ps2 ls2, received = done ++ rest ∧ ps = ps1 ++ ps2 ∧ ls = ls1 ++ ls2 ∧ GoAll a done ps1 c.sent ls1 ∧
    match c.current with
    | none => ps2 = [] ∧ ls2 = [] ∧ (c.closed = false → rest = c.waiting)
    | some act => ∃ req more, rest = req :: more ∧ (c.closed = false → more = c.waiting) ∧
        ∀ ps3 out ls3, Goes act ps3 out ls3 → Goes (a.serve req) (ps2 ++ ps3) out (ls2 ++ ls3)

end Obsidian.Spec
