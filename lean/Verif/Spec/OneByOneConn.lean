import Verif.Spec.OneByOne
import Verif.Spec.Conn

/-!
Requests of several connections, served one after the other.
-/

namespace Obsidian.Spec

open Obsidian

variable {U : Univ} {σ : Type}

/-- The requests in the order that are of the connection `i` (here the numbers in the order are those of connections). -/
def Order.on (o : Order U) (i : Nat) : List (Request U) := (o.filter fun e => e.1 = i).map (·.2)

/-- How the requests of the connection `i` end, if all the requests are served in this order, one after the other, each
from start to end. -/
def answersOn (a : App U σ) (i : Nat) (w : σ) : Order U → List (Except Crash Sent)
  | [] => []
  | (j, req) :: o =>
    if j = i then ((a.serve req).run w).out :: answersOn a i ((a.serve req).run w).world o
    else answersOn a i ((a.serve req).run w).world o

end Obsidian.Spec
