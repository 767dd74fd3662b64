import Verif.Spec.Pattern

/-
What can be observed of a router by looking up a path (`Router::search_route` and the accessors of
its result, which is all that `AppServer::resolve_endpoint` uses).
-/
namespace Obsidian.Spec
open Obsidian
variable {M H : Type}

/-- The path is known to the router. -/
def isFound (r : Router M H) (path : Str) : Bool :=
  match r.searchRoute path with
  | .ok (some _) => true
  | _ => false

/-- The handler selected for a method and path. -/
def handlerFor (r : Router M H) (m : Method) (path : Str) : Option H :=
  match r.searchRoute path with
  | .ok (some v) => (v.getRoute m).map (·.handler)
  | _ => none

/-- The middleware chain selected for a path. -/
def chainFor (r : Router M H) (path : Str) : Option (List M) :=
  match r.searchRoute path with
  | .ok (some v) => some v.getMiddlewares
  | _ => none

/-- The value of a parameter for a path. -/
def paramFor (r : Router M H) (path : Str) (x : Str) : Option Str :=
  match r.searchRoute path with
  | .ok (some v) => v.getParams.get x
  | _ => none

/-- Two routers cannot be told apart by looking up the path. -/
def SameAt (r r' : Router M H) (path : Str) : Prop :=
  isFound r path = isFound r' path ∧ (∀ m, handlerFor r m path = handlerFor r' m path) ∧
  chainFor r path = chainFor r' path ∧ ∀ x, paramFor r path x = paramFor r' path x

end Obsidian.Spec
