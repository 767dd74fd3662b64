import Verif.Model.Trie

/-
src/router.rs: the registration interface of `Router` (and of `App`, which only forwards to its
router, app.rs:55-120), on top of the route tree.
-/
namespace Obsidian

/-- router.rs:26-28 `struct Router` (and app.rs:24, the router of an `App`). -/
structure Router (M H : Type) where
  routes : RouteTrie M H

namespace Router
variable {M H : Type}

/-- router.rs:45-49 `Router::new`. -/
def new : Router M H := ⟨RouteTrie.new⟩

/-- router.rs:109-113 `Router::insert_route`. -/
def insertRoute (r : Router M H) (m : Method) (path : Str) (h : H) : Out (Router M H) :=
  let (t, p) := r.routes.insertRoute path ⟨m, h⟩
  (⟨t⟩, p)

/-- router.rs:51-53 `Router::get` (app.rs:55-57). -/
def get (r : Router M H) (path : Str) (h : H) : Out (Router M H) := r.insertRoute .get path h
/-- router.rs:55-57 `Router::post` (app.rs:59-61). -/
def post (r : Router M H) (path : Str) (h : H) : Out (Router M H) := r.insertRoute .post path h
/-- router.rs:59-61 `Router::put` (app.rs:63-65). -/
def put (r : Router M H) (path : Str) (h : H) : Out (Router M H) := r.insertRoute .put path h
/-- router.rs:63-65 `Router::patch` (app.rs:67-69). -/
def patch (r : Router M H) (path : Str) (h : H) : Out (Router M H) := r.insertRoute .patch path h
/-- router.rs:67-69 `Router::delete` (app.rs:71-73). -/
def delete (r : Router M H) (path : Str) (h : H) : Out (Router M H) := r.insertRoute .delete path h

/-- router.rs:72-74 `Router::use_service_to` (app.rs:98-100). -/
def useServiceTo (r : Router M H) (path : Str) (m : M) : Out (Router M H) :=
  let (t, p) := r.routes.insertMiddleware path m
  (⟨t⟩, p)

/-- router.rs:77-79 `Router::use_service` (app.rs:103-105). -/
def useService (r : Router M H) (m : M) : Router M H := ⟨r.routes.insertDefaultMiddleware m⟩

/-- router.rs:101-103 `Router::use_router` (app.rs:108-110). -/
def useRouter (r : Router M H) (path : Str) (other : Router M H) : Out (Router M H) :=
  let (t, p) := r.routes.insertSubRoute path other.routes
  (⟨t⟩, p)

/-- router.rs:105-107 `Router::search_route`. -/
def searchRoute (r : Router M H) (path : Str) : Lookup (Option (RouteValueResult M H)) :=
  r.routes.searchRoute path

end Router

/-- One of the registration calls that a user of the library can make on a `Router` or `App`
(router.rs:51-103, app.rs:55-120).  `mount` and `scope` carry the calls made on the nested router,
which starts out empty. -/
inductive Reg (M H : Type) where
  | get (path : Str) (h : H)
  | post (path : Str) (h : H)
  | put (path : Str) (h : H)
  | patch (path : Str) (h : H)
  | delete (path : Str) (h : H)
  | useService (m : M)
  | useServiceTo (path : Str) (m : M)
  | useRouter (path : Str) (sub : List (Reg M H))
  | scope (name : Str) (sub : List (Reg M H))

mutual
/-- Making one registration call.  If building a nested router panics, the outer router is left as it
was. `scope` is app.rs:90-95. -/
def Reg.run {M H : Type} : Reg M H → Router M H → Out (Router M H)
  | .get p h, r => r.get p h
  | .post p h, r => r.post p h
  | .put p h, r => r.put p h
  | .patch p h, r => r.patch p h
  | .delete p h, r => r.delete p h
  | .useService m, r => (r.useService m, none)
  | .useServiceTo p m, r => r.useServiceTo p m
  | .useRouter p sub, r =>
    match runRegs sub Router.new with
    | (s, none) => r.useRouter p s
    | (_, some e) => (r, some e)
  | .scope name sub, r =>
    match runRegs sub Router.new with
    | (s, none) => r.useRouter ('/' :: name) s
    | (_, some e) => (r, some e)
/-- Making a sequence of registration calls, up to the first panic. -/
def runRegs {M H : Type} : List (Reg M H) → Router M H → Out (Router M H)
  | [], r => (r, none)
  | c :: cs, r =>
    match c.run r with
    | (r', none) => runRegs cs r'
    | (r', some e) => (r', some e)
end

/-- A registration program, run on an empty router. -/
def build {M H : Type} (prog : List (Reg M H)) : Out (Router M H) := runRegs prog Router.new

end Obsidian
