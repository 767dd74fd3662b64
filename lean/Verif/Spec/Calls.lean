import Verif.Spec.Start
import Verif.Spec.Pages
import Verif.Spec.Observe
import Verif.Model.App
import Verif.Model.Server

/-!
Words of the claims about registration calls: which calls are made, what they name, and how two
programs are alike.
-/

namespace Obsidian.Spec

open Obsidian

section

variable {M H : Type}

/-- The two paths differ in a character before the first parameter of either. -/
def PartEarly (a b : List Str) : Prop :=
  ∃ p c d u v, flat a = p ++ c :: u ∧ flat b = p ++ d :: v ∧ c ≠ d ∧
    (∀ q x, HasSeg a q (':' :: x) → p.length < q.length) ∧
    ∀ q x, HasSeg b q (':' :: x) → p.length < q.length

/-- A path without parameters. -/
def NoParam (a : List Str) : Prop := ∀ t ∈ a, t.head? ≠ some ':'

end

section

variable {M H : Type}

/-- All the paths that are new begin with the character `a`, with which no old path begins. -/
def Fresh (old new : Log M H) (a : Char) : Prop :=
  a ≠ ':' ∧ a ≠ '*' ∧ (∀ e ∈ old, (flat e.segs).head? ≠ some a) ∧
  ∀ e ∈ new, e ∉ old → ∃ u, flat e.segs = a :: u

end

section

variable {M H : Type}

/-- Making registration calls one after the other, catching the panic of each of them. -/
def runCaught : List (Reg M H) → Router M H → Router M H
  | [], r => r
  | c :: cs, r => runCaught cs (c.run r).1

/-- The call registers a route for the method at the characters `q`. -/
def RegistersAt (c : Reg M H) (m : Method) (q : Str) : Prop :=
  ∃ (v : Verb) (p : Str) (h : H), c = v.reg p h ∧ v.method = m ∧ flat (segments p) = q

end

section

variable {U : Univ} {σ : Type}

/-- The registrations among the calls, in order. -/
def registrations {t : U.Ty} : List (AppCall U σ t) → List (Reg (Middleware U σ) (Handler U σ))
  | [] => []
  | .reg c :: cs => c :: registrations cs
  | .setAppState _ :: cs => registrations cs

end

section

variable {U : Univ} {σ : Type}
variable {M H : Type}

/-- All routes of the log have a method for which there is a registration call. -/
def VerbsOnly (L : Log M H) : Prop := ∀ e ∈ L, ∀ m h, e.what = .route m h → ∃ v : Verb, v.method = m

end

section

variable {M H : Type}

mutual
/-- The global middlewares after a call: `use_service` adds one; a router mounted at the root replaces
the table, and so its own global middlewares are the ones left. -/
def globalsReg : Reg M H → List M → List M
  | .useService m, g => g ++ [m]
  | .useRouter p sub, g => if segments p = [] then globalsFrom sub [] else g
  | .scope p sub, g => if segments p = [] then globalsFrom sub [] else g
  | _, g => g
/-- The global middlewares after a sequence of calls. -/
def globalsFrom : List (Reg M H) → List M → List M
  | [], g => g
  | c :: cs, g => globalsFrom cs (globalsReg c g)
end

/-- The middlewares added with `use_service` calls of the top level. -/
def services : List (Reg M H) → List M :=
  List.filterMap fun | .useService m => some m | _ => none

end

section

variable {M H : Type}

/-- A call on a nested router, made on the outer router with the prefix `p` put in front of its path. -/
def prefixReg (p : Str) : Reg M H → Reg M H
  | .get q h => .get (p ++ '/' :: q) h
  | .post q h => .post (p ++ '/' :: q) h
  | .put q h => .put (p ++ '/' :: q) h
  | .patch q h => .patch (p ++ '/' :: q) h
  | .delete q h => .delete (p ++ '/' :: q) h
  | .useService m => .useServiceTo p m
  | .useServiceTo q m => .useServiceTo (p ++ '/' :: q) m
  | .useRouter q sub => .useRouter (p ++ '/' :: q) sub
  | .scope q sub => .scope (p ++ '/' :: q) sub

/-- No call is a `use_service_to` for the root (which has no effect, see C16). -/
def NoRootMw (cs : List (Reg M H)) : Prop := ∀ p m, .useServiceTo p m ∈ cs → segments p ≠ []

/-- A mount: `use_router(p, sub)` or `scope(p, sub)`. -/
def IsMount (c : Reg M H) (p : Str) (sub : List (Reg M H)) : Prop := c = .useRouter p sub ∨ c = .scope p sub

end

section

variable {M H : Type}

/-- A call other than a mount. -/
def NotMount : Reg M H → Prop
  | .useRouter _ _ | .scope _ _ => False
  | _ => True

/-- A call that adds a middleware. -/
def isMw : Reg M H → Bool
  | .useService _ | .useServiceTo _ _ => true
  | _ => false

/-- What a call that is not a mount adds to the log. -/
def callLog (c : Reg M H) : Log M H := logReg c []

/-- Two registrations that can be made together. -/
def Compat (e e' : Entry M H) : Prop :=
  ¬ Clash e.segs e'.segs ∧ ¬ Clash e'.segs e.segs ∧
  ∀ m h h', flat e.segs = flat e'.segs → e.what = .route m h → e'.what ≠ .route m h'

end

section

variable {M H : Type}

/-- No call of the list is a mount at the root (which replaces the whole table). -/
def NoRootMount (cs : List (Reg M H)) : Prop :=
  ∀ c ∈ cs, ∀ p sub, (c = .useRouter p sub ∨ c = .scope p sub) → segments p ≠ []

end

section

variable {M H : Type}

mutual
/-- The call adds a middleware, to the router or to a nested one. -/
def addsMw : Reg M H → Bool
  | .useService _ | .useServiceTo _ _ => true
  | .useRouter _ sub | .scope _ sub => addMw sub
  | _ => false
/-- One of the calls adds a middleware. -/
def addMw : List (Reg M H) → Bool
  | [] => false
  | c :: cs => addsMw c || addMw cs
end

/-- Not a mount at the root, which replaces everything (see C19). -/
def NotRootMount (c : Reg M H) : Prop := ∀ p sub, (c = .useRouter p sub ∨ c = .scope p sub) → segments p ≠ []

/-- No middleware in the log. -/
def NoMws (L : Log M H) : Prop := ∀ e ∈ L, ∀ m, e.what ≠ .middleware m

/-- What a call has to fulfil by itself. -/
def AloneOK (c : Reg M H) : Prop :=
  (∀ p sub, IsMount c p sub → RegsOK sub [] ∧ StarsOK (segments p)) ∧
  (NotMount c → ∀ e ∈ callLog c, StarsOK e.segs)

end

section

variable {M H : Type}

/-- A panic without the spelling of the path in its message. -/
def kind : Panic → Panic
  | .starInName _ => .starInName []
  | .starNotLast _ => .starNotLast []
  | .ambiguous a b _ => .ambiguous a b []
  | .duplicated m _ => .duplicated m []
  | .conflict _ => .conflict []
  | p => p

/-- Two outcomes of a call are the same but for the spelling of the path in a panic message. -/
def SameOut {σ : Type} (a b : Out σ) : Prop := a.1 = b.1 ∧ a.2.map kind = b.2.map kind

mutual
/-- Two calls that differ only in the spelling of paths. -/
def Respelled : Reg M H → Reg M H → Prop
  | .get p h, .get p' h' => segments p = segments p' ∧ h = h'
  | .post p h, .post p' h' => segments p = segments p' ∧ h = h'
  | .put p h, .put p' h' => segments p = segments p' ∧ h = h'
  | .patch p h, .patch p' h' => segments p = segments p' ∧ h = h'
  | .delete p h, .delete p' h' => segments p = segments p' ∧ h = h'
  | .useService m, .useService m' => m = m'
  | .useServiceTo p m, .useServiceTo p' m' => segments p = segments p' ∧ m = m'
  | .useRouter p s, .useRouter p' s' => segments p = segments p' ∧ RespelledAll s s'
  | .scope p s, .scope p' s' => segments p = segments p' ∧ RespelledAll s s'
  | .scope p s, .useRouter p' s' => segments p = segments p' ∧ RespelledAll s s'
  | _, _ => False
/-- Two programs that differ only in the spelling of paths. -/
def RespelledAll : List (Reg M H) → List (Reg M H) → Prop
  | [], [] => True
  | c :: cs, c' :: cs' => Respelled c c' ∧ RespelledAll cs cs'
  | _, _ => False
end

end

section

variable {U : Univ} {σ M H : Type}

/-- What the call at the head of a program that stops is rejected for. -/
def CallFault : Reg M H → Log M H → Panic → Prop
  | .get p _, L, e => RouteFault L .get p e
  | .post p _, L, e => RouteFault L .post p e
  | .put p _, L, e => RouteFault L .put p e
  | .patch p _, L, e => RouteFault L .patch p e
  | .delete p _, L, e => RouteFault L .delete p e
  | .useService _, _, _ => False
  | .useServiceTo p _, L, e => PathFault L p e
  | .useRouter p sub, L, e => MountFault L p sub e
  | .scope p sub, L, e => MountFault L ('/' :: p) sub e
where
  RouteFault (L : Log M H) (m : Method) (p : Str) (e : Panic) : Prop :=
    PathFault L p e ∨ (StarsOK (segments p) ∧ NoClash L (segments p) ∧ e = .duplicated m (if segments p = [] then ['/'] else p))
  MountFault (L : Log M H) (p : Str) (sub : List (Reg M H)) (e : Panic) : Prop :=
    Stops sub [] e ∨ (RegsOK sub [] ∧ (PathFault L p e ∨ (StarsOK (segments p) ∧ NoClash L (segments p) ∧ e = .conflict p)))

end

section

variable {M H : Type}

/-- The panics with a message written for the user, for a call with this path. -/
inductive Documented (path : Str) : Panic → Prop where
  | starInName : Documented path (.starInName path)
  | starNotLast : Documented path (.starNotLast path)
  | ambiguous (a b : Str) : Documented path (.ambiguous a b path)
  | duplicated (m : Method) : Documented path (.duplicated m path)
  | duplicatedRoot (m : Method) : segments path = [] → Documented path (.duplicated m ['/'])
  | conflict : Documented path (.conflict path)

mutual
/-- The paths named in a call, including the ones inside nested routers. -/
def pathsOf : Reg M H → List Str
  | .get p _ | .post p _ | .put p _ | .patch p _ | .delete p _ => [p]
  | .useService _ => []
  | .useServiceTo p _ => [p]
  | .useRouter p sub => p :: pathsOfAll sub
  | .scope n sub => ('/' :: n) :: pathsOfAll sub
/-- The paths named in a program. -/
def pathsOfAll : List (Reg M H) → List Str
  | [] => []
  | c :: cs => pathsOf c ++ pathsOfAll cs
end

end

end Obsidian.Spec
