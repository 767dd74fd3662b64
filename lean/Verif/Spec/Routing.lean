import Verif.Spec.Flat
import Verif.Model.Router

/-
Specification of routing, in terms of the list of registrations only (no tree).

A registration program is turned into a *log*: one entry per call, saying what was registered at
which list of segments.  The functions below say, from the log alone, which entry a request finds,
which parameters it binds and which middlewares run.
-/
namespace Obsidian.Spec
open Obsidian

/-! ### Paths -/

/-- The non-empty pieces of a path between slashes; `cur` is the piece being read. -/
def segmentsFrom (cur : Str) : Str → List Str
  | [] => if cur = [] then [] else [cur]
  | c :: s =>
    if c = '/' then (if cur = [] then segmentsFrom [] s else cur :: segmentsFrom [] s)
    else segmentsFrom (cur ++ [c]) s

/-- The non-empty pieces of a path between slashes. -/
def segments (path : Str) : List Str := segmentsFrom [] path

/-- A path in the documented syntax: a colon only marks the start of a parameter segment. -/
def CleanPath (path : Str) : Prop := ∀ s ∈ segments path, ':' ∉ s.tail

instance (path : Str) : Decidable (CleanPath path) := by unfold CleanPath; infer_instance

/-! ### The log -/

/-- What a registration puts at a path. -/
inductive What (M H : Type) where
  | route (m : Method) (h : H)
  | middleware (m : M)
  /-- nothing: the mount point of a nested router. -/
  | nothing
deriving DecidableEq

/-- One registration. -/
structure Entry (M H : Type) where
  segs : List Str
  what : What M H
deriving DecidableEq

/-- The log of a program. -/
abbrev Log (M H : Type) := List (Entry M H)

variable {M H : Type}

/-- An entry of a nested router seen from outside. -/
def Entry.under (pre : List Str) (e : Entry M H) : Entry M H := ⟨pre ++ e.segs, e.what⟩

/-- Mounting a nested router with log `sub`: at the root it replaces everything. -/
def mountLog (pre : List Str) (L sub : Log M H) : Log M H :=
  if pre = [] then sub else L ++ ⟨pre, .nothing⟩ :: sub.map (Entry.under pre)

mutual
/-- The effect of one (successful) call on the log.  A middleware for the root path given to
`use_service_to` has no effect. -/
def logReg : Reg M H → Log M H → Log M H
  | .get p h, L => L ++ [⟨segments p, .route .get h⟩]
  | .post p h, L => L ++ [⟨segments p, .route .post h⟩]
  | .put p h, L => L ++ [⟨segments p, .route .put h⟩]
  | .patch p h, L => L ++ [⟨segments p, .route .patch h⟩]
  | .delete p h, L => L ++ [⟨segments p, .route .delete h⟩]
  | .useService m, L => L ++ [⟨[], .middleware m⟩]
  | .useServiceTo p m, L => if segments p = [] then L else L ++ [⟨segments p, .middleware m⟩]
  | .useRouter p sub, L => mountLog (segments p) L (logRegs sub [])
  | .scope n sub, L => mountLog (segments n) L (logRegs sub [])
/-- The log after a sequence of calls. -/
def logRegs : List (Reg M H) → Log M H → Log M H
  | [], L => L
  | c :: cs, L => logRegs cs (logReg c L)
end

/-- The log of a program run on an empty router. -/
def logOf (prog : List (Reg M H)) : Log M H := logRegs prog []

mutual
/-- All paths of a call are in the documented syntax. -/
def CleanReg : Reg M H → Prop
  | .get p _ | .post p _ | .put p _ | .patch p _ | .delete p _ => CleanPath p
  | .useService _ => True
  | .useServiceTo p _ => CleanPath p
  | .useRouter p sub => CleanPath p ∧ CleanRegs sub
  | .scope n sub => CleanPath n ∧ CleanRegs sub
/-- All paths of a program are in the documented syntax. -/
def CleanRegs : List (Reg M H) → Prop
  | [] => True
  | c :: cs => CleanReg c ∧ CleanRegs cs
end

/-! ### What is registered at a place

A *place* is the sequence of characters of some segments without the slashes: the code does not
distinguish `a/b` from `ab`. -/

/-- The entry is for the place `q`. -/
def Entry.isAt (e : Entry M H) (q : Str) : Bool := flat e.segs = q

/-- A route or a middleware is registered at the place. -/
def hasEntry (L : Log M H) (q : Str) : Bool :=
  L.any (fun e => e.isAt q && match e.what with | .nothing => false | _ => true)

/-- The middlewares registered at the place, in order. -/
def mwsAt (L : Log M H) (q : Str) : List M :=
  L.filterMap (fun e => if e.isAt q then match e.what with | .middleware m => some m | _ => none
    else none)

/-- The handler registered (last) at the place for the method. -/
def routeAt (L : Log M H) (q : Str) (m : Method) : Option H :=
  (L.filterMap (fun e => if e.isAt q then match e.what with
      | .route m' h => if m' = m then some h else none
      | _ => none
    else none)).getLast?

/-- The parameter segments of a path with their places; `p` is the place of what came before. -/
def paramSegs (p : Str) : List Str → List (Str × Str)
  | [] => []
  | s :: ss => (match s with | ':' :: x => [(p, x)] | _ => []) ++ paramSegs (p ++ s) ss

/-- The parameter that follows the place `p` in some registered path. -/
def paramAt (L : Log M H) (p : Str) : Option Str :=
  (L.flatMap (fun e => paramSegs [] e.segs)).lookup p

/-- The places at which segments end. -/
def ends (p : Str) : List Str → List Str
  | [] => [p]
  | s :: ss => p :: ends (p ++ s) ss

/-- What is left of `s` after `p`. -/
def after (p s : Str) : Option Str := if p.isPrefixOf s then some (s.drop p.length) else none

/-- `s` and `t` go on differently after the common part `q`. -/
def forks (q s t : Str) : Bool :=
  match after q s, after q t with
  | some (a :: _), some (b :: _) => a ≠ b
  | _, _ => false

/-- The place is known: some registered segment ends there, or two registered paths part there. -/
def known (L : Log M H) (q : Str) : Bool :=
  L.any (fun e => (ends [] e.segs).contains q) ||
  L.any (fun e => L.any (fun e' => forks q (flat e.segs) (flat e'.segs)))

/-! ### Lookup -/

/-- Which place the request segments lead to, starting at the place `p`, and which parameters are
bound on the way (name, value), in the order of the path. -/
def find (L : Log M H) (p : Str) : List Str → Option (Str × List (Str × Str))
  | [] => none
  | s :: rest =>
    match paramAt L p with
    | some x =>
      let q := p ++ ':' :: x
      if rest.isEmpty then (if hasEntry L q then some (q, [(x, s)]) else none)
      else (find L q rest).map (fun (r, b) => (r, (x, s) :: b))
    | none =>
      let q := p ++ s
      let static :=
        if s.head? ≠ some '*' ∧ known L q then
          if rest.isEmpty then
            if hasEntry L q then some (q, [])
            else if hasEntry L (q ++ ['*']) then some (q ++ ['*'], []) else none
          else find L q rest
        else none
      match static with
      | some r => some r
      | none => if known L (p ++ ['*']) then some (p ++ ['*'], []) else none

/-- The place a request path leads to, with its parameters, provided something is registered there. -/
def lookup (L : Log M H) (path : Str) : Option (Str × List (Str × Str)) :=
  let r := if segments path = [] then some ([], []) else find L [] (segments path)
  match r with
  | some (q, b) => if hasEntry L q then some (q, b) else none
  | none => none

/-- The middlewares registered at non-empty prefixes of `p ++ r` longer than `p`, longest first. -/
def upTo (L : Log M H) (p : Str) : Str → List M
  | [] => []
  | c :: r => upTo L (p ++ [c]) r ++ mwsAt L (p ++ [c])

/-- The chain of middlewares of a place: the ones of the root, then the ones of the places on the way,
innermost first. -/
def chain (L : Log M H) (q : Str) : List M := mwsAt L [] ++ upTo L [] q

/-- A lookup result agrees with the specification. -/
def Agrees (L : Log M H) (q : Str) (b : List (Str × Str)) (r : RouteValueResult M H) : Prop :=
  r.getMiddlewares = chain L q ∧
  (∀ m, (r.getRoute m).map (·.handler) = routeAt L q m) ∧
  ∀ x, r.getParams.get x = b.lookup x

/-! ### Rejections -/

/-- One path has a parameter where the other one continues differently. -/
def Clash (s t : List Str) : Prop :=
  ∃ p x, HasSeg s p (':' :: x) ∧ p <+: flat t ∧ p ≠ flat t ∧ ¬ HasSeg t p (':' :: x)

/-- The wildcard rules: `*` only as a whole segment, and only as the last one. -/
def StarsOK (ss : List Str) : Prop :=
  ∀ pre s post, ss = pre ++ s :: post → '*' ∈ s → s = ['*'] ∧ post = []

/-- No registered path clashes with the new one. -/
def NoClash (L : Log M H) (ss : List Str) : Prop := ∀ e ∈ L, ¬ Clash e.segs ss ∧ ¬ Clash ss e.segs

/-- Nothing is registered at the place or below it. -/
def Free (L : Log M H) (F : Str) : Prop :=
  hasEntry L F = false ∧ ∀ e ∈ L, F <+: flat e.segs → flat e.segs = F

/-- A route is accepted. -/
def RouteOK (L : Log M H) (m : Method) (ss : List Str) : Prop :=
  StarsOK ss ∧ NoClash L ss ∧ routeAt L (flat ss) m = none

mutual
/-- A call is accepted after the log. -/
def RegOK : Reg M H → Log M H → Prop
  | .get p _, L => RouteOK L .get (segments p)
  | .post p _, L => RouteOK L .post (segments p)
  | .put p _, L => RouteOK L .put (segments p)
  | .patch p _, L => RouteOK L .patch (segments p)
  | .delete p _, L => RouteOK L .delete (segments p)
  | .useService _, _ => True
  | .useServiceTo p _, L => StarsOK (segments p) ∧ NoClash L (segments p)
  | .useRouter p sub, L => RegsOK sub [] ∧ StarsOK (segments p) ∧
      (segments p = [] ∨ (NoClash L (segments p) ∧ Free L (flat (segments p))))
  | .scope p sub, L => RegsOK sub [] ∧ StarsOK (segments p) ∧
      (segments p = [] ∨ (NoClash L (segments p) ∧ Free L (flat (segments p))))
/-- A sequence of calls is accepted after the log. -/
def RegsOK : List (Reg M H) → Log M H → Prop
  | [], _ => True
  | c :: cs, L => RegOK c L ∧ RegsOK cs (logReg c L)
end

/-- The panic is one of the wildcard errors. -/
def StarPanic (path : Str) (p : Panic) : Prop := p = .starInName path ∨ p = .starNotLast path

/-- The path named in the message about a duplicated route. -/
def dupPath (path : Str) : Str := if segments path = [] then ['/'] else path

/-- `*` is last in every entry, and something is registered there: no nested router is mounted at a
path that ends in `*`. -/
def NoStarMount (L : Log M H) : Prop :=
  ∀ e ∈ L, ∀ pre post, e.segs = pre ++ ['*'] :: post → post = [] ∧ e.what ≠ .nothing

end Obsidian.Spec
