import Verif.Spec.Observe
import Verif.Spec.Form
import Verif.Spec.Chain

/-
Programs that make the same calls with different handlers and middlewares.
-/
namespace Obsidian.Spec
variable {M H M' H' : Type}

/-- Both are absent, or both are there and related. -/
inductive Both {α β : Type} (R : α → β → Prop) : Option α → Option β → Prop
  | none : Both R none none
  | some {a b} : R a b → Both R (some a) (some b)

mutual
/-- The same call, with related handlers and middlewares. -/
inductive AlikeCall (RM : M → M' → Prop) (RH : H → H' → Prop) : Reg M H → Reg M' H' → Prop
  | get {p h h'} : RH h h' → AlikeCall RM RH (.get p h) (.get p h')
  | post {p h h'} : RH h h' → AlikeCall RM RH (.post p h) (.post p h')
  | put {p h h'} : RH h h' → AlikeCall RM RH (.put p h) (.put p h')
  | patch {p h h'} : RH h h' → AlikeCall RM RH (.patch p h) (.patch p h')
  | delete {p h h'} : RH h h' → AlikeCall RM RH (.delete p h) (.delete p h')
  | useService {m m'} : RM m m' → AlikeCall RM RH (.useService m) (.useService m')
  | useServiceTo {p m m'} : RM m m' → AlikeCall RM RH (.useServiceTo p m) (.useServiceTo p m')
  | useRouter {p sub sub'} : Alike RM RH sub sub' → AlikeCall RM RH (.useRouter p sub) (.useRouter p sub')
  | scope {p sub sub'} : Alike RM RH sub sub' → AlikeCall RM RH (.scope p sub) (.scope p sub')
/-- The same calls in the same order. -/
inductive Alike (RM : M → M' → Prop) (RH : H → H' → Prop) : List (Reg M H) → List (Reg M' H') → Prop
  | nil : Alike RM RH [] []
  | cons {c c' cs cs'} : AlikeCall RM RH c c' → Alike RM RH cs cs' → Alike RM RH (c :: cs) (c' :: cs')
end

/-- The same calls in the same order, except that the second program makes more calls of `use_service`,
with middlewares from `W`. -/
inductive Watched (RM : M → M' → Prop) (RH : H → H' → Prop) (W : M' → Prop) : List (Reg M H) → List (Reg M' H') → Prop
  | nil : Watched RM RH W [] []
  | same {c c' cs cs'} : AlikeCall RM RH c c' → Watched RM RH W cs cs' → Watched RM RH W (c :: cs) (c' :: cs')
  | more {o cs cs'} : W o → Watched RM RH W cs cs' → Watched RM RH W cs (.useService o :: cs')

/-- The second list is the first one with related elements, and with more elements from `W`. -/
inductive Merged {α β : Type} (R : α → β → Prop) (W : β → Prop) : List α → List β → Prop
  | nil : Merged R W [] []
  | both {a b as bs} : R a b → Merged R W as bs → Merged R W (a :: as) (b :: bs)
  | more {b as bs} : W b → Merged R W as bs → Merged R W as (b :: bs)

/-- Looking up the path gives related handlers for all methods, related middlewares in the same order,
and the same parameters. -/
def AlikeAt (RM : M → M' → Prop) (RH : H → H' → Prop) (r : Router M H) (r' : Router M' H') (path : Str) : Prop :=
  isFound r path = isFound r' path ∧ (∀ m, Both RH (handlerFor r m path) (handlerFor r' m path)) ∧
  Both (Each RM) (chainFor r path) (chainFor r' path) ∧ ∀ x, paramFor r path x = paramFor r' path x

mutual
/-- A call with other handlers and middlewares. -/
def mapCall (f : M → M') (g : H → H') : Reg M H → Reg M' H'
  | .get p h => .get p (g h)
  | .post p h => .post p (g h)
  | .put p h => .put p (g h)
  | .patch p h => .patch p (g h)
  | .delete p h => .delete p (g h)
  | .useService m => .useService (f m)
  | .useServiceTo p m => .useServiceTo p (f m)
  | .useRouter p sub => .useRouter p (mapCalls f g sub)
  | .scope p sub => .scope p (mapCalls f g sub)
/-- Calls with other handlers and middlewares. -/
def mapCalls (f : M → M') (g : H → H') : List (Reg M H) → List (Reg M' H')
  | [] => []
  | c :: cs => mapCall f g c :: mapCalls f g cs
end

/-! ### Applications -/

variable {U : Univ} {σ τ : Type}

/-- What handles a request: a handler, or a handler inside of middlewares. -/
abbrev Service (U : Univ) (σ : Type) := Context U → Act σ (ContextResult U)

/-- Around services that are related, the middlewares make services that are related. -/
def Respects (L : Service U σ → Service U τ → Prop) (m : Middleware U σ) (m' : Middleware U τ) : Prop :=
  ∀ next next', L next next' → L (fun c => m c next) (fun c => m' c next')

/-- Putting the middleware around the second service changes nothing for the relation. -/
def Transparent (L : Service U σ → Service U τ → Prop) (m : Middleware U τ) : Prop :=
  ∀ next next', L next next' → L next (fun c => m c next')

/-- As far as one can see of the world, the second computation does the same as the first one. What is
printed may differ. -/
def SeenSame {α : Type} (seen : τ → σ) (x : Act σ α) (y : Act τ α) : Prop :=
  ∀ w, (y.run w).out = (x.run (seen w)).out ∧ seen (y.run w).world = (x.run (seen w)).world

/-- The same for services. -/
def SeenAlike (seen : τ → σ) (x : Service U σ) (y : Service U τ) : Prop := ∀ c, SeenSame seen (x c) (y c)

/-- The result has a response, or is an error. -/
def HasResponse : ContextResult U → Prop
  | .ok c => c.response ≠ none
  | .error _ => True

/-- The computation never returns a context without a response. -/
def Replies (x : Act σ (ContextResult U)) : Prop :=
  ∀ w r, (x.run w).out = .ok r → HasResponse r

/-- A middleware with which requests have responses if they have without it. -/
def Link.KeepsReplies (l : Link U σ) : Prop :=
  ∀ c w, match ((l.decide c).run w).out with
    | .ok (.answer r) => HasResponse r
    | .ok (.forward _ after) => ∀ r, HasResponse r → Replies (after r)
    | .error _ => True

end Obsidian.Spec
