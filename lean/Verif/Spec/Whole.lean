import Verif.Spec.Follow
import Verif.Spec.Server

/-
What serving a request is, from the registrations to the response.
-/
namespace Obsidian.Spec
open Obsidian
variable {M H : Type} {U : Univ} {σ : Type}

/-- The middlewares that were registered at the characters `q`, in order. -/
def middlewaresAt (L : Log M H) (q : Str) : List M :=
  L.filterMap fun x => if flat x.segs = q then match x.what with | .middleware m => some m | _ => none else none

/-- The middlewares for the registered path: those of the root, and then those of the beginnings of its
characters, longer ones first. -/
def middlewaresOf (L : Log M H) (ss : List Str) : List M :=
  middlewaresAt L [] ++
    (List.range (flat ss).length).reverse.flatMap fun i => middlewaresAt L ((flat ss).take (i + 1))

/-- The handler inside of the middlewares, the first of them outermost. -/
def nest (h : Handler U σ) (ms : List (Middleware U σ)) : Handler U σ :=
  ms.foldr (fun m inner c => m c inner) h

/-- What the handler and the middlewares are given: the request with the parameters and the state. -/
structure Given (state : Option ((t : U.Ty) × U.Val t)) (req : Request U) (params : List (Str × Str)) (c : Context U) :
    Prop where
  method : c.request.method = req.method
  path : c.request.path = req.path
  query : c.request.query = req.query
  headers : c.request.headers = req.headers
  body : c.request.body = req.body
  params : ∀ x, c.paramsData x = params.lookup x
  response : c.response = none
  shared : ∀ t v, state = some ⟨t, v⟩ → c.get t = some v ∧ ∀ t', t' ≠ t → c.get t' = req.extensions.get t'
  unshared : state = none → ∀ t, c.get t = req.extensions.get t

/-- The headers of a response, in the order in which they were set. -/
def headersOf (r : Response) : List (HeaderName × Str) := r.headers.getD []

/-- What is sent for a result of the middlewares and the handler. -/
inductive SendsFor : ContextResult U → Sent → Prop
  /-- an error: 500 and its text -/
  | error {e sent} : sent.status = 500 → sent.body.bytes = utf8 e.text → sent.body.fails = false →
      (∀ k, sent.headers.get k = none) → SendsFor (.error e) sent
  /-- a response: its status, its body, and the last value of every header -/
  | response {c r sent} : c.response = some r → (∀ h ∈ headersOf r, Visible h.2) → sent.status = r.status →
      sent.body = r.body → (∀ k, sent.headers.get k = lastValue (headersOf r) k) → SendsFor (.ok c) sent
  /-- no response: 200 -/
  | silent {c sent} : c.response = none → sent.status = 200 → sent.body.bytes = [] → sent.body.fails = false →
      (∀ k, sent.headers.get k = none) → SendsFor (.ok c) sent

/-- A result that cannot be sent. -/
def Unsendable (result : ContextResult U) : Prop :=
  ∃ c r, result = .ok c ∧ c.response = some r ∧ ∃ h ∈ headersOf r, ¬ Visible h.2

/-- How serving ends, if the middlewares and the handler end with `d`. -/
def EndsFor (d : Act.Done σ (ContextResult U)) (d' : Act.Done σ Sent) : Prop :=
  d'.world = d.world ∧ d'.printed = d.printed ∧
  (∀ k, d.out = .error k → d'.out = .error k) ∧
  ∀ result, d.out = .ok result →
    (Unsendable result → ∃ v, ¬ Visible v ∧ d'.out = .error (.headerValue v)) ∧
    (¬ Unsendable result → ∃ sent, d'.out = .ok sent ∧ SendsFor result sent)

end Obsidian.Spec
