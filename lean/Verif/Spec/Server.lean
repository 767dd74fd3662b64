import Verif.Spec.Observe
import Verif.Model.App

/- What is expected of serving a request. -/
namespace Obsidian.Spec
open Obsidian
variable {U : Univ} {σ : Type}

/-- A value that can be sent in a header: visible ASCII characters, spaces and tabs. -/
def Visible (v : Str) : Prop := ∀ c ∈ v, (' ' ≤ c ∧ c ≤ '~') ∨ c = '\t'

instance (v : Str) : Decidable (Visible v) := by unfold Visible; infer_instance

/-- The context in which the chain of a request starts. -/
structure Starts (a : App U σ) (req : Request U) (c : Context U) : Prop where
  method : c.request.method = req.method
  path : c.request.path = req.path
  query : c.request.query = req.query
  headers : c.request.headers = req.headers
  body : c.request.body = req.body
  params : ∀ x, c.paramsData x = paramFor a.router req.path x
  response : c.response = none
  state : ∀ t v, a.appState = some ⟨t, v⟩ → c.request.extensions = req.extensions.insert t v
  noState : a.appState = none → c.request.extensions = req.extensions

/-- Serving the request runs nothing, prints nothing, leaves the world alone and answers with `sent`. -/
def AnswersOnly (act : Act σ Sent) (status : Status) (body : String) : Prop :=
  ∀ w, ∃ sent, act.run w = ⟨.ok sent, w, []⟩ ∧ sent.status = status ∧
    sent.body.bytes = body.toUTF8.toList ∧ sent.body.fails = false ∧ ∀ k, sent.headers.get k = none

/-- The computation that produces the result of the chain of a request: the handler for its method and
path inside the middlewares of the path, started in the initial context. -/
def ServedBy (a : App U σ) (req : Request U) (x : Act σ (ContextResult U)) : Prop :=
  ∃ h chain c, handlerFor a.router req.method req.path = some h ∧
    chainFor a.router req.path = some chain ∧ Starts a req c ∧ x = execNext h chain c

/-- The value of a name in a list of headers if later ones replace earlier ones. -/
def lastValue (hs : List (HeaderName × Str)) (k : HeaderName) : Option Str :=
  ((hs.filter (fun e => e.1 = k)).getLast?).map (·.2)

end Obsidian.Spec
