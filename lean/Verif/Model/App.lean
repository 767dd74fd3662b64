import Verif.Model.Router
import Verif.Model.Context

/-
src/app.rs, src/router/handler.rs, src/middleware.rs and src/middleware/logger.rs.
-/
namespace Obsidian

/-- handler.rs:7 `ContextResult`. -/
abbrev ContextResult (U : Univ) := Except ObsidianError (Context U)

/-- handler.rs:10-12 `trait Handler`. -/
abbrev Handler (U : Univ) (σ : Type) := Context U → Act σ (ContextResult U)

/-- middleware.rs:10-16 `trait Middleware`: given the context and what runs the rest of the chain
(`EndpointExecutor::next` on the executor that is passed). -/
abbrev Middleware (U : Univ) (σ : Type) :=
  Context U → (Context U → Act σ (ContextResult U)) → Act σ (ContextResult U)

variable {U : Univ} {σ : Type}

/-- app.rs:305-312 `EndpointExecutor::next`, for the executor made of the handler and the list of
middlewares. -/
def execNext (handler : Handler U σ) : List (Middleware U σ) → Context U → Act σ (ContextResult U)
  | current :: allNext, context => current context (execNext handler allNext)
  | [], context => handler context

/-- app.rs:274-279 `page_not_found`. -/
def pageNotFound : Sent := ⟨404, HMap.empty, Body.ofStr "404 Not Found".toList⟩

/-- app.rs:281-287 `internal_server_error`. -/
def internalServerError (err : ObsidianError) : Sent := ⟨500, HMap.empty, Body.ofStr err.text⟩

/-- `http::response::Builder`: the parts so far, or an error. -/
abbrev Builder := Except Unit (Status × HeaderMap)

/-- `Response::builder()`. -/
def Builder.new : Builder := .ok (200, HMap.empty)

/-- `Builder::status` with a `StatusCode`. -/
def Builder.status (b : Builder) (s : Status) : Builder := b.map (fun p => (s, p.2))

/-- `Builder::body`. -/
def Builder.body (b : Builder) (body : Body) : Except Unit Sent := b.map (fun p => ⟨p.1, p.2, body⟩)

/-- app.rs:243-246: inserting the headers one after the other; panics on an invalid value. -/
def insertHeaders : List (HeaderName × Str) → HeaderMap → Except Crash HeaderMap
  | [], m => .ok m
  | (k, v) :: hs, m =>
    if validHeaderValue v then insertHeaders hs (m.insert k v) else .error (.headerValue v)

/-- app.rs:241-248: the headers of the response are put into the builder, if it has any. -/
def Builder.withHeaders (b : Builder) (headers : Option (List (HeaderName × Str))) :
    Except Crash Builder :=
  match headers with
  | some hs =>
    match b with
    | .ok (s, m) => (insertHeaders hs m).map (fun m' => .ok (s, m'))
    | .error e => .ok (.error e)
  | none => .ok b

/-- app.rs:237-267: the response made from the result of the chain. -/
def finish (result : ContextResult U) : Except Crash Sent :=
  let built : Except Crash (Except Unit Sent) :=
    match result with
    | .ok ctx =>
      match ctx.takeResponse with
      | some response =>
        (Builder.new.withHeaders response.headers).map
          (fun res => (res.status response.status).body response.body)
      | none => .ok ((Builder.new.status 200).body (Body.ofStr []))
    | .error err => .ok ((Builder.new.status 500).body (Body.ofStr err.text))
  built.map (fun
    | .ok sent => sent
    | .error _ => internalServerError (.generalError "Error while constructing response body".toList))

/-- app.rs:212-272 `AppServer::resolve_endpoint`; `state` is the application state with its type. -/
def resolveEndpoint (req : Request U)
    (routeValue : Option (RouteValueResult (Middleware U σ) (Handler U σ)))
    (state : Option ((t : U.Ty) × U.Val t)) : Act σ Sent :=
  match routeValue with
  | some rv =>
    match rv.getRoute req.method with
    | none => .ret pageNotFound
    | some route =>
      let context := Context.new req rv.getParams
      let context := match state with
        | some ⟨t, v⟩ => context.add t v
        | none => context
      (execNext route.handler rv.getMiddlewares context).bind (fun result => .ofPure (finish result))
  | none => .ret pageNotFound

/-- app.rs:20-26 `struct App`. -/
structure App (U : Univ) (σ : Type) where
  router : Router (Middleware U σ) (Handler U σ)
  appState : Option ((t : U.Ty) × U.Val t)

/-- Text of a method in the log. -/
def methodText : Method → Str
  | .get => "GET".toList | .post => "POST".toList | .put => "PUT".toList
  | .patch => "PATCH".toList | .delete => "DELETE".toList | .head => "HEAD".toList
  | .options => "OPTIONS".toList | .trace => "TRACE".toList | .connect => "CONNECT".toList
  | .extension n => n

/-- The URI in the log (simplified: path and query only). -/
def uriText (r : Request U) : Str :=
  match r.query with
  | some q => r.path ++ '?' :: q
  | none => r.path

/-- logger.rs:21-49 `Logger::handle` (the elapsed time in the output is left out). -/
def logger : Middleware U σ := fun context next =>
  .print (.request (methodText context.request.method) (uriText context.request)) <|
  .print .debug <|
  (next context).bind fun
    | .ok after =>
      match after.response with
      | some r => .print (.sent r.status) (.ret (.ok after))
      | none => .panic .noResponse
    | .error e => .print (.error e.text) (.ret (.error e))

namespace App

/-- app.rs:48-53 `App::new`. -/
def new : App U σ := ⟨Router.new, none⟩

/-- app.rs:28-42 `App::default`: with the logger as a global middleware. -/
def default : App U σ := ⟨Router.new.useService logger, none⟩

/-- app.rs:139-141 `App::set_app_state`. -/
def setAppState (a : App U σ) (t : U.Ty) (v : U.Val t) : App U σ := { a with appState := some ⟨t, v⟩ }

/-- app.rs:143-160, the service function of `listen`, for one request: look up the route in the
(cloned, never modified) router and resolve. -/
def serve (a : App U σ) (req : Request U) : Act σ Sent :=
  match a.router.searchRoute req.path with
  | .ok rv => resolveEndpoint req rv a.appState
  | .panic _ => .panic .lookup

end App
end Obsidian
