import Verif.Model.Response

/-
src/context.rs and src/error/obsidian_error.rs.

Decoding (`form`, `query_params`, `json`) takes the decoder as a parameter; the decoder for forms is
modelled in `Verif.Model.Form`.
-/
namespace Obsidian

/-- req_deserializer.rs:406-409 `enum Error`. -/
inductive FormError where
  | message (msg : Str)
  | noneError
deriving DecidableEq, Repr

/-- req_deserializer.rs:423-430 `Display for Error`. -/
def FormError.text : FormError → Str
  | .message msg => msg
  | .noneError => "Input should not be None".toList

/-- obsidian_error.rs:11-17 `enum ObsidianError`; a JSON error is represented by its text. -/
inductive ObsidianError where
  | paramError (msg : Str)
  | jsonError (text : Str)
  | formError (err : FormError)
  | generalError (msg : Str)
  | noneError
deriving DecidableEq, Repr

/-- obsidian_error.rs:19-31 `Display for ObsidianError`. -/
def ObsidianError.text : ObsidianError → Str
  | .paramError msg => msg
  | .jsonError text => text
  | .formError err => err.text
  | .generalError msg => msg
  | .noneError => "Input should not be None".toList

/-- context.rs:22-26 `struct Context`.  The field `params_data` is private and only ever read with
`HashMap::get` (context.rs:106), so it is represented by its lookup function. -/
structure Context (U : Univ) where
  request : Request U
  paramsData : Str → Option Str
  response : Option Response

namespace Context
variable {U : Univ} {α : Type}

/-- context.rs:29-35 `Context::new`. -/
def new (request : Request U) (params : HMap Str Str) : Context U := ⟨request, params.get, none⟩

/-- context.rs:68-70 `Context::add`. -/
def add (c : Context U) (t : U.Ty) (v : U.Val t) : Context U :=
  { c with request := { c.request with extensions := c.request.extensions.insert t v } }

/-- context.rs:73-75 `Context::get`. -/
def get (c : Context U) (t : U.Ty) : Option (U.Val t) := c.request.extensions.get t

/-- context.rs:78-80 `Context::get_mut`, with the update made through it; `none` if there is no value
of the type. -/
def modify (c : Context U) (t : U.Ty) (f : U.Val t → U.Val t) : Option (Context U) :=
  match c.request.extensions.modify t f with
  | some e => some { c with request := { c.request with extensions := e } }
  | none => none

/-- context.rs:105-111 `Context::param`; `parse` is `T::from_str`. -/
def param (c : Context U) (parse : Str → Option α) (key : Str) : Except ObsidianError α :=
  match c.paramsData key with
  | none => .error .noneError
  | some v =>
    match parse v with
    | some a => .ok a
    | none => .error (.paramError ("Failed to parse param ".toList ++ key))

/-- context.rs:260-262 `Context::take_body`: the body, and the context with an empty one. -/
def takeBody (c : Context U) : Body × Context U :=
  (c.request.body, { c with request := { c.request with body := Body.empty } })

/-- context.rs:139-147 `Context::query_params`; `parseQueries` is context.rs:292-316 at the type that
is asked for. -/
def queryParams (c : Context U) (parseQueries : Bytes → Except Crash (Except ObsidianError α)) :
    Except Crash (Except ObsidianError α) :=
  parseQueries (utf8 (match c.request.query with | some q => q | none => []))

/-- context.rs:176-187 `Context::form`: the result and the context afterwards. -/
def form (c : Context U) (parseQueries : Bytes → Except Crash (Except ObsidianError α)) :
    Except Crash (Except ObsidianError α × Context U) :=
  let (body, c') := c.takeBody
  match body.aggregateChunk with
  | none => .ok (.error .noneError, c')
  | some chunk =>
    match parseQueries chunk with
    | .ok r => .ok (r, c')
    | .error e => .error e

/-- context.rs:190-192 `Context::form_with_param`. -/
def formWithParam (_ : Context U) : Except Crash (Except ObsidianError α × Context U) :=
  .error .unimplemented

/-- context.rs:241-252 `Context::json`; `fromSlice` is `serde_json::from_slice::<T>`, an error being
given by its text. -/
def json (c : Context U) (fromSlice : Bytes → Except Str α) :
    Except ObsidianError α × Context U :=
  let (body, c') := c.takeBody
  match body.aggregateChunk with
  | none => (.error .noneError, c')
  | some chunk =>
    match fromSlice chunk with
    | .ok a => (.ok a, c')
    | .error e => (.error (.jsonError e), c')

/-- context.rs:255-257 `Context::json_with_param`. -/
def jsonWithParam (_ : Context U) : Except Crash (Except ObsidianError α × Context U) :=
  .error .unimplemented

/-- context.rs:265-267 `Context::take_response`. -/
def takeResponse (c : Context U) : Option Response := c.response

end Context

/-- context.rs:319-322 `struct ResponseBuilder`. -/
structure ResponseBuilder (U : Univ) where
  ctx : Context U
  response : Response

namespace Context
variable {U : Univ}

/-- context.rs:278-280 `Context::build`. -/
def build (c : Context U) (res : Responder) : ResponseBuilder U := ⟨c, res.respondTo⟩

/-- context.rs:283-285 `Context::build_json`; the argument is `serde_json::to_string(&body)`. -/
def buildJson (c : Context U) (encoded : Except Str Str) : ResponseBuilder U :=
  ⟨c, Response.ok.json encoded⟩

end Context

namespace ResponseBuilder
variable {U : Univ}

/-- context.rs:330-333 `with_status`. -/
def withStatus (b : ResponseBuilder U) (s : Status) : ResponseBuilder U :=
  { b with response := b.response.setStatus s }

/-- context.rs:336-339 `with_header`. -/
def withHeader (b : ResponseBuilder U) (k : HeaderName) (v : Str) : ResponseBuilder U :=
  { b with response := b.response.setHeader k v }

/-- context.rs:342-345 `with_header_str`. -/
def withHeaderStr (parse : ParseName) (b : ResponseBuilder U) (k v : Str) :
    Except Crash (ResponseBuilder U) :=
  match b.response.setHeaderStr parse k v with
  | .ok r => .ok { b with response := r }
  | .error e => .error e

/-- context.rs:347-350 `with_headers`. -/
def withHeaders (b : ResponseBuilder U) (hs : List (HeaderName × Str)) : ResponseBuilder U :=
  { b with response := b.response.setHeaders hs }

/-- context.rs:352-355 `with_headers_str`. -/
def withHeadersStr (parse : ParseName) (b : ResponseBuilder U) (hs : List (Str × Str)) :
    Except Crash (ResponseBuilder U) :=
  match b.response.setHeadersStr parse hs with
  | .ok r => .ok { b with response := r }
  | .error e => .error e

/-- context.rs:357-360 `ok`: the result of the handler. -/
def ok (b : ResponseBuilder U) : Except ObsidianError (Context U) :=
  .ok { b.ctx with response := some b.response }

end ResponseBuilder
end Obsidian
