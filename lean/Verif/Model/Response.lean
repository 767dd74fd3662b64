import Verif.Model.Http

/-
src/router/response.rs, src/router/response_body.rs and src/router/responder.rs.

`serde_json::to_string` on user types and `HeaderName::from_bytes` are parameters.
-/
namespace Obsidian

/-- `HeaderName::from_bytes(s.as_bytes())`: the canonical name, or `none` if it is not a valid one. -/
abbrev ParseName := Str → Option HeaderName

/-- response.rs:9-13 `struct Response`. -/
structure Response where
  body : Body
  status : Status
  headers : Option (List (HeaderName × Str))
deriving DecidableEq

namespace Response

/-- response.rs:16-22 `Response::new` (the argument is `body.into_body()`). -/
def new (body : Body) : Response := ⟨body, 200, none⟩

/-- response.rs:48-51 `set_status`, and its alias `with_status` (44-46). -/
def setStatus (r : Response) (s : Status) : Response := { r with status := s }

/-- response.rs:53-56 `set_body` (the argument is `body.into_body()`). -/
def setBody (r : Response) (b : Body) : Response := { r with body := b }

/-- response.rs:58-64 `set_header`, and its alias `with_header` (67-69). -/
def setHeader (r : Response) (key : HeaderName) (value : Str) : Response :=
  match r.headers with
  | some x => { r with headers := some (x ++ [(key, value)]) }
  | none => { r with headers := some [(key, value)] }

/-- response.rs:71-76 `set_header_str`, and its alias `with_header_str` (79-81); panics on an invalid
header name. -/
def setHeaderStr (parse : ParseName) (r : Response) (key value : Str) : Except Crash Response :=
  match parse key with
  | some k => .ok (r.setHeader k value)
  | none => .error (.headerName key)

/-- response.rs:83-85 `set_content_type`. -/
def setContentType (r : Response) (ct : Str) : Response := r.setHeader contentType ct

/-- response.rs:87-93 `set_headers`, and its alias `with_headers` (96-98). -/
def setHeaders (r : Response) (hs : List (HeaderName × Str)) : Response :=
  match r.headers with
  | some x => { r with headers := some (x ++ hs) }
  | none => { r with headers := some hs }

/-- response.rs:101-104: the conversion of the names, left to right; panics on an invalid one. -/
def parseNames (parse : ParseName) : List (Str × Str) → Except Crash (List (HeaderName × Str))
  | [] => .ok []
  | (k, v) :: hs =>
    match parse k with
    | some k' =>
      match parseNames parse hs with
      | .ok r => .ok ((k', v) :: r)
      | .error e => .error e
    | none => .error (.headerName k)

/-- response.rs:100-111 `set_headers_str`, and its alias `with_headers_str` (114-116). -/
def setHeadersStr (parse : ParseName) (r : Response) (hs : List (Str × Str)) : Except Crash Response :=
  match parseNames parse hs with
  | .ok values => .ok (r.setHeaders values)
  | .error e => .error e

/-- response.rs:118-120 `html`. -/
def html (r : Response) (b : Body) : Response := (r.setContentType "text/html".toList).setBody b

/-- response.rs:122-130 `json`; the argument is the result of `serde_json::to_string(&body)`, the
error being given by its text. -/
def json (r : Response) (encoded : Except Str Str) : Response :=
  match encoded with
  | .ok val => (r.setContentType "application/json".toList).setBody (Body.ofStr val)
  | .error err =>
    ((r.setContentType "application/json".toList).setBody (Body.ofStr err)).setStatus 500

/-- response.rs:132-141 `file`; the argument is the result of `fs::read_to_string(path)`, the error
being given by its text. -/
def file (r : Response) (content : Except Str Str) : Response :=
  match content with
  | .ok content => r.setBody (Body.ofStr content)
  | .error err => (r.setBody (Body.ofStr err)).setStatus 404

/-- response.rs:144-146 `ok`. -/
def ok : Response := (new Body.empty).setStatus 200
/-- response.rs:148-150 `created`. -/
def created : Response := (new Body.empty).setStatus 201
/-- response.rs:152-154 `internal_server_error`. -/
def internalServerError : Response := (new Body.empty).setStatus 500

end Response

/-! ### response_body.rs -/

/-- Decimal digits of a byte, as `serde_json` prints it. -/
def byteText (b : UInt8) : Str := (Nat.repr b.toNat).toList

/-- `serde_json::to_string(&Vec<u8>)`: never fails. -/
def bytesJson (v : Bytes) : Str :=
  '[' :: (match v with
    | [] => []
    | b :: bs => byteText b ++ bs.flatMap (fun c => ',' :: byteText c)) ++ [']']

/-- The values for which response_body.rs:7-35 implements `ResponseBody`. -/
inductive Content where
  /-- response_body.rs:7-11 -/
  | unit
  /-- response_body.rs:13-23, `&'static str` and `String` -/
  | str (s : Str)
  /-- response_body.rs:25-35 -/
  | bytes (v : Bytes)

/-- response_body.rs:3-35 `ResponseBody::into_body`. -/
def Content.intoBody : Content → Body
  | .unit => Body.empty
  | .str s => Body.ofStr s
  | .bytes v => Body.ofStr (bytesJson v)

/-! ### responder.rs -/

/-- The values for which responder.rs implements `Responder`. -/
inductive Responder where
  /-- responder.rs:36-40 -/
  | response (r : Response)
  /-- responder.rs:42-52, `String` and `&'static str` -/
  | str (s : Str)
  /-- responder.rs:54-58 -/
  | unit
  /-- responder.rs:60-68; the content has to be one of the `ResponseBody` types -/
  | withStatus (s : Status) (c : Content)
  /-- responder.rs:70-83 -/
  | bytes (v : Bytes)
  /-- responder.rs:85-89 -/
  | status (s : Status)
  /-- responder.rs:91-113, `Option<String>` and `Option<&'static str>` -/
  | option (o : Option Str)

/-- responder.rs:7-12 `Responder::with_status` (for values that are also bodies). -/
def Content.withStatus (c : Content) (s : Status) : Response := (Response.new c.intoBody).setStatus s

/-- responder.rs:14-19 `Responder::with_header`. -/
def Content.withHeader (c : Content) (k : HeaderName) (v : Str) : Response :=
  (Response.new c.intoBody).setHeader k v

/-- responder.rs:21-26 `Responder::with_headers`. -/
def Content.withHeaders (c : Content) (hs : List (HeaderName × Str)) : Response :=
  (Response.new c.intoBody).setHeaders hs

/-- responder.rs:28-33 `Responder::with_headers_str`. -/
def Content.withHeadersStr (parse : ParseName) (c : Content) (hs : List (Str × Str)) :
    Except Crash Response := (Response.new c.intoBody).setHeadersStr parse hs

/-- responder.rs:42-46 `String::respond_to`. -/
def respondStr (s : Str) : Response :=
  (Response.new (Body.ofStr s)).setContentType "text/plain; charset=utf-8".toList

/-- responder.rs:36-113 `Responder::respond_to`. -/
def Responder.respondTo : Responder → Response
  | .response r => r
  | .str s => respondStr s
  | .unit => Response.new Body.empty
  | .withStatus s c => (Response.new c.intoBody).setStatus s
  | .bytes v => (Content.str (bytesJson v)).withStatus 200
  | .status s => Content.unit.withStatus s
  | .option (some s) => respondStr s
  | .option none => (Content.str "Not Found".toList).withStatus 404

end Obsidian
