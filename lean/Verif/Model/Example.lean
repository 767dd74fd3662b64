import Verif.Model.Static
import Verif.Model.UrlEncoded
import Verif.Model.Form

/-
The application of examples/main.rs, with the middleware of examples/middleware/logger_example.rs.

Left out: colours of what is printed, and `dbg!` (main.rs:209).  The text of `{:?}` for a struct is a
parameter.  Requests have no host in the URI.
-/
namespace Obsidian
variable {U : Univ} {σ : Type}

/-- What the example takes from elsewhere. -/
structure ExampleEnv (U : Univ) (σ : Type) where
  /-- `HeaderName::from_bytes` -/
  parse : ParseName
  /-- the file system -/
  fs : ReadFile σ
  /-- decoding of bytes that are not UTF-8, in queries -/
  repair : Bytes → Str
  /-- the orders of the two maps of `parse_queries` -/
  i1 : Iter
  i2 : Iter
  /-- logger_example.rs:11 the type `LoggerExampleData` -/
  dataTy : U.Ty
  /-- logger_example.rs:37 its value `LoggerExampleData("This is logger data".to_string())` -/
  data : U.Val dataTy
  /-- main.rs:109 the text of `{:?}` for the fields `id` and `status` -/
  shown : Str → Str → Str

/-- `HeaderMap::get` for a request: the first value of the name. -/
def firstHeader (hs : List (HeaderName × Str)) (k : HeaderName) : Option Str := hs.lookup k

/-- logger_example.rs:22-40 `LoggerExample::handle`; a value is text (`to_str`) if it is visible ASCII. -/
def loggerExample (env : ExampleEnv U σ) : Middleware U σ := fun context next =>
  .print .debug <|
  match firstHeader context.request.headers "host".toList with
  | none => .panic (.user "called `Option::unwrap()` on a `None` value".toList)
  | some host =>
    if validHeaderValue host then
      .print (.text (methodText context.request.method ++ ' ' :: host ++ uriText context.request)) <|
      next (context.add env.dataTy env.data)
    else .panic (.user "called `Result::unwrap()` on an `Err` value".toList)

/-- main.rs:77-316: the handlers of the example, in order of registration. -/
inductive ExampleHandler where
  | root | json | user | patchHere | jsonWithHeaders | stringWithHeaders | emptyBody | vec | string
  | testRadix | teamRadix | testRadix2 | jsonTest | jsan | testWildcard
  | routerGet | routerPost | routerPut | routerDelete | diffRoute
  | adminTest | adminTest2 | formTest | nextWild | paramsWild | files
deriving DecidableEq

/-- main.rs:121-125, 142-146 `custom_headers`. -/
def customHeaders : List (Str × Str) :=
  [("X-Custom-Header-1".toList, "Custom header 1".toList), ("X-Custom-Header-2".toList, "Custom header 2".toList),
   ("X-Custom-Header-3".toList, "Custom header 3".toList)]

/-- main.rs:127-130, 148-151 `standard_headers`. -/
def standardHeaders : List (HeaderName × Str) :=
  [("authorization".toList, "token".toList), ("accept-charset".toList, "utf-8".toList)]

/-- `serde_json::to_string(&Point { x: 1, y: 2 })` (main.rs:82, 119). -/
def pointJson : Except Str Str := .ok "{\"x\":1,\"y\":2}".toList

/-- main.rs:78 the page at `/`. -/
def rootPage : Str := "<!DOCTYPE html><html><head><link rel=\"shotcut icon\" href=\"favicon.ico\" type=\"image/x-icon\" sizes=\"32x32\" /></head> <h1>Hello Obsidian</h1></html>".toList

/-- main.rs:92-96 `struct QueryString`. -/
def queryString : Shape :=
  .struct [⟨"id".toList, [], .scalar .string, none⟩, ⟨"status".toList, [], .scalar .string, none⟩] none

/-- `format!("{}<br>{}", title, ctx.uri().path())` (main.rs:194-198, 211-215, 220-224, 229-233, 238-242, 248-252). -/
def withPath (title : String) (c : Context U) : Str := title.toList ++ "<br>".toList ++ c.request.path

/-- main.rs:77-316: what the handlers do. -/
def ExampleHandler.run (env : ExampleEnv U σ) : ExampleHandler → Handler U σ
  | .root => fun c => .ret (c.build (.response (Response.ok.html (Body.ofStr rootPage)))).ok
  | .json => fun c =>
    .ofPure ((((c.buildJson pointJson).withStatus 200).withHeader "authorization".toList "token".toList).withHeaderStr
      env.parse "X-Custom-Header".toList "Custom header value".toList |>.map ResponseBuilder.ok)
  | .user => fun c =>
    match c.queryParams (parseQueries (urlParse env.repair) env.i1 env.i2 queryString) with
    | .error e => .panic e
    | .ok (.error e) =>
      .print (.text ("error: ".toList ++ e.text)) <|
      .print (.text ("params: ".toList ++ env.shown [] [])) <| .ret (c.build (.str [])).ok
    | .ok (.ok (.struct [.str id, .str status])) =>
      .print (.text ("params: ".toList ++ env.shown id status)) <| .ret (c.build (.str [])).ok
    | .ok (.ok _) => .ret (c.build (.str [])).ok
  | .patchHere => fun c => .ret (c.build (.str "Here is patch request".toList)).ok
  | .jsonWithHeaders => fun c =>
    match (Response.created.setHeaders standardHeaders).setHeadersStr env.parse customHeaders with
    | .error e => .panic e
    | .ok r => .ret (c.build (.response (r.json pointJson))).ok
  | .stringWithHeaders => fun c =>
    .ofPure (((c.build (.str "Hello World".toList)).withHeaders standardHeaders).withHeadersStr env.parse customHeaders
      |>.map ResponseBuilder.ok)
  | .emptyBody => fun c => .ret (c.build (.status 200)).ok
  | .vec => fun c => .ret ((c.build (.bytes [1, 2, 3])).withStatus 201).ok
  | .string => fun c => .ret (c.build (.str "<h1>This is a String</h1>".toList)).ok
  | .testRadix => fun c => .ret (c.build (.str "<h1>Test radix</h1>".toList)).ok
  | .teamRadix => fun c => .ret (c.build (.str "Team radix".toList)).ok
  | .testRadix2 => fun c => .ret (c.build (.str "<h1>Test radix2</h1>".toList)).ok
  | .jsonTest => fun c => (c.buildFileAct env.fs "./testjson.html".toList).bind fun b => .ret b.ok
  | .jsan => fun c => .ret (c.build (.str "<h1>jsan</h1>".toList)).ok
  | .testWildcard => fun c => .ret (c.build (.str (withPath "<h1>Test wildcard</h1>" c))).ok
  | .routerGet => fun c =>
    match c.get env.dataTy with
    | none => .ret (.error .noneError)
    | some _ => .ret (c.build (.option (some (withPath "<h1>router test get</h1>" c)))).ok
  | .routerPost => fun c => .ret (c.build (.str (withPath "<h1>router test post</h1>" c))).ok
  | .routerPut => fun c => .ret (c.build (.str (withPath "<h1>router test put</h1>" c))).ok
  | .routerDelete => fun c => .ret (c.build (.str (withPath "<h1>router test delete</h1>" c))).ok
  | .diffRoute => fun c => .ret (c.build (.str (withPath "<h1>route diff get</h1>" c))).ok
  | .adminTest => fun c => .ret (c.build (.str "Hello admin test".toList)).ok
  | .adminTest2 => fun c => .ret (c.build (.str "Hello admin test 2".toList)).ok
  | .formTest => fun c => (c.buildFileAct env.fs "/.test.html".toList).bind fun b => .ret b.ok
  | .nextWild => fun c => .ret (c.build (.str "<h1>test next wild</h1>".toList)).ok
  | .paramsWild => fun c =>
    .ret (c.build (.response ((Content.str "<h1>404 Not Found</h1>".toList).withStatus 404))).ok
  | .files => staticVirtualFileHandler env.fs "/files/".toList "/assets/".toList

/-- main.rs:75-316: the registrations, for given middleware and handlers. -/
def exampleCalls {M H : Type} (mw : M) (h : ExampleHandler → H) : List (Reg M H) :=
  [.get "/".toList (h .root), .get "/json".toList (h .json), .get "/user".toList (h .user),
   .patch "/patch-here".toList (h .patchHere), .get "/json-with-headers".toList (h .jsonWithHeaders),
   .get "/string-with-headers".toList (h .stringWithHeaders), .get "/empty-body".toList (h .emptyBody),
   .get "/vec".toList (h .vec), .get "/String".toList (h .string), .get "/test/radix".toList (h .testRadix),
   .get "/team/radix".toList (h .teamRadix), .get "/test/radix2".toList (h .testRadix2),
   .get "/jsontest".toList (h .jsonTest), .get "/jsan".toList (h .jsan),
   .get "/test/wildcard/*".toList (h .testWildcard),
   .get "router/test".toList (h .routerGet), .post "router/test".toList (h .routerPost),
   .put "router/test".toList (h .routerPut), .delete "router/test".toList (h .routerDelete),
   .get "route/diff_route".toList (h .diffRoute),
   .scope "admin".toList [.get "test".toList (h .adminTest), .get "test2".toList (h .adminTest2)],
   .scope "form".toList [.get "/formtest".toList (h .formTest)],
   .useService mw,
   .scope "params".toList [.get "/test-next-wild/*".toList (h .nextWild), .get "/*".toList (h .paramsWild)],
   .get ("/files/".toList ++ "/*".toList) (h .files)]

/-- main.rs:75-316: the registrations of the example. -/
def exampleProg (env : ExampleEnv U σ) : List (Reg (Middleware U σ) (Handler U σ)) :=
  exampleCalls (loggerExample env) (ExampleHandler.run env)

end Obsidian
