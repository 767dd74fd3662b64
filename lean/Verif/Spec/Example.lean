import Verif.Spec.Log

/-
What the example application of the library (examples/main.rs) is expected to answer.
-/
namespace Obsidian.Spec
open Obsidian
variable {U : Univ} {σ : Type}

/-- A page of the example. -/
structure Row where
  method : Method := .get
  path : String
  status : Status := 200
  headers : List (String × String) := [("content-type", "text/plain; charset=utf-8")]
  body : String
  /-- the path of the request comes after the text -/
  echo : Bool := false

/-- The text of the page for a request. -/
def Row.text (r : Row) (path : Str) : Str := r.body.toList ++ if r.echo then "<br>".toList ++ path else []

/-- The headers that `/json-with-headers` and `/string-with-headers` set. -/
def manyHeaders : List (String × String) :=
  [("authorization", "token"), ("accept-charset", "utf-8"), ("x-custom-header-1", "Custom header 1"),
   ("x-custom-header-2", "Custom header 2"), ("x-custom-header-3", "Custom header 3")]

/-- The pages of the example that do not depend on files or on the query. -/
def exampleRows : List Row :=
  [{ path := "/", headers := [("content-type", "text/html")],
     body := "<!DOCTYPE html><html><head><link rel=\"shotcut icon\" href=\"favicon.ico\" type=\"image/x-icon\" sizes=\"32x32\" /></head> <h1>Hello Obsidian</h1></html>" },
   { path := "/json", body := "{\"x\":1,\"y\":2}",
     headers := [("content-type", "application/json"), ("authorization", "token"), ("x-custom-header", "Custom header value")] },
   { method := .patch, path := "/patch-here", body := "Here is patch request" },
   { path := "/json-with-headers", status := 201, body := "{\"x\":1,\"y\":2}",
     headers := manyHeaders ++ [("content-type", "application/json")] },
   { path := "/string-with-headers", body := "Hello World",
     headers := ("content-type", "text/plain; charset=utf-8") :: manyHeaders },
   { path := "/empty-body", headers := [], body := "" },
   { path := "/vec", status := 201, headers := [], body := "[1,2,3]" },
   { path := "/String", body := "<h1>This is a String</h1>" },
   { path := "/test/radix", body := "<h1>Test radix</h1>" },
   { path := "/team/radix", body := "Team radix" },
   { path := "/test/radix2", body := "<h1>Test radix2</h1>" },
   { path := "/jsan", body := "<h1>jsan</h1>" },
   { path := "/router/test", body := "<h1>router test get</h1>", echo := true },
   { method := .post, path := "/router/test", body := "<h1>router test post</h1>", echo := true },
   { method := .put, path := "/router/test", body := "<h1>router test put</h1>", echo := true },
   { method := .delete, path := "/router/test", body := "<h1>router test delete</h1>", echo := true },
   { path := "/route/diff_route", body := "<h1>route diff get</h1>", echo := true },
   { path := "/admin/test", body := "Hello admin test" },
   { path := "/admin/test2", body := "Hello admin test 2" }]

/-- The pages for everything below a path. -/
def wildRow : Row := { path := "/test/wildcard", body := "<h1>Test wildcard</h1>", echo := true }
def nextWildRow : Row := { path := "/params/test-next-wild", body := "<h1>test next wild</h1>" }
def notFoundRow : Row := { path := "/params", status := 404, headers := [], body := "<h1>404 Not Found</h1>" }

/-- The header names of the example are valid, and sent in lower case. -/
def LowerNames (parse : ParseName) : Prop :=
  ∀ n ∈ ["X-Custom-Header", "X-Custom-Header-1", "X-Custom-Header-2", "X-Custom-Header-3"],
    parse n.toList = some n.toLower.toList

/-- What is sent is the page. -/
def Row.IsSent (r : Row) (path : Str) (sent : Sent) : Prop :=
  sent.status = r.status ∧ sent.body.bytes = utf8 (r.text path) ∧ sent.body.fails = false ∧
  ∀ k : HeaderName, sent.headers.get k = (r.headers.map fun h => (h.1.toList, h.2.toList)).lookup k

/-- The line about a request: method, host and target. -/
def requestLine (req : Request U) (host : Str) : Str :=
  (methodName req.method).toList ++ ' ' :: host ++ target req

/-- The first `host` header of the request. -/
def hostOf (req : Request U) : Option Str := req.headers.lookup "host".toList

/-- The request is answered with the page, and only the line about it is printed. -/
def Row.Answers (r : Row) (req : Request U) (host : Str) (act : Act σ Sent) : Prop :=
  ∀ w, ∃ sent, act.run w = ⟨.ok sent, w, [.debug, .text (requestLine req host)]⟩ ∧ r.IsSent req.path sent

/-- The pages at single paths. -/
def pageList : List (Method × String) :=
  exampleRows.map (fun r => (r.method, r.path)) ++ [(.get, "/user"), (.get, "/jsontest"), (.get, "/form/formtest")]

/-- The paths below which there are pages. -/
def pageDirs : List String := ["/test/wildcard", "/params", "/files"]

/-- The example has a page for the request. -/
def HasPage (req : Request U) : Prop :=
  (∃ p ∈ pageList, req.method = p.1 ∧ segments req.path = segments p.2.toList) ∨
  (req.method = .get ∧ ∃ d ∈ pageDirs, segments d.toList <+: segments req.path)

/-- The example has a page for the request, if slashes are not looked at. -/
def HasPageLoosely (req : Request U) : Prop :=
  (∃ p ∈ pageList, req.method = p.1 ∧ flat (segments req.path) = flat (segments p.2.toList)) ∨
  (req.method = .get ∧ ∃ d ∈ pageDirs, flat (segments d.toList) <+: flat (segments req.path))

/-- The request is answered, after the line about it. -/
def Answered (req : Request U) (host : Str) (act : Act σ Sent) : Prop :=
  ∀ w, ∃ sent lines, act.run w = ⟨.ok sent, w, .debug :: .text (requestLine req host) :: lines⟩

/-- Nothing is answered: the task panics. -/
def PanicsFirst (act : Act σ Sent) : Prop := ∀ w, ∃ msg, act.run w = ⟨.error (.user msg), w, [.debug]⟩

end Obsidian.Spec
