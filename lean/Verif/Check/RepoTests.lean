import Verif.Props.AppCommon
import Verif.Props.Form
import Verif.Props.UrlEncoded
import Verif.Props.Static

/-
The unit tests of the repository, and the routes of its example, run on the model.  These are tests of
the model, not proofs: they show that it does on these inputs what the repository's own tests say the
code does.
-/
namespace Obsidian.Check
open Obsidian Spec Props

/-- The number of middlewares that are found, if anything is. -/
def found (p : Prog) (path : String) : Option Nat := (chainFor (build p).1 (s path)).map List.length

/-- The handlers for GET, POST, PUT and DELETE. -/
def handlers (p : Prog) (path : String) : List (Option Nat) :=
  [.get, .post, .put, .delete].map fun m => handlerFor (build p).1 m (s path)

/-! ### src/router/route_trie.rs -/

/-- route_trie.rs:622-644 `radix_trie_head_test`. -/
def head : Prog := [.useService 0, .get (s "/") 1]

example : found head "/" = some 1 ∧ handlers head "/" = [some 1, none, none, none] := by decide +kernel

/-- route_trie.rs:646-686 `radix_trie_normal_test`. -/
def normal : Prog :=
  [.useService 0, .get (s "/normal/test/") 1, .get (s "/ノーマル/テスト/") 2,
   .useServiceTo (s "/ノーマル/テスト/") 3]

example : (build normal).2 = none ∧
    found normal "/normal/test/" = some 1 ∧ handlers normal "/normal/test/" = [some 1, none, none, none] ∧
    found normal "/ノーマル/テスト/" = some 2 ∧ handlers normal "/ノーマル/テスト/" = [some 2, none, none, none] := by
  decide +kernel

/-- route_trie.rs:688-699 `radix_trie_not_found_test`. -/
example : found [.useService 0, .get (s "/normal/test/") 1] "/fail/test/" = none := by decide +kernel

/-- route_trie.rs:701-739 `radix_trie_split_node_and_key_test`. -/
def split : Prog :=
  [.useService 0, .get (s "/normal/test/") 1, .get (s "/noral/test/") 2, .get (s "/ノーマル/テスト/") 3,
   .get (s "/ノーマル/テーブル/") 4, .useServiceTo (s "/noral/test/") 5, .useServiceTo (s "/ノーマル/テーブル/") 6]

example : (build split).2 = none ∧
    ["/normal/test/", "/noral/test/", "/ノーマル/テスト/", "/ノーマル/テーブル/"].map (found split) =
      [some 1, some 2, some 1, some 2] ∧
    ["/normal/test/", "/noral/test/", "/ノーマル/テスト/", "/ノーマル/テーブル/"].map
      (fun p => handlerFor (build split).1 .get (s p)) = [some 1, some 2, some 3, some 4] := by decide +kernel

/-- route_trie.rs:741-776 `radix_trie_wildcard_test`. -/
def wildcard : Prog :=
  [.get (s "/normal/test/*") 1, .useServiceTo (s "/normal/test/*") 2, .useServiceTo (s "/normal/test/*") 3,
   .useServiceTo (s "/normal/test/*") 4]

example : (build wildcard).2 = none ∧
    ["/normal/test/test", "/normal/test/123", "/normal/test/こんにちは", "/normal/test/啊"].map
      (fun p => (found wildcard p, handlerFor (build wildcard).1 .get (s p))) =
      List.replicate 4 (some 3, some 1) := by decide +kernel

/-- route_trie.rs:778-785 `radix_trie_wildcard_param_conflict_test`, 787-794
`radix_trie_param_wildcard_conflict_test`. -/
example : (build ([.get (s "/normal/test/*") 1, .get (s "/normal/test/:param") 2] : Prog)).2 ≠ none ∧
    (build ([.get (s "/normal/test/:param") 1, .get (s "/normal/test/*") 2] : Prog)).2 ≠ none := by
  decide +kernel

/-! ### src/router.rs -/

/-- router.rs:171-265 `router_get_test`, `router_post_test`, `router_put_test`, `router_delete_test`. -/
def one (c : Reg Nat Nat) : Option Nat × List (Option Nat) × Option Nat :=
  (found [c] "router/test", handlers [c] "router/test", found [c] "failed")

example : one (.get (s "router/test") 1) = (some 0, [some 1, none, none, none], none) ∧
    one (.post (s "router/test") 1) = (some 0, [none, some 1, none, none], none) ∧
    one (.put (s "router/test") 1) = (some 0, [none, none, some 1, none], none) ∧
    one (.delete (s "router/test") 1) = (some 0, [none, none, none, some 1], none) := by decide +kernel

/-- router.rs:267-288 `router_root_middleware_test`. -/
example : found [.useService 0] "/" = some 1 ∧ found [.useService 0] "failed" = none := by decide +kernel

/-- router.rs:290-311 `router_relative_middleware_test`. -/
example : found [.useServiceTo (s "middleware/child") 0] "/middleware/child" = some 1 ∧
    found [.useServiceTo (s "middleware/child") 0] "/" = none := by decide +kernel

/-- router.rs:313-368 `router_search_test`. -/
def search : Prog :=
  [.get (s "router/test") 1, .post (s "router/test") 2, .put (s "router/test") 3, .delete (s "router/test") 4,
   .get (s "route/diff_route") 5]

example : found search "router/test" = some 0 ∧
    handlers search "router/test" = [some 1, some 2, some 3, some 4] ∧
    found search "route/diff_route" = some 0 ∧
    handlers search "route/diff_route" = [some 5, none, none, none] ∧ found search "failed" = none := by
  decide +kernel

/-- router.rs:370-413 `router_merge_test`. -/
def merge : Prog :=
  [.get (s "router/test") 1, .useRouter (s "sub_router") [.get (s "router/test") 2, .useService 0]]

example : (build merge).2 = none ∧
    found merge "router/test" = some 0 ∧ handlers merge "router/test" = [some 1, none, none, none] ∧
    found merge "sub_router/router/test" = some 1 ∧
    handlers merge "sub_router/router/test" = [some 2, none, none, none] ∧ found merge "failed" = none := by
  decide +kernel

/-- router.rs:415-447 `router_duplicate_path_test`, `router_ambiguous_path_test`,
`router_duplicate_merge_test`. -/
example : (build ([.get (s "router/test") 1, .get (s "router/test") 2] : Prog)).2 ≠ none ∧
    (build ([.get (s "router/:test") 1, .get (s "router/test") 2] : Prog)).2 ≠ none ∧
    (build ([.get (s "sub_router/test") 1,
      .useRouter (s "sub_router") [.get (s "test") 2, .useService 0]] : Prog)).2 ≠ none := by decide +kernel

/-! ### src/context.rs -/

/-- A request with a body. -/
def request (query : Option String) (body : String) : Request demoU :=
  ⟨.get, s "/test/test", query.map s, [], Extensions.empty, Body.ofStr (s body)⟩

/-- `T::from_str` for `i32` and for `String`. -/
def parseI32 (x : Str) : Option Int := match parseInt true 32 x with | .ok i => some i | .error _ => none
def parseString (x : Str) : Option Str := some x

/-- The parameters of the tests. -/
def both : HMap Str Str := (HMap.empty.insert (s "id") (s "1")).insert (s "mode") (s "edit")

/-- The value, if there is one. -/
def value {α : Type} : Except ObsidianError α → Option α
  | .ok a => some a
  | .error _ => none

/-- context.rs:399-417 `test_params`. -/
example : value ((Context.new (request none "") both).param parseI32 (s "id")) = some 1 ∧
    value ((Context.new (request none "") both).param parseString (s "mode")) = some (s "edit") := by
  decide +kernel

/-- context.rs:419-432 `test_params_without_value`. -/
example : value ((Context.new (request none "") (HMap.empty.insert (s "mode") (s "edit"))).param parseString
      (s "mode")) = some (s "edit") ∧
    value ((Context.new (request none "") (HMap.empty.insert (s "mode") (s "edit"))).param parseI32
      (s "id")) = none := by decide +kernel

/-- context.rs:371-383 `FormResult` and `FormExtraResult`. -/
def formResult : Shape := .struct [⟨s "id", [], i32, none⟩, ⟨s "mode", [], string, none⟩] none
def formExtraResult : Shape :=
  .struct [⟨s "id", [], i32, none⟩, ⟨s "mode", [], string, none⟩, ⟨s "extra", [], i32, some (.int 0)⟩] none

/-- Reading a form or query into a struct, the maps being iterated in the two orders. -/
def parser (i : Iter) (shape : Shape) : Bytes → Except Crash (Except ObsidianError Decoded) :=
  parseQueries (urlParse fun _ => []) i i shape

/-- The values of the fields. -/
def fieldsOf : Decoded → Option (List Val)
  | .struct vs => some vs
  | _ => none

/-- The values that `query_params` and `form` give. -/
def queried (i : Iter) (shape : Shape) (q : String) : Option (List Val) :=
  match (Context.new (request (some q) "") HMap.empty).queryParams (parser i shape) with
  | .ok (.ok d) => fieldsOf d
  | _ => none
def posted (i : Iter) (shape : Shape) (b : String) : Option (List Val) :=
  match (Context.new (request none b) HMap.empty).form (parser i shape) with
  | .ok (.ok d, _) => fieldsOf d
  | _ => none

/-- context.rs:434-451 `test_string_query`. -/
example : ∀ i ∈ [forwards, backwards],
    queried i formResult "id=1&mode=edit" = some [.int 1, .str (s "edit")] := by
  simp only [List.mem_cons, List.not_mem_nil, or_false, forall_eq_or_imp, forall_eq]; decide +kernel

/-- context.rs:453-470 `test_form`, 472-489 `test_form_with_extra_body`, 491-509
`test_form_with_extra_field`. -/
example : ∀ i ∈ [forwards, backwards],
    posted i formResult "id=1&mode=edit" = some [.int 1, .str (s "edit")] ∧
    posted i formResult "id=1&mode=edit&extra=true" = some [.int 1, .str (s "edit")] ∧
    posted i formExtraResult "id=1&mode=edit" = some [.int 1, .str (s "edit"), .int 0] := by
  simp only [List.mem_cons, List.not_mem_nil, or_false, forall_eq_or_imp, forall_eq]; decide +kernel

/-! ### src/router/req_deserializer.rs -/

/-- The three structs of the tests (req_deserializer.rs:441-457). -/
def vecAndSingle : Shape := .struct [⟨s "field1", [], .seq string, none⟩, ⟨s "field2", [], i32, none⟩] none
def vec : Shape := .struct [⟨s "field1", [], .seq i32, none⟩] none
def vecWithDefault : Shape :=
  .struct [⟨s "field1", [], .seq i32, none⟩, ⟨s "field2", [], i32, some (.int 0)⟩] none

/-- req_deserializer.rs:459-599. -/
example : ∀ i ∈ [forwards, backwards],
    posted i vecAndSingle "field1=abc&field1=xyz&field2=12" =
      some [.list [.str (s "abc"), .str (s "xyz")], .int 12] ∧
    posted i vec "field1=1&field1=2" = some [.list [.int 1, .int 2]] ∧
    posted i vec "field1=1&field1=2&field2=12" = some [.list [.int 1, .int 2]] ∧
    posted i vecWithDefault "field1=1&field1=2" = some [.list [.int 1, .int 2], .int 0] := by
  simp only [List.mem_cons, List.not_mem_nil, or_false, forall_eq_or_imp, forall_eq]; decide +kernel

/-- req_deserializer.rs:601-646 `test_deserialize_to_map_type`. -/
def mapped (i : Iter) (b : String) (k : String) : Option Val :=
  match (Context.new (request none b) HMap.empty).form (parser i (.map (.seq i32))) with
  | .ok (.ok (.map m), _) => m.get (s k)
  | _ => none

example : ∀ i ∈ [forwards, backwards],
    ["field1", "field2", "field3"].map (mapped i "field1=1&field1=2&field2=3") =
      [some (.list [.int 1, .int 2]), some (.list [.int 3]), none] := by
  simp only [List.mem_cons, List.not_mem_nil, or_false, forall_eq_or_imp, forall_eq]; decide +kernel

/-! ### src/router/responder.rs and src/router/response.rs -/

/-- responder.rs:120-132 and 164-181, response.rs:163-178. -/
example : (Responder.str (s "Hello World")).respondTo.status = 200 ∧
    (Responder.response ((Content.str (s "Test")).withStatus 201)).respondTo.status = 201 ∧
    (Responder.response ((Content.str (s "Test")).withHeader contentType (s "application/json"))).respondTo.status = 200 ∧
    (Responder.response ((Content.str (s "Test")).withHeader contentType (s "application/json"))).respondTo.headers =
      some [(contentType, s "application/json")] ∧
    (Response.new (Body.ofStr (s "Hello World"))).status = 200 ∧
    Response.ok.status = 200 ∧ Response.created.status = 201 ∧ Response.internalServerError.status = 500 := by
  decide +kernel

/-- response.rs:180-207 `test_complete_response`. -/
def complete : Response :=
  (Response.created.setHeader (s "authorization") (s "token")).json (.ok (s "{\"name\":\"Jun Kai\",\"age\":27}"))

example : complete.status = 201 ∧ ∃ hs, complete.headers = some hs ∧
    (contentType, s "application/json") ∈ hs ∧ (s "authorization", s "token") ∈ hs :=
  ⟨by decide +kernel, [(s "authorization", s "token"), (contentType, s "application/json")], by decide +kernel,
    by decide +kernel, by decide +kernel⟩

/-! ### src/app.rs -/

/-- app.rs:322-374 `test_app_server_resolve_endpoint`: the handler, which panics if the body is not as
expected. -/
def bodyHandler : Handler demoU W := fun ctx =>
  let (body, ctx) := ctx.takeBody
  match body.aggregateChunk with
  | some chunk =>
    if ctx.request.path = s "/" ∧ fromUtf8 chunk = some (s "test_app_server") then
      .ret (ctx.build (.str (s "test_app_server"))).ok
    else .panic (.user (s "assertion failed"))
  | none => .panic (.user [])

/-- The status and body of the answer. -/
def answer (a : App demoU W) (req : Request demoU) : Option (Status × Bytes) :=
  match ((a.serve req).run 0).out with
  | .ok sent => some (sent.status, sent.body.bytes)
  | .error _ => none

example : answer ⟨(build [.get (s "/") bodyHandler]).1, none⟩
      ⟨.get, s "/", none, [], Extensions.empty, Body.ofStr (s "test_app_server")⟩ =
    some (200, utf8 (s "test_app_server")) := by
  decide +kernel

/-! ### examples/main.rs -/

/-- examples/main.rs:77-316: the registrations; the middleware is 0, and the handlers are numbered. -/
def example1 : Prog :=
  [.get (s "/") 1, .get (s "/json") 2, .get (s "/user") 3, .patch (s "/patch-here") 4,
   .get (s "/json-with-headers") 5, .get (s "/string-with-headers") 6, .get (s "/empty-body") 7,
   .get (s "/vec") 8, .get (s "/String") 9, .get (s "/test/radix") 10, .get (s "/team/radix") 11,
   .get (s "/test/radix2") 12, .get (s "/jsontest") 13, .get (s "/jsan") 14, .get (s "/test/wildcard/*") 15,
   .get (s "router/test") 16, .post (s "router/test") 17, .put (s "router/test") 18,
   .delete (s "router/test") 19, .get (s "route/diff_route") 20,
   .scope (s "admin") [.get (s "test") 21, .get (s "test2") 22],
   .scope (s "form") [.get (s "/formtest") 23],
   .useService 0,
   .scope (s "params") [.get (s "/test-next-wild/*") 24, .get (s "/*") 25],
   .get (s "/files/" ++ s "/*") 26]

example : (build example1).2 = none ∧
    (["/", "/json", "/user", "/json-with-headers", "/string-with-headers", "/empty-body", "/vec", "/String",
      "/test/radix", "/team/radix", "/test/radix2", "/jsontest", "/jsan", "/test/wildcard/a/b", "/router/test",
      "/route/diff_route", "/admin/test", "/admin/test2", "/form/formtest", "/params/test-next-wild/x",
      "/params/other", "/files/assets/a.css"].map fun p => (found example1 p, handlerFor (build example1).1 .get (s p))) =
    [1, 2, 3, 5, 6, 7, 8, 9, 10, 11, 12, 13, 14, 15, 16, 20, 21, 22, 23, 24, 25, 26].map (fun n => (some 1, some n)) ∧
    handlerFor (build example1).1 .patch (s "/patch-here") = some 4 ∧
    [Method.post, .put, .delete].map (fun m => handlerFor (build example1).1 m (s "/router/test")) =
      [some 17, some 18, some 19] ∧
    found example1 "/nothing" = none := by
  decide +kernel

end Obsidian.Check
