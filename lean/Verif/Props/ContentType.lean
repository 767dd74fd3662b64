import Verif.Spec.Answers
import Verif.Props.Respond
import Verif.Props.Static

/-
C58 for `build_json` and `build_file`, and C64: a response with a body tells the type of its content.
-/
namespace Obsidian.Props
open Obsidian Spec
variable {U : Univ} {σ : Type}

theorem jsonHandler_eq (parse : ParseName) (encoded : Except Str Str) (os : List BuilderCall) :
    (jsonHandler parse encoded os : Handler U σ) = buildHandler parse (.response (Response.ok.json encoded)) os := rfl

theorem json_wire (encoded : Except Str Str) :
    (wire (.response (Response.ok.json encoded))) = jsonWire encoded ∧ (Response.ok.json encoded).body.fails = false := by
  cases encoded with
  | ok t => exact ⟨by
      show Wire.mk _ _ (Body.ofStr t).bytes = _
      rw [(bytes_ofStr t).1]; rfl, (bytes_ofStr t).2⟩
  | error e => exact ⟨by
      show Wire.mk _ _ (Body.ofStr e).bytes = _
      rw [(bytes_ofStr e).1]; rfl, (bytes_ofStr e).2⟩

/-- **C58** for `build_json`: the client gets the encoded value with status 200 (unless another one is
set), or the text of the error with status 500, as `application/json` (unless another type is set). -/
theorem C58_json_on_the_wire {a : App U σ} {req : Request U} {parse : ParseName} {encoded : Except Str Str}
    {os : List BuilderCall} (hh : handlerFor a.router req.method req.path = some (jsonHandler parse encoded os))
    (hch : chainFor a.router req.path = some [])
    (hn : ∀ o ∈ os, ∀ k ∈ o.resp.names, parse k ≠ none)
    (hv : ∀ e ∈ (os.map BuilderCall.resp).flatMap (RespCall.headers parse), Visible e.2) (w : σ) :
    ∃ sent, (a.serve req).run w = ⟨.ok sent, w, []⟩ ∧
      sent.status = ((os.map BuilderCall.resp).filterMap RespCall.status).getLast?.getD (jsonWire encoded).status ∧
      sent.body.bytes = (jsonWire encoded).body ∧ sent.body.fails = false ∧
      ∀ k, sent.headers.get k =
        lastValue ((jsonWire encoded).headers ++ (os.map BuilderCall.resp).flatMap (RespCall.headers parse)) k := by
  rw [jsonHandler_eq] at hh
  obtain ⟨w1, w2⟩ := json_wire encoded
  have hv' : ∀ e ∈ (jsonWire encoded).headers ++ (os.map BuilderCall.resp).flatMap (RespCall.headers parse),
      Visible e.2 := by
    intro e he
    rcases List.mem_append.1 he with he | he
    · have : (jsonWire encoded).headers = [(s "content-type", s "application/json")] := by
        cases encoded <;> rfl
      rw [this, List.mem_singleton] at he
      subst he
      decide +kernel
    · exact hv e he
  obtain ⟨sent, e1, e2, e3, e4, e5⟩ := C58_build_on_the_wire hh hch hn (by rw [w1]; exact hv') w
  rw [w1] at e2 e3 e5
  exact ⟨sent, e1, e2, e3, e4 (by rintro r h; injection h with h; subst h; exact w2), e5⟩

/-- **C58** for `build_file`: the client gets the content of the file with status 200 (unless another one
is set), or the text of the error with status 404; an error is also printed. (For text files; see C57.) -/
theorem C58_file_on_the_wire {a : App U σ} {req : Request U} {parse : ParseName} {fs : ReadFile σ} {path : Str}
    {os : List BuilderCall} (hh : handlerFor a.router req.method req.path = some (fileHandler parse fs path os))
    (hch : chainFor a.router req.path = some [])
    (hn : ∀ o ∈ os, ∀ k ∈ o.resp.names, parse k ≠ none)
    (hv : ∀ e ∈ (os.map BuilderCall.resp).flatMap (RespCall.headers parse), Visible e.2) (w : σ)
    (ht : IsText (fs w path)) :
    ∃ sent, (a.serve req).run w = ⟨.ok sent, w, match fs w path with | .ok _ => [] | .error e => [.error e]⟩ ∧
      sent.status = ((os.map BuilderCall.resp).filterMap RespCall.status).getLast?.getD (fileWire (fs w path)).status ∧
      sent.body.bytes = (fileWire (fs w path)).body ∧ sent.body.fails = false ∧
      ∀ k, sent.headers.get k =
        lastValue ((os.map BuilderCall.resp).flatMap (RespCall.headers parse)) k := by
  obtain ⟨chain, c, h1, h2, h3⟩ := serve_some hh
  rw [hch] at h1; injection h1 with h1; subst h1
  have key : ∃ r0 : Response, (c.buildFileAct fs path).run w =
        ⟨.ok (c.build (.response r0)), w, match fs w path with | .ok _ => [] | .error e => [.error e]⟩ ∧
      r0.status = (fileWire (fs w path)).status ∧ r0.body.bytes = (fileWire (fs w path)).body ∧
      r0.body.fails = false ∧ r0.headers = none := by
    cases hf : fs w path with
    | error e =>
      refine ⟨Response.ok.file (.error e), ?_, rfl, (bytes_ofStr e).1, (bytes_ofStr e).2, rfl⟩
      simp only [Context.buildFileAct, Response.fileAct, Act.bind, Act.run, readToString, hf]
      rfl
    | ok b =>
      obtain ⟨x, hx⟩ := ht b hf
      refine ⟨Response.ok.file (.ok x), ?_, rfl, by rw [← hx]; exact (bytes_ofStr x).1, (bytes_ofStr x).2, rfl⟩
      simp only [Context.buildFileAct, Response.fileAct, Act.bind, Act.run, readToString, hf, fromUtf8_eq.2 hx]
      rfl
  obtain ⟨r0, k1, k2, k3, k4, k5⟩ := key
  obtain ⟨b, r, e1, e2, e3, e4, e5⟩ := C45_builder parse c (.response r0) os hn
  have hr0 : (Responder.response r0).respondTo = r0 := rfl
  rw [hr0] at e3 e4 e5
  rw [k5, Option.getD_none, List.nil_append] at e5
  have hl : headerList r = (os.map BuilderCall.resp).flatMap (RespCall.headers parse) := e5
  obtain ⟨m, f1, f2⟩ := finish_response (c := { c with response := some r }) rfl (by rw [hl]; exact hv)
  refine ⟨⟨r.status, m, r.body⟩, ?_, by rw [← k2]; exact e3, by rw [← k3]; exact congrArg Body.bytes e4,
    by rw [← k4]; exact congrArg Body.fails e4, fun k => by rw [← hl]; exact f2 k⟩
  rw [h3, execNext, fileHandler, Act.bind_assoc, Act.run_bind, k1]
  simp only [e1, Except.map, Act.ofPure, Act.ret_bind, e2, f1, Act.run, List.append_nil]

/-- **C58** for the calls on plain values (`"text".with_status(..)`, `.with_header(..)`, …): the response
stands for the status, the headers and the body one reads in the call. -/
theorem C58_values (parse : ParseName) (c : Content) (n : Status) (k : HeaderName) (v : Str)
    (hs : List (HeaderName × Str)) (ks : List (Str × Str)) (hk : ∀ e ∈ ks, parse e.1 ≠ none) :
    wire (.response (c.withStatus n)) = ⟨n, [], contentBytes c⟩ ∧
    wire (.response (c.withHeader k v)) = ⟨200, [(k, v)], contentBytes c⟩ ∧
    wire (.response (c.withHeaders hs)) = ⟨200, hs, contentBytes c⟩ ∧
    ∃ r, c.withHeadersStr parse ks = .ok r ∧
      wire (.response r) = ⟨200, (ks.filterMap fun e => (parse e.1).map fun k => (k, e.2)), contentBytes c⟩ := by
  have hb := (respondTo_wire (.withStatus n c)).2.2.1
  have hb' : c.intoBody.bytes = contentBytes c := hb
  refine ⟨?_, ?_, ?_, ?_⟩
  · show Wire.mk _ _ c.intoBody.bytes = _
    rw [hb']; rfl
  · show Wire.mk _ _ c.intoBody.bytes = _
    rw [hb']; rfl
  · show Wire.mk _ _ c.intoBody.bytes = _
    rw [hb']; rfl
  · have key : Response.parseNames parse ks = .ok (ks.filterMap fun e => (parse e.1).map fun k => (k, e.2)) := by
      clear hb hb'
      induction ks with
      | nil => rfl
      | cons e ks ih =>
        obtain ⟨a, b⟩ := e
        have h1 := hk (a, b) List.mem_cons_self
        rw [Response.parseNames]
        cases hp : parse a with
        | none => exact absurd hp h1
        | some x =>
          rw [ih (fun e he => hk e (List.mem_cons_of_mem _ he)), List.filterMap_cons]
          simp only [hp, Option.map_some]
    refine ⟨_, by rw [Content.withHeadersStr, Response.setHeadersStr, key], ?_⟩
    show Wire.mk _ _ c.intoBody.bytes = _
    rw [hb']; rfl

example : wire (.response ((Content.str (s "hi")).withHeader contentType (s "text/css"))) =
    ⟨200, [(s "content-type", s "text/css")], utf8 (s "hi")⟩ := (C58_values lowerNames _ 0 _ _ [] [] (by simp)).2.1

/-- **C58** for the responses one starts from: `Response::ok()`, `created()`,
`internal_server_error()`, each with an HTML text. -/
theorem C58_starts (t : Str) :
    wire (.response Response.ok) = ⟨200, [], []⟩ ∧
    wire (.response Response.created) = ⟨201, [], []⟩ ∧
    wire (.response Response.internalServerError) = ⟨500, [], []⟩ ∧
    wire (.response (Response.ok.html (Body.ofStr t))) = ⟨200, [("content-type".toList, "text/html".toList)], utf8 t⟩ ∧
    wire (.response (Response.created.html (Body.ofStr t))) = ⟨201, [("content-type".toList, "text/html".toList)], utf8 t⟩ ∧
    wire (.response (Response.internalServerError.html (Body.ofStr t))) =
      ⟨500, [("content-type".toList, "text/html".toList)], utf8 t⟩ := by
  refine ⟨rfl, rfl, rfl, ?_, ?_, ?_⟩
  all_goals
    show Wire.mk _ _ (Body.ofStr t).bytes = _
    rw [(bytes_ofStr t).1]; rfl

/-! ### Cases for the theorems above -/

/-- A handler that answers with JSON and a status. -/
def jsonDemo : Handler demoU W := jsonHandler lowerNames (.ok (s "[1,2]")) [.withStatus 201]

example : ∃ sent, ((solo (s "/list") jsonDemo).serve (demoReq .get "/list")).run 7 = ⟨.ok sent, 7, []⟩ ∧
    sent.status = 201 ∧ sent.body.bytes = utf8 (s "[1,2]") ∧
    sent.headers.get (s "content-type") = some (s "application/json") := by
  obtain ⟨h1, h2⟩ := solo_served (path := s "/list") (by decide +kernel) (by decide +kernel) (by decide +kernel) jsonDemo
  obtain ⟨sent, e1, e2, e3, _, e4⟩ := C58_json_on_the_wire (a := solo (s "/list") jsonDemo)
    (req := demoReq .get "/list") h1 h2 (by intro o _ k _; simp [lowerNames]) (by decide +kernel) 7
  exact ⟨sent, e1, by rw [e2]; decide +kernel, e3, by rw [e4]; decide +kernel⟩

/-- A handler that answers with a file and a header. -/
def fileDemo : Handler demoU Files := fileHandler lowerNames readFiles (s "page.html") [.withHeader (s "content-type") (s "text/html")]

example : ∃ sent, ((solo (s "/page") fileDemo).serve (fileReq "/page")).run [(s "page.html", utf8 (s "<p>"))] =
      ⟨.ok sent, [(s "page.html", utf8 (s "<p>"))], []⟩ ∧
    sent.status = 200 ∧ sent.body.bytes = utf8 (s "<p>") ∧
    sent.headers.get (s "content-type") = some (s "text/html") := by
  obtain ⟨h1, h2⟩ := solo_served (path := s "/page") (by decide +kernel) (by decide +kernel) (by decide +kernel) fileDemo
  have hf : readFiles [(s "page.html", utf8 (s "<p>"))] (s "page.html") = .ok (utf8 (s "<p>")) := by
    rw [readFiles]; simp
  obtain ⟨sent, e1, e2, e3, _, e4⟩ := C58_file_on_the_wire (a := solo (s "/page") fileDemo)
    (req := fileReq "/page") h1 h2 (by intro o _ k _; simp [lowerNames]) (by decide +kernel)
    [(s "page.html", utf8 (s "<p>"))] (by intro b hb; rw [hf] at hb; injection hb with hb; exact ⟨_, hb⟩)
  rw [hf] at e1 e2 e3
  exact ⟨sent, e1, by rw [e2]; decide +kernel, e3, by rw [e4]; decide +kernel⟩

/-! ### C64 -/

/-- A handler that answers with a status and a text: `ctx.build((StatusCode::OK, "<p>hi</p>")).ok()`. -/
def pairDemo : Handler demoU W := buildHandler lowerNames (.withStatus 200 (.str (s "<p>hi</p>"))) []

/-- **C64 fails**: the answer to a handler that gives a status and a text has a body but no content type;
and so has a file of a static directory. -/
theorem C64_false :
    (∃ sent, ((solo (s "/hi") pairDemo).serve (demoReq .get "/hi")).run 7 = ⟨.ok sent, 7, []⟩ ∧
      sent.body.bytes = utf8 (s "<p>hi</p>") ∧ sent.headers.get (s "content-type") = none) ∧
    ∃ sent pr, ((appOf staticProg_ok).serve (fileReq "/static/site.css")).run
        [(s "public/assets/site.css", utf8 (s "p {}"))] =
          ⟨.ok sent, [(s "public/assets/site.css", utf8 (s "p {}"))], pr⟩ ∧
      sent.body.bytes = utf8 (s "p {}") ∧ sent.headers.get (s "content-type") = none := by
  constructor
  · obtain ⟨h1, h2⟩ := solo_served (path := s "/hi") (by decide +kernel) (by decide +kernel) (by decide +kernel) pairDemo
    obtain ⟨sent, e1, e2, e3, _, e4⟩ := C58_build_on_the_wire (a := solo (s "/hi") pairDemo)
      (req := demoReq .get "/hi") h1 h2 (by simp) (by decide +kernel) 7
    exact ⟨sent, e1, e3, by rw [e4]; decide +kernel⟩
  · obtain ⟨sent, pr, h1, h2, _⟩ := C42_alone (a := appOf staticProg_ok) readFiles (s "/static") (s "public/assets")
      (build_eq staticProg_ok) (by decide +kernel) (by decide +kernel) (req := fileReq "/static/site.css") rfl
      static_static (x := s "site.css") (xs := []) (by decide +kernel) [(s "public/assets/site.css", utf8 (s "p {}"))]
    have hp : pathOf (segments (s "public/assets") ++ [s "site.css"]) = s "public/assets/site.css" := by decide +kernel
    have hf : readFiles [(s "public/assets/site.css", utf8 (s "p {}"))] (s "public/assets/site.css") =
        .ok (utf8 (s "p {}")) := by rw [readFiles]; simp
    rw [hp] at h2
    rw [hf] at h2
    have h3 := h2 (by intro b hb; injection hb with hb; exact ⟨_, hb⟩)
    exact ⟨sent, pr, h1, h3.2.2.2, h3.2.1 _⟩

theorem lastValue_some {hs : List (HeaderName × Str)} {k : HeaderName} :
    (∃ v, lastValue hs k = some v) ↔ ∃ v, (k, v) ∈ hs := by
  rw [lastValue]
  constructor
  · rintro ⟨v, h⟩
    obtain ⟨e, h1, h2⟩ := Option.map_eq_some_iff.1 h
    have := List.mem_filter.1 (List.mem_of_getLast? h1)
    exact ⟨e.2, by rw [← of_decide_eq_true this.2]; exact this.1⟩
  · rintro ⟨v, h⟩
    have hm : (k, v) ∈ hs.filter (fun e => e.1 = k) := List.mem_filter.2 ⟨h, decide_eq_true rfl⟩
    rw [List.getLast?_eq_some_getLast (List.ne_nil_of_mem hm)]
    exact ⟨_, rfl⟩

/-- **C64, what holds**: without middlewares in between, the answer has a content type if the handler hands a text to
`ctx.build`, if it uses `ctx.build_json`, or if one of the calls of the builder sets it. Missing: other values without
such a call, where the claim is false; middlewares, which may build any response. -/
theorem C64_typed_partial {a : App U σ} {req : Request U} {parse : ParseName} {res : Responder}
    {encoded : Except Str Str} {os : List BuilderCall} {h : Handler U σ}
    (hh : handlerFor a.router req.method req.path = some h)
    (hd : h = jsonHandler parse encoded os ∨ h = buildHandler parse res os ∧
      (KnowsType res ∨ ∃ v, (s "content-type", v) ∈ (os.map BuilderCall.resp).flatMap (RespCall.headers parse)))
    (hch : chainFor a.router req.path = some [])
    (hn : ∀ o ∈ os, ∀ k ∈ o.resp.names, parse k ≠ none)
    (hv : ∀ e ∈ (wire res).headers ++ (os.map BuilderCall.resp).flatMap (RespCall.headers parse),
      Visible e.2) (w : σ) :
    ∃ sent v, (a.serve req).run w = ⟨.ok sent, w, []⟩ ∧ sent.headers.get (s "content-type") = some v := by
  rcases hd with rfl | ⟨rfl, hd⟩
  · obtain ⟨sent, e1, _, _, _, e2⟩ := C58_json_on_the_wire hh hch hn (fun e he => hv e (List.mem_append_right _ he)) w
    obtain ⟨v, h⟩ := lastValue_some.2 (⟨s "application/json", List.mem_append_left _ (by cases encoded <;> simp [jsonWire, s])⟩ :
      ∃ v, (s "content-type", v) ∈ (jsonWire encoded).headers ++ (os.map BuilderCall.resp).flatMap (RespCall.headers parse))
    exact ⟨sent, v, e1, (e2 _).trans h⟩
  · obtain ⟨sent, e1, _, _, _, e2⟩ := C58_build_on_the_wire hh hch hn hv w
    have : ∃ v, (s "content-type", v) ∈ (wire res).headers ++ (os.map BuilderCall.resp).flatMap (RespCall.headers parse) := by
      rcases hd with hd | ⟨v, hd⟩
      · refine ⟨s "text/plain; charset=utf-8", List.mem_append_left _ ?_⟩
        unfold KnowsType at hd
        split at hd
        · simp only [wire, s, List.mem_singleton]
        · simp only [wire, s, List.mem_singleton]
        · exact hd.elim
      · exact ⟨v, List.mem_append_right _ hd⟩
    obtain ⟨v, h⟩ := lastValue_some.2 this
    exact ⟨sent, v, e1, (e2 _).trans h⟩

example : ∃ sent v, ((solo (s "/bye") goneHandler).serve (demoReq .get "/bye")).run 7 = ⟨.ok sent, 7, []⟩ ∧
    sent.headers.get (s "content-type") = some v := by
  obtain ⟨h1, h2⟩ := solo_served (path := s "/bye") (by decide +kernel) (by decide +kernel) (by decide +kernel) goneHandler
  exact C64_typed_partial (a := solo (s "/bye") goneHandler) (req := demoReq .get "/bye") (encoded := .ok []) h1
    (.inr ⟨rfl, .inl trivial⟩) h2 (by intro o _ k _; simp [lowerNames]) (by decide +kernel) 7

end Obsidian.Props
