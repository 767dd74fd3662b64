import Verif.Props.Whole
import Verif.Props.Blind
import Verif.Props.Json
import Verif.Props.Query
import Verif.Props.Static
import Verif.Props.Readme
import Verif.Props.LoggerOut
import Verif.Model.Example
import Verif.Spec.Example

/-
C89: the example application of the library.
-/
namespace Obsidian.Props
open Obsidian Spec
variable {U : Univ} {σ : Type} {M H : Type}

/-! ### The table of the example -/

/-- The registrations of the example, with names for the handlers. -/
def exTable : List (Reg Unit ExampleHandler) := exampleCalls () id

theorem exTable_ok : (build exTable).2 = none := by decide +kernel

theorem exTable_clean : CleanRegs exTable := by
  simp only [exTable, exampleCalls, CleanRegs, CleanReg]; decide +kernel

theorem exampleProg_eq (env : ExampleEnv U σ) :
    exampleProg env = mapCalls (fun _ => loggerExample env) (ExampleHandler.run env) exTable := by
  simp only [exampleProg, exTable, exampleCalls, mapCalls, mapCall, id]

theorem exTable_chain {path : Str} {m : Method} {h : ExampleHandler} (hh : handlerFor (build exTable).1 m path = some h) :
    chainFor (build exTable).1 path = some [()] := by
  obtain ⟨r, hb⟩ : ∃ r, build exTable = (r, none) := ⟨_, build_eq exTable_ok⟩
  rw [hb] at hh ⊢
  have hr := build_rep exTable_clean hb
  obtain ⟨q, b, hl, _⟩ := hr.handler hh
  rw [(hr.obs_some hl).2.2.1]
  have key : ∀ p : Str, p ≠ [] → mwsAt (logOf exTable) p = [] := by
    intro p hp
    rw [mwsAt, List.filterMap_eq_nil_iff]
    intro e he
    have : e.what = .middleware () → flat e.segs = [] := by
      have all : ∀ e ∈ logOf exTable, e.what = .middleware () → flat e.segs = [] := by decide +kernel
      exact all e he
    split
    · next h1 =>
      cases hw : e.what with
      | middleware x =>
        simp only [Entry.isAt, decide_eq_true_eq] at h1
        exact absurd (h1.symm.trans (this hw)) hp
      | _ => rfl
    · rfl
  have up : ∀ r p, upTo (logOf exTable) p r = [] := by
    intro r
    induction r with
    | nil => intro p; rfl
    | cons c r ih => intro p; rw [upTo, ih, key _ (by simp)]; rfl
  rw [Spec.chain, up]
  decide +kernel

/-! ### Serving -/

/-- What the example application runs. -/
theorem example_serves {env : ExampleEnv U σ} {a : App U σ} (hb : build (exampleProg env) = (a.router, none))
    (req : Request U) :
    (handlerFor (build exTable).1 req.method req.path = none → AnswersOnly (a.serve req) 404 "404 Not Found") ∧
    ∀ h, handlerFor (build exTable).1 req.method req.path = some h → ∃ c, Starts a req c ∧
      a.serve req = (loggerExample env c (h.run env)).bind (fun r => .ofPure (finish r)) := by
  have hr : a.router = (build (mapCalls (fun _ => loggerExample env) (ExampleHandler.run env) exTable)).1 := by
    rw [← exampleProg_eq, hb]
  obtain ⟨_, h2⟩ := C82_renamed (fun _ => loggerExample env) (ExampleHandler.run env) exTable
  obtain ⟨_, e2, e3, _⟩ := h2 req.path
  rw [← hr] at e2 e3
  constructor
  · intro hn
    exact C24_no_handler a req (by rw [e2, hn]; rfl)
  · intro h hh
    obtain ⟨chain, c, g1, g2, g3⟩ := C24_handler_runs a req (h := h.run env) (by rw [e2, hh]; rfl)
    rw [e3, exTable_chain hh] at g1
    simp only [Option.map_some, List.map_cons, List.map_nil, Option.some.injEq] at g1
    subst g1
    exact ⟨c, g2, g3⟩

/-- The request as the handlers see it, after the middleware. -/
structure Prepared (env : ExampleEnv U σ) (req : Request U) (c : Context U) : Prop where
  path : c.request.path = req.path
  query : c.request.query = req.query
  data : c.get env.dataTy ≠ none

theorem example_runs {env : ExampleEnv U σ} {a : App U σ} (hb : build (exampleProg env) = (a.router, none))
    {req : Request U} {h : ExampleHandler} (hh : handlerFor (build exTable).1 req.method req.path = some h) :
    (∀ host, hostOf req = some host → Visible host → ∃ c, Prepared env req c ∧
      a.serve req = .print .debug (.print (.text (requestLine req host))
        ((h.run env c).bind (fun r => .ofPure (finish r))))) ∧
    ((∀ host, hostOf req = some host → ¬ Visible host) → ∃ msg, a.serve req = .print .debug (.panic (.user msg))) := by
  obtain ⟨c, h1, h2⟩ := (example_serves hb req).2 h hh
  have hhost : firstHeader c.request.headers "host".toList = hostOf req := by rw [h1.headers]; rfl
  constructor
  · intro host hs hv
    refine ⟨c.add env.dataTy env.data, ⟨h1.path, h1.query, ?_⟩, ?_⟩
    · rw [Context.get, Context.add, ext_get_insert]; simp
    · rw [h2, loggerExample, hhost, hs]
      simp only [(valid_iff host).2 hv, if_true, Act.print_bind]
      rw [show methodText c.request.method ++ ' ' :: host ++ uriText c.request = requestLine req host by
        rw [methodText_eq, uriText_eq, requestLine, h1.method, target, target, h1.path, h1.query]]
  · intro hn
    rw [h2, loggerExample, hhost]
    cases hs : hostOf req with
    | none => exact ⟨_, rfl⟩
    | some host =>
      have hv : validHeaderValue host = false := by
        cases hv : validHeaderValue host with
        | false => rfl
        | true => exact absurd ((valid_iff host).1 hv) (hn host hs)
      simp only [hv, Bool.false_eq_true, if_false]
      exact ⟨_, rfl⟩

/-! ### The pages -/

theorem lastValue_lookup {hs : List (HeaderName × Str)} (hn : (hs.map Prod.fst).Nodup) (k : HeaderName) :
    lastValue hs k = hs.lookup k := by
  induction hs with
  | nil => rfl
  | cons e hs ih =>
    obtain ⟨k', v⟩ := e
    simp only [List.map_cons, List.nodup_cons] at hn
    rw [List.lookup_cons]
    by_cases hk : k' = k
    · subst hk
      have : hs.filter (fun e => e.1 = k') = [] := by
        rw [List.filter_eq_nil_iff]
        intro e he h
        exact hn.1 (by simp only [decide_eq_true_eq] at h; rw [← h]; exact List.mem_map_of_mem he)
      simp [lastValue, this]
    · rw [← ih hn.2]
      have : (k == k') = false := by simpa using fun h : k = k' => hk h.symm
      simp [lastValue, hk, this]

theorem c06_handler (r : Router M H) {p p' : Str} (h : segments p = segments p') (m : Method) :
    handlerFor r m p = handlerFor r m p' := by
  rw [handlerFor, handlerFor, C06_request h]

/-- A handler that builds a response. -/
theorem row_answers {env : ExampleEnv U σ} {a : App U σ} (hb : build (exampleProg env) = (a.router, none))
    {req : Request U} {host : Str} (hs : hostOf req = some host) (hv : Visible host)
    {h : ExampleHandler} (hh : handlerFor (build exTable).1 req.method req.path = some h) (row : Row) (R : Response)
    (hrun : ∀ c, Prepared env req c → h.run env c = .ret (.ok { c with response := some R }))
    (h1 : R.status = row.status) (h2 : R.body = Body.ofStr (row.text req.path))
    (h3 : headerList R = row.headers.map fun h => (h.1.toList, h.2.toList))
    (h4 : (row.headers.map fun h => h.1.toList).Nodup) (h5 : ∀ h ∈ row.headers, Visible h.2.toList) :
    row.Answers req host (a.serve req) := by
  intro w
  obtain ⟨c, hp, hserve⟩ := (example_runs hb hh).1 host hs hv
  obtain ⟨m, f1, f2⟩ := finish_response (c := { c with response := some R }) (r := R) rfl (by
    rw [h3]
    intro e he
    obtain ⟨x, hx, rfl⟩ := List.mem_map.1 he
    exact h5 x hx)
  refine ⟨⟨R.status, m, R.body⟩, ?_, h1, ?_, ?_, fun k => ?_⟩
  · rw [hserve, hrun c hp]
    simp only [Act.ret_bind, f1]; rfl
  · rw [h2]; exact (bytes_ofStr _).1
  · rw [h2]; exact (bytes_ofStr _).2
  · rw [f2, h3]
    refine lastValue_lookup ?_ k
    rw [List.map_map]; exact h4

theorem text_plain {row : Row} (h : row.echo = false) (path : Str) : row.text path = row.body.toList := by
  simp [Row.text, h]

theorem text_echo {row : Row} (h : row.echo = true) (path : Str) :
    row.text path = row.body.toList ++ "<br>".toList ++ path := by
  simp [Row.text, h]

/-- **C89**: the pages of the example. -/
theorem C89_pages_partial {env : ExampleEnv U σ} (hn : LowerNames env.parse) {a : App U σ}
    (hb : build (exampleProg env) = (a.router, none)) {row : Row} (hrow : row ∈ exampleRows) {req : Request U}
    (hm : req.method = row.method) (hp : segments req.path = segments row.path.toList) {host : Str}
    (hs : hostOf req = some host) (hv : Visible host) : row.Answers req host (a.serve req) := by
  have n0 : env.parse "X-Custom-Header".toList = some "x-custom-header".toList := (hn _ (by simp)).trans (by decide +kernel)
  have n1 : env.parse "X-Custom-Header-1".toList = some "x-custom-header-1".toList := (hn _ (by simp)).trans (by decide +kernel)
  have n2 : env.parse "X-Custom-Header-2".toList = some "x-custom-header-2".toList := (hn _ (by simp)).trans (by decide +kernel)
  have n3 : env.parse "X-Custom-Header-3".toList = some "x-custom-header-3".toList := (hn _ (by simp)).trans (by decide +kernel)
  have key : ∀ h (R : Response), handlerFor (build exTable).1 row.method row.path.toList = some h →
      (∀ c, Prepared env req c → h.run env c = .ret (.ok { c with response := some R })) → R.status = row.status →
      R.body = Body.ofStr (row.text req.path) → headerList R = row.headers.map (fun h => (h.1.toList, h.2.toList)) →
      (row.headers.map fun h => h.1.toList).Nodup → (∀ h ∈ row.headers, Visible h.2.toList) →
      row.Answers req host (a.serve req) := fun h R k1 k2 k3 k4 k5 k6 k7 =>
    row_answers hb hs hv (by rw [c06_handler _ hp, hm]; exact k1) row R k2 k3 k4 k5 k6 k7
  have text : ∀ h, handlerFor (build exTable).1 row.method row.path.toList = some h →
      (∀ c, Prepared env req c → h.run env c = .ret (c.build (.str (row.text req.path))).ok) → row.status = 200 →
      row.headers = [("content-type", "text/plain; charset=utf-8")] → row.Answers req host (a.serve req) := by
    intro h k1 k2 k3 k4
    refine key h (respondStr (row.text req.path)) k1 k2 k3.symm rfl (by rw [k4]; rfl) (by rw [k4]; simp) ?_
    rw [k4]; decide +kernel
  simp only [exampleRows, List.mem_cons, List.not_mem_nil, or_false] at hrow
  rcases hrow with rfl | rfl | rfl | rfl | rfl | rfl | rfl | rfl | rfl | rfl | rfl | rfl | rfl | rfl | rfl | rfl | rfl | rfl | rfl
  · refine key .root (Response.ok.html (Body.ofStr rootPage)) ?_ (fun c _ => rfl) rfl ?_ rfl ?_ ?_
    · decide +kernel
    · rw [text_plain rfl]
      unfold rootPage
      generalize Body.ofStr _ = x
      rfl
    · decide +kernel
    · decide +kernel
  · refine key .json (((Response.ok.json pointJson).setHeader "authorization".toList "token".toList).setHeader
      "x-custom-header".toList "Custom header value".toList) (by decide +kernel) (fun c _ => ?_) rfl
      (by rw [text_plain rfl]; rfl) rfl (by decide +kernel) (by decide +kernel)
    simp only [ExampleHandler.run, ResponseBuilder.withHeaderStr, Response.setHeaderStr, n0]; rfl
  · exact text .patchHere (by decide +kernel) (fun c _ => by rw [text_plain rfl]; rfl) rfl rfl
  · refine key .jsonWithHeaders (((Response.created.setHeaders standardHeaders).setHeaders
      [("x-custom-header-1".toList, "Custom header 1".toList), ("x-custom-header-2".toList, "Custom header 2".toList),
       ("x-custom-header-3".toList, "Custom header 3".toList)]).json pointJson) (by decide +kernel) (fun c _ => ?_) rfl
      (by rw [text_plain rfl]; rfl) rfl (by decide +kernel) (by decide +kernel)
    simp only [ExampleHandler.run, Response.setHeadersStr, Response.parseNames, customHeaders, n1, n2, n3]; rfl
  · refine key .stringWithHeaders (((respondStr "Hello World".toList).setHeaders standardHeaders).setHeaders
      [("x-custom-header-1".toList, "Custom header 1".toList), ("x-custom-header-2".toList, "Custom header 2".toList),
       ("x-custom-header-3".toList, "Custom header 3".toList)]) (by decide +kernel) (fun c _ => ?_) rfl
      (by rw [text_plain rfl]; rfl) rfl (by decide +kernel) (by decide +kernel)
    simp only [ExampleHandler.run, ResponseBuilder.withHeadersStr, Response.setHeadersStr, Response.parseNames, customHeaders, n1, n2, n3]; rfl
  · exact key .emptyBody (Response.new Body.empty) (by decide +kernel) (fun c _ => rfl) rfl rfl rfl (by simp) (by simp)
  · exact key .vec ((Response.new (Body.ofStr (bytesJson [1, 2, 3]))).setStatus 201) (by decide +kernel) (fun c _ => rfl) rfl
      (by rw [text_plain rfl]; decide +kernel) rfl (by simp) (by simp)
  · exact text .string (by decide +kernel) (fun c _ => by rw [text_plain rfl]; rfl) rfl rfl
  · exact text .testRadix (by decide +kernel) (fun c _ => by rw [text_plain rfl]; rfl) rfl rfl
  · exact text .teamRadix (by decide +kernel) (fun c _ => by rw [text_plain rfl]; rfl) rfl rfl
  · exact text .testRadix2 (by decide +kernel) (fun c _ => by rw [text_plain rfl]; rfl) rfl rfl
  · exact text .jsan (by decide +kernel) (fun c _ => by rw [text_plain rfl]; rfl) rfl rfl
  · refine text .routerGet (by decide +kernel) (fun c hc => ?_) rfl rfl
    rw [text_echo rfl, ← hc.path, ExampleHandler.run]
    cases hd : c.get env.dataTy with
    | none => exact absurd hd hc.data
    | some v => simp only [hd]; rfl
  · exact text .routerPost (by decide +kernel) (fun c hc => by rw [text_echo rfl, ← hc.path]; rfl) rfl rfl
  · exact text .routerPut (by decide +kernel) (fun c hc => by rw [text_echo rfl, ← hc.path]; rfl) rfl rfl
  · exact text .routerDelete (by decide +kernel) (fun c hc => by rw [text_echo rfl, ← hc.path]; rfl) rfl rfl
  · exact text .diffRoute (by decide +kernel) (fun c hc => by rw [text_echo rfl, ← hc.path]; rfl) rfl rfl
  · exact text .adminTest (by decide +kernel) (fun c _ => by rw [text_plain rfl]; rfl) rfl rfl
  · exact text .adminTest2 (by decide +kernel) (fun c _ => by rw [text_plain rfl]; rfl) rfl rfl

/-! ### The pages below a path -/

theorem ex_param (p : Str) : paramAt (logOf exTable) p = none := by
  have : (logOf exTable).flatMap (fun e => paramSegs [] e.segs) = [] := by decide +kernel
  rw [paramAt, this]; rfl

theorem ex_handler {path q : Str} (hne : segments path ≠ []) (hf : find (logOf exTable) [] (segments path) = some (q, []))
    (hq : hasEntry (logOf exTable) q = true) (m : Method) :
    handlerFor (build exTable).1 m path = routeAt (logOf exTable) q m := by
  obtain ⟨r, hb⟩ : ∃ r, build exTable = (r, none) := ⟨_, build_eq exTable_ok⟩
  rw [hb]
  have hl : lookup (logOf exTable) path = some (q, []) := by rw [lookup]; simp [hne, hf, hq]
  exact ((build_rep exTable_clean hb).obs_some hl).2.1 m

theorem find_step {p x y : Str} {rest : List Str} (h1 : x.head? ≠ some '*') (h2 : known (logOf exTable) (p ++ x) = true)
    {r : Str × List (Str × Str)} (hf : find (logOf exTable) (p ++ x) (y :: rest) = some r) :
    find (logOf exTable) p (x :: y :: rest) = some r := by
  rw [find, ex_param]; simp [h1, h2, hf]

theorem find_last {p x : Str} (h1 : x.head? ≠ some '*') (h2 : known (logOf exTable) (p ++ x) = true)
    (h3 : hasEntry (logOf exTable) (p ++ x) = false) (h4 : hasEntry (logOf exTable) (p ++ x ++ ['*']) = true) :
    find (logOf exTable) p [x] = some (p ++ x ++ ['*'], []) := by
  rw [find, ex_param]; simp only [List.append_assoc] at h4; simp [h1, h2, h3, h4]

theorem find_caught {p x : Str} {rest : List Str} (h1 : x.head? ≠ some '*' → known (logOf exTable) (p ++ x) = false)
    (h2 : known (logOf exTable) (p ++ ['*']) = true) :
    find (logOf exTable) p (x :: rest) = some (p ++ ['*'], []) := by
  rw [find, ex_param]
  by_cases h : x.head? = some '*'
  · simp [h, h2]
  · simp [h, h1 h, h2]

theorem not_known {p x : Str} (hx : x ≠ []) (h : ∀ e ∈ logOf exTable, p <+: flat e.segs → flat e.segs = p ∨ flat e.segs = p ++ ['*']) :
    x.head? ≠ some '*' → known (logOf exTable) (p ++ x) = false := by
  intro hs
  cases hk : known (logOf exTable) (p ++ x) with
  | false => rfl
  | true =>
    obtain ⟨e, he, t, ht⟩ := known_prefix hk
    have hp : p <+: flat e.segs := ⟨x ++ t, by rw [← ht]; simp⟩
    rw [List.append_assoc] at ht
    rcases h e he hp with h1 | h1
    · rw [h1] at ht
      have := List.append_cancel_left (ht.trans (List.append_nil p).symm)
      simp [hx] at this
    · rw [h1] at ht
      have := List.append_cancel_left ht
      cases x with
      | nil => exact absurd rfl hx
      | cons c x => simp at this; exact absurd (by rw [List.head?_cons, this.1]) hs

/-- Only `GET` is registered at the place. -/
theorem only_get {q : Str} {h : ExampleHandler} (h1 : routeAt (logOf exTable) q .get = some h)
    (h2 : ∀ e ∈ logOf exTable, flat e.segs = q → (match e.what with | .route m _ => decide (m = .get) | _ => true) = true) (m : Method) :
    routeAt (logOf exTable) q m = if m = .get then some h else none := by
  by_cases hm : m = .get
  · subst hm; simp [h1]
  · simp only [hm, if_false]
    cases hr : routeAt (logOf exTable) q m with
    | none => rfl
    | some k =>
      obtain ⟨e, he, e1, e2⟩ := routeAt_mem hr
      have := h2 e he e1
      rw [e2] at this
      simp at this
      exact absurd this hm

theorem below_test {path : Str} {rest : List Str} (h : segments path = s "test" :: s "wildcard" :: rest) (m : Method) :
    handlerFor (build exTable).1 m path = if m = .get then some .testWildcard else none := by
  have hf : find (logOf exTable) [] (segments path) = some (s "testwildcard*", []) := by
    rw [h]
    refine find_step (by decide) (by decide +kernel) ?_
    cases rest with
    | nil => exact find_last (by decide) (by decide +kernel) (by decide +kernel) (by decide +kernel)
    | cons x rest =>
      refine find_step (by decide) (by decide +kernel) ?_
      exact find_caught (p := s "testwildcard") (not_known (segments_ne path x (by rw [h]; simp)) (by decide +kernel)) (by decide +kernel)
  rw [ex_handler (by rw [h]; simp) hf (by decide +kernel)]
  exact only_get (by decide +kernel) (by decide +kernel) m

theorem below_next {path : Str} {rest : List Str} (h : segments path = s "params" :: s "test-next-wild" :: rest) (m : Method) :
    handlerFor (build exTable).1 m path = if m = .get then some .nextWild else none := by
  have hf : find (logOf exTable) [] (segments path) = some (s "paramstest-next-wild*", []) := by
    rw [h]
    refine find_step (by decide) (by decide +kernel) ?_
    cases rest with
    | nil => exact find_last (by decide) (by decide +kernel) (by decide +kernel) (by decide +kernel)
    | cons x rest =>
      refine find_step (by decide) (by decide +kernel) ?_
      exact find_caught (p := s "paramstest-next-wild") (not_known (segments_ne path x (by rw [h]; simp)) (by decide +kernel)) (by decide +kernel)
  rw [ex_handler (by rw [h]; simp) hf (by decide +kernel)]
  exact only_get (by decide +kernel) (by decide +kernel) m

theorem below_files {path : Str} {rest : List Str} (h : segments path = s "files" :: rest) (m : Method) :
    handlerFor (build exTable).1 m path = if m = .get then some .files else none := by
  have hf : find (logOf exTable) [] (segments path) = some (s "files*", []) := by
    rw [h]
    cases rest with
    | nil => exact find_last (by decide) (by decide +kernel) (by decide +kernel) (by decide +kernel)
    | cons x rest =>
      refine find_step (by decide) (by decide +kernel) ?_
      exact find_caught (p := s "files") (not_known (segments_ne path x (by rw [h]; simp)) (by decide +kernel)) (by decide +kernel)
  rw [ex_handler (by rw [h]; simp) hf (by decide +kernel)]
  exact only_get (by decide +kernel) (by decide +kernel) m

theorem below_params {path : Str} {rest : List Str} (h : segments path = s "params" :: rest)
    (hr : ∀ x, rest.head? = some x → x ≠ s "test-next-wild" ∧ x ≠ s "test-next-wild*") (m : Method) :
    handlerFor (build exTable).1 m path = if m = .get then some .paramsWild else none := by
  have hf : find (logOf exTable) [] (segments path) = some (s "params*", []) := by
    rw [h]
    cases rest with
    | nil => exact find_last (by decide) (by decide +kernel) (by decide +kernel) (by decide +kernel)
    | cons x rest =>
      refine find_step (by decide) (by decide +kernel) ?_
      refine find_caught (p := s "params") (fun hs => ?_) (by decide +kernel)
      have hx := segments_ne path x (by rw [h]; simp)
      obtain ⟨n1, n2⟩ := hr x rfl
      cases hk : known (logOf exTable) (s "params" ++ x) with
      | false => rfl
      | true =>
        obtain ⟨e, he, t, ht⟩ := known_prefix hk
        have all : ∀ e ∈ logOf exTable, s "params" <+: flat e.segs → flat e.segs ∈ [s "params", s "params*", s "paramstest-next-wild*"] := by
          decide +kernel
        have hin := all e he ⟨x ++ t, by rw [← ht]; simp⟩
        have hpre : x <+: s "test-next-wild*" := by
          rw [← ht, List.append_assoc] at hin
          simp only [List.mem_cons, List.not_mem_nil, or_false] at hin
          rcases hin with h1 | h1 | h1
          · have := List.append_cancel_left (h1.trans (List.append_nil _).symm)
            simp [hx] at this
          · have h2 : s "params" ++ (x ++ t) = s "params" ++ s "*" := h1
            have := List.append_cancel_left h2
            cases x with
            | nil => exact absurd rfl hx
            | cons c x => simp [s] at this; exact absurd (by rw [List.head?_cons, this.1]) hs
          · have h2 : s "params" ++ (x ++ t) = s "params" ++ s "test-next-wild*" := h1
            exact ⟨t, List.append_cancel_left h2⟩
        have hall : ∀ n ∈ List.range 16, let x := (s "test-next-wild*").take n
            x = [] ∨ x = s "test-next-wild" ∨ x = s "test-next-wild*" ∨ known (logOf exTable) (s "params" ++ x) = false := by
          decide +kernel
        have hlen : x.length < 16 := Nat.lt_succ_of_le (by simpa [s] using hpre.length_le)
        have := hall x.length (by simpa using hlen)
        rw [← List.prefix_iff_eq_take.1 hpre] at this
        rcases this with h1 | h1 | h1 | h1
        · exact absurd h1 hx
        · exact absurd h1 n1
        · exact absurd h1 n2
        · rw [h1] at hk; exact hk.symm
  rw [ex_handler (by rw [h]; simp) hf (by decide +kernel)]
  exact only_get (by decide +kernel) (by decide +kernel) m

/-- **C89**: everything below `/test/wildcard`, `/params/test-next-wild` and `/params` has its page. -/
theorem C89_below_partial {env : ExampleEnv U σ} {a : App U σ} (hb : build (exampleProg env) = (a.router, none))
    {req : Request U} (hm : req.method = .get) {host : Str} (hs : hostOf req = some host) (hv : Visible host) (rest : List Str) :
    (segments req.path = s "test" :: s "wildcard" :: rest → wildRow.Answers req host (a.serve req)) ∧
    (segments req.path = s "params" :: s "test-next-wild" :: rest → nextWildRow.Answers req host (a.serve req)) ∧
    (segments req.path = s "params" :: rest →
      (∀ x, rest.head? = some x → x ≠ s "test-next-wild" ∧ x ≠ s "test-next-wild*") →
      notFoundRow.Answers req host (a.serve req)) := by
  refine ⟨fun h => ?_, fun h => ?_, fun h hr => ?_⟩
  · refine row_answers hb hs hv (h := .testWildcard) (by rw [below_test h, hm]; rfl) wildRow
      (respondStr (wildRow.text req.path)) (fun c hc => ?_) rfl rfl rfl (by decide +kernel) (by decide +kernel)
    rw [text_echo rfl, ← hc.path]; rfl
  · exact row_answers hb hs hv (h := .nextWild) (by rw [below_next h, hm]; rfl) nextWildRow
      (respondStr nextWildRow.body.toList) (fun c hc => rfl) rfl (by rw [text_plain rfl]; rfl) rfl (by decide +kernel) (by decide +kernel)
  · exact row_answers hb hs hv (h := .paramsWild) (by rw [below_params h hr, hm]; rfl) notFoundRow
      ((Content.str notFoundRow.body.toList).withStatus 404) (fun c hc => rfl) rfl (by rw [text_plain rfl]; rfl) rfl
      (by decide +kernel) (by decide +kernel)

end Obsidian.Props
