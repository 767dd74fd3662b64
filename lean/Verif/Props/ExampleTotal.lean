import Verif.Props.ExampleUser
import Verif.Props.ExampleFiles

/-
C89: every request to the example application.
-/
namespace Obsidian.Props
open Obsidian Spec
variable {U : Univ} {σ : Type} {M H : Type}

/-- **C89**: the registrations of the example are accepted. -/
theorem C89_accepted (env : ExampleEnv U σ) : (build (exampleProg env)).2 = none := by
  rw [exampleProg_eq]
  exact (C82_renamed _ _ _).1.trans exTable_ok

/-! ### Where the handlers are -/

theorem find_flat {p q : Str} {segs : List Str} {b : List (Str × Str)} (h : find (logOf exTable) p segs = some (q, b)) :
    q = p ++ flat segs ∨ ∃ pre, q = p ++ pre ++ ['*'] ∧ pre <+: flat segs := by
  induction segs generalizing p with
  | nil => exact nomatch h
  | cons x rest ih =>
    rw [find, ex_param] at h
    simp only at h
    have star : (if known (logOf exTable) (p ++ ['*']) then some (p ++ ['*'], ([] : List (Str × Str))) else none) = some (q, b) →
        q = p ++ flat (x :: rest) ∨ ∃ pre, q = p ++ pre ++ ['*'] ∧ pre <+: flat (x :: rest) := by
      intro h
      split at h
      · simp only [Option.some.injEq, Prod.mk.injEq] at h
        exact .inr ⟨[], by rw [← h.1]; simp, List.nil_prefix⟩
      · exact nomatch h
    split at h
    · next r hr =>
      simp only [Option.some.injEq] at h
      subst h
      split at hr
      · split at hr
        · next he =>
          have he : rest = [] := by simpa using he
          subst he
          split at hr
          · simp only [Option.some.injEq, Prod.mk.injEq] at hr
            exact .inl (by rw [← hr.1]; simp [flat])
          · split at hr
            · simp only [Option.some.injEq, Prod.mk.injEq] at hr
              exact .inr ⟨x, by rw [← hr.1], by simp [flat]⟩
            · exact nomatch hr
        · rcases ih hr with h1 | ⟨pre, h1, h2⟩
          · exact .inl (by rw [h1]; simp [flat])
          · exact .inr ⟨x ++ pre, by rw [h1]; simp, by rw [flat]; exact (List.prefix_append_right_inj x).2 h2⟩
      · exact nomatch hr
    · exact star h

theorem lookup_flat {path q : Str} {b : List (Str × Str)} (h : lookup (logOf exTable) path = some (q, b)) :
    q = flat (segments path) ∨ ∃ pre, q = pre ++ ['*'] ∧ pre <+: flat (segments path) := by
  rw [lookup] at h
  by_cases hs : segments path = []
  · simp only [hs, if_true] at h
    split at h
    · simp only [Option.some.injEq, Prod.mk.injEq] at h
      exact .inl (by rw [hs, ← h.1]; rfl)
    · exact nomatch h
  · simp only [hs, if_false] at h
    split at h
    · next q' b' hf =>
      split at h
      · simp only [Option.some.injEq, Prod.mk.injEq] at h
        obtain ⟨rfl, rfl⟩ := h
        simpa using find_flat hf
      · exact nomatch h
    · exact nomatch h

theorem has_page {req : Request U} {h : ExampleHandler} (hh : handlerFor (build exTable).1 req.method req.path = some h) :
    HasPageLoosely req := by
  obtain ⟨r, hb⟩ : ∃ r, build exTable = (r, none) := ⟨_, build_eq exTable_ok⟩
  rw [hb] at hh
  obtain ⟨q, b, hl, hq⟩ := (build_rep exTable_clean hb).handler hh
  obtain ⟨e, he, e1, e2⟩ := routeAt_mem hq
  have all : ∀ e ∈ logOf exTable, (match e.what with
      | .route m _ => decide (((∃ p ∈ pageList, m = p.1 ∧ flat e.segs = flat (segments p.2.toList)) ∧ '*' ∉ flat e.segs) ∨
          (m = .get ∧ flat e.segs ∈ [s "testwildcard*", s "params*", s "paramstest-next-wild*", s "files*"]))
      | _ => true) = true := by decide +kernel
  have := all e he
  rw [e2, e1] at this
  simp only [decide_eq_true_eq] at this
  rcases lookup_flat hl with h1 | ⟨pre, h1, h2⟩
  · rcases this with ⟨⟨p, p1, p2, p3⟩, _⟩ | ⟨g1, g2⟩
    · exact .inl ⟨p, p1, p2, by rw [← p3, h1]⟩
    · refine .inr ⟨g1, ?_⟩
      simp only [List.mem_cons, List.not_mem_nil, or_false] at g2
      rw [← h1]
      rcases g2 with rfl | rfl | rfl | rfl
      · exact ⟨"/test/wildcard", by decide +kernel, by decide +kernel⟩
      · exact ⟨"/params", by decide +kernel, by decide +kernel⟩
      · exact ⟨"/params", by decide +kernel, by decide +kernel⟩
      · exact ⟨"/files", by decide +kernel, by decide +kernel⟩
  · rcases this with ⟨_, p4⟩ | ⟨g1, g2⟩
    · exact absurd (by rw [h1]; simp) p4
    · refine .inr ⟨g1, ?_⟩
      simp only [List.mem_cons, List.not_mem_nil, or_false] at g2
      have cut : ∀ t : Str, q = t ++ ['*'] → t <+: flat (segments req.path) := by
        intro t ht
        rw [← List.append_cancel_right (h1.symm.trans ht)]; exact h2
      rcases g2 with g | g | g | g
      · exact ⟨"/test/wildcard", by decide +kernel, cut (flat (segments "/test/wildcard".toList)) (by rw [g]; decide +kernel)⟩
      · exact ⟨"/params", by decide +kernel, cut (flat (segments "/params".toList)) (by rw [g]; decide +kernel)⟩
      · refine ⟨"/params", by decide +kernel, List.IsPrefix.trans (by decide +kernel) (cut (s "paramstest-next-wild") (by rw [g]; decide +kernel))⟩
      · exact ⟨"/files", by decide +kernel, cut (flat (segments "/files".toList)) (by rw [g]; decide +kernel)⟩

/-- **C89**: a request that no page is for, not even without its slashes, is answered with 404, with or without
a host. -/
theorem C89_others_partial {env : ExampleEnv U σ} {a : App U σ} (hb : build (exampleProg env) = (a.router, none))
    {req : Request U} (hn : ¬ HasPageLoosely req) : AnswersOnly (a.serve req) 404 "404 Not Found" := by
  refine (example_serves hb req).1 ?_
  cases hh : handlerFor (build exTable).1 req.method req.path with
  | none => rfl
  | some h => exact absurd (has_page hh) hn

/-! ### Every handler replies -/

theorem replies_ret {act : Act σ (ContextResult U)} {c : Context U} (R : Response)
    (h : act = .ret (.ok { c with response := some R })) (hv : ∀ e ∈ headerList R, Visible e.2) (w : σ) :
    ∃ R lines, act.run w = ⟨.ok (.ok { c with response := some R }), w, lines⟩ ∧ ∀ e ∈ headerList R, Visible e.2 :=
  ⟨R, [], by rw [h]; rfl, hv⟩

theorem text_visible (t : Str) : ∀ e ∈ headerList (respondStr t), Visible e.2 := by
  have : headerList (respondStr t) = [("content-type".toList, "text/plain; charset=utf-8".toList)] := rfl
  rw [this]; decide +kernel

theorem handler_replies {env : ExampleEnv U σ} (hn : LowerNames env.parse) (hi1 : Visits env.i1) (hi2 : Visits env.i2)
    {req : Request U} {c : Context U} (hc : Prepared env req c) (h : ExampleHandler) (w : σ) :
    ∃ R lines, (h.run env c).run w = ⟨.ok (.ok { c with response := some R }), w, lines⟩ ∧
      ∀ e ∈ headerList R, Visible e.2 := by
  have n0 : env.parse "X-Custom-Header".toList = some "x-custom-header".toList := (hn _ (by simp)).trans (by decide +kernel)
  have n1 : env.parse "X-Custom-Header-1".toList = some "x-custom-header-1".toList := (hn _ (by simp)).trans (by decide +kernel)
  have n2 : env.parse "X-Custom-Header-2".toList = some "x-custom-header-2".toList := (hn _ (by simp)).trans (by decide +kernel)
  have n3 : env.parse "X-Custom-Header-3".toList = some "x-custom-header-3".toList := (hn _ (by simp)).trans (by decide +kernel)
  have text : ∀ t, h.run env c = .ret (c.build (.str t)).ok → ∃ R lines,
      (h.run env c).run w = ⟨.ok (.ok { c with response := some R }), w, lines⟩ ∧ ∀ e ∈ headerList R, Visible e.2 :=
    fun t ht => replies_ret (respondStr t) ht (text_visible t) w
  have file : ∀ name, h.run env c = ((Response.ok.fileAct env.fs name).bind fun r => .ret (c.build (.response r)).ok) →
      ∃ R lines, (h.run env c).run w = ⟨.ok (.ok { c with response := some R }), w, lines⟩ ∧
        ∀ e ∈ headerList R, Visible e.2 := by
    intro name hname
    obtain ⟨R, lines, r1, r2, _⟩ := file_runs env.fs name c w
    exact ⟨R, lines, by rw [hname, r1], by rw [r2]; simp⟩
  cases h with
  | root => exact replies_ret (Response.ok.html (Body.ofStr rootPage)) rfl (show ∀ e ∈ [(_, _)], Visible e.2 by decide +kernel) w
  | json =>
    refine replies_ret (((Response.ok.json pointJson).setHeader "authorization".toList "token".toList).setHeader
      "x-custom-header".toList "Custom header value".toList) ?_ (by decide +kernel) w
    simp only [ExampleHandler.run, ResponseBuilder.withHeaderStr, Response.setHeaderStr, n0]; rfl
  | user =>
    have run : c.queryParams (parseQueries (urlParse env.repair) env.i1 env.i2 queryString) =
        parseQueries (urlParse env.repair) env.i1 env.i2 queryString (utf8 (req.query.getD [])) := by
      rw [Context.queryParams, hc.query]
      cases req.query <;> rfl
    obtain ⟨p1, p2, p3⟩ := user_parse hi1 hi2 (urlParse env.repair) (utf8 (req.query.getD []))
    rw [ExampleHandler.run]
    cases e1 : valuesOf (urlParse env.repair (utf8 (req.query.getD []))) (s "id") with
    | nil =>
      simp only [run, p2 e1]
      exact ⟨respondStr [], _, rfl, text_visible _⟩
    | cons id ids =>
      cases e2 : valuesOf (urlParse env.repair (utf8 (req.query.getD []))) (s "status") with
      | nil =>
        simp only [run, p3 (by rw [e1]; simp) e2]
        exact ⟨respondStr [], _, rfl, text_visible _⟩
      | cons st sts =>
        simp only [run, p1 _ _ _ _ e1 e2]
        exact ⟨respondStr [], _, rfl, text_visible _⟩
  | jsonWithHeaders =>
    refine replies_ret (((Response.created.setHeaders standardHeaders).setHeaders
      [("x-custom-header-1".toList, "Custom header 1".toList), ("x-custom-header-2".toList, "Custom header 2".toList),
       ("x-custom-header-3".toList, "Custom header 3".toList)]).json pointJson) ?_ (by decide +kernel) w
    simp only [ExampleHandler.run, Response.setHeadersStr, Response.parseNames, customHeaders, n1, n2, n3]; rfl
  | stringWithHeaders =>
    refine replies_ret (((respondStr "Hello World".toList).setHeaders standardHeaders).setHeaders
      [("x-custom-header-1".toList, "Custom header 1".toList), ("x-custom-header-2".toList, "Custom header 2".toList),
       ("x-custom-header-3".toList, "Custom header 3".toList)]) ?_ (by decide +kernel) w
    simp only [ExampleHandler.run, ResponseBuilder.withHeadersStr, Response.setHeadersStr, Response.parseNames, customHeaders, n1, n2, n3]; rfl
  | emptyBody => exact replies_ret (Response.new Body.empty) rfl (by simp [headerList, Response.new]) w
  | vec => exact replies_ret ((Response.new (Body.ofStr (bytesJson [1, 2, 3]))).setStatus 201) rfl (by simp [headerList, Response.new, Response.setStatus]) w
  | jsonTest => exact file _ (by rw [ExampleHandler.run]; simp only [Context.buildFileAct, Act.bind_assoc]; rfl)
  | formTest => exact file _ (by rw [ExampleHandler.run]; simp only [Context.buildFileAct, Act.bind_assoc]; rfl)
  | files => exact file _ (by rw [ExampleHandler.run, virtual_reads])
  | routerGet =>
    refine text (withPath "<h1>router test get</h1>" c) ?_
    rw [ExampleHandler.run]
    cases hd : c.get env.dataTy with
    | none => exact absurd hd hc.data
    | some v => simp only [hd]; rfl
  | paramsWild =>
    exact replies_ret ((Content.str notFoundRow.body.toList).withStatus 404) rfl (show ∀ e ∈ ([] : List (HeaderName × Str)), Visible e.2 by simp) w
  | _ => exact text _ rfl

/-- **C89**: every request is answered, with 404 or by a page, if it has a host that is visible ASCII; without
one, the pages panic. -/
theorem C89_total_partial {env : ExampleEnv U σ} (hn : LowerNames env.parse) (hi1 : Visits env.i1) (hi2 : Visits env.i2)
    {a : App U σ} (hb : build (exampleProg env) = (a.router, none)) (req : Request U) :
    AnswersOnly (a.serve req) 404 "404 Not Found" ∨
    (HasPageLoosely req ∧
      (∀ host, hostOf req = some host → Visible host → Answered req host (a.serve req)) ∧
      ((∀ host, hostOf req = some host → ¬ Visible host) → PanicsFirst (a.serve req))) := by
  cases hh : handlerFor (build exTable).1 req.method req.path with
  | none => exact .inl ((example_serves hb req).1 hh)
  | some h =>
    obtain ⟨r1, r2⟩ := example_runs hb hh
    refine .inr ⟨has_page hh, fun host hs hv w => ?_, fun hno w => ?_⟩
    · obtain ⟨c, hc, hserve⟩ := r1 host hs hv
      obtain ⟨R, lines, e1, e2⟩ := handler_replies hn hi1 hi2 hc h w
      obtain ⟨m, f1, f2⟩ := finish_response (c := { c with response := some R }) (r := R) rfl e2
      refine ⟨⟨R.status, m, R.body⟩, lines, ?_⟩
      have : ((h.run env c).run w).out = .ok (.ok { c with response := some R }) := by rw [e1]
      rw [hserve]
      simp only [Act.run_print, Act.run_bind_ok this, e1, f1]
      simp [Act.ofPure]
    · obtain ⟨msg, hserve⟩ := r2 hno
      exact ⟨msg, by rw [hserve]; rfl⟩

/-! ### What the example does not do -/

/-- A request with nothing but a method, a path and a host. -/
def bareReq (U : Univ) (path : String) (host : Option String) : Request U :=
  ⟨.get, s path, none, (host.map fun h => (s "host", s h)).toList, Extensions.empty, Body.empty⟩

/-- **C89** does not hold in full: `GET /testradix`, which no page is for, is answered like `/test/radix`; and
`GET /` without a host, as HTTP/2 clients send it, panics. -/
theorem C89_false (env : ExampleEnv U σ) (w : σ) {a : App U σ} (hb : build (exampleProg env) = (a.router, none)) :
    (¬ HasPage (bareReq U "/testradix" (some "h")) ∧
      ¬ AnswersOnly (a.serve (bareReq U "/testradix" (some "h"))) 404 "404 Not Found") ∧
    HasPage (bareReq U "/" none) ∧ PanicsFirst (a.serve (bareReq U "/" none)) ∧
      ¬ ∃ sent, ((a.serve (bareReq U "/" none)).run w).out = .ok sent := by
  have pan : PanicsFirst (a.serve (bareReq U "/" none)) := by
    intro w
    obtain ⟨msg, hs⟩ := (example_runs hb (req := bareReq U "/" none) (h := .root)
      (show handlerFor (build exTable).1 .get (s "/") = some .root by decide +kernel)).2 (fun host hh => nomatch hh)
    exact ⟨msg, by rw [hs]; rfl⟩
  refine ⟨⟨?_, ?_⟩, .inl ⟨(.get, "/"), by decide +kernel, rfl, rfl⟩, pan, ?_⟩
  · have h1 : ¬ ∃ p ∈ pageList, Method.get = p.1 ∧ segments (s "/testradix") = segments p.2.toList := by decide +kernel
    have h2 : ¬ ∃ d ∈ pageDirs, segments d.toList <+: segments (s "/testradix") := by decide +kernel
    rintro (h | ⟨_, h⟩)
    · exact h1 h
    · exact h2 h
  · intro h
    have hv : Visible (s "h") := by decide +kernel
    have ans := row_answers hb (req := bareReq U "/testradix" (some "h")) (host := s "h") rfl hv (h := .testRadix)
      (show handlerFor (build exTable).1 .get (s "/testradix") = some .testRadix by decide +kernel)
      { path := "/test/radix", body := "<h1>Test radix</h1>" } (respondStr "<h1>Test radix</h1>".toList) (fun c _ => rfl) rfl
      (by rw [text_plain rfl]; rfl) rfl (by decide +kernel) (by decide +kernel)
    obtain ⟨_, h1, _⟩ := h w
    obtain ⟨_, h2, _⟩ := ans w
    rw [h2] at h1
    injection h1 with _ _ h3
    exact nomatch h3
  · rintro ⟨sent, h⟩
    obtain ⟨msg, hm⟩ := pan w
    rw [hm] at h
    exact nomatch h

/-! ### The example runs -/

/-- Names as `http` reads them, no files but `assets/a.txt`, maps in order. -/
def demoEnv : ExampleEnv demoU W where
  parse n := some (n.map Char.toLower)
  fs _ name := if name = s "assets/a.txt" then .ok (utf8 (s "text")) else .error (s "no such file")
  repair _ := []
  i1 := forwards
  i2 := backwards
  dataTy := false
  data := s "This is logger data"
  shown id status := id ++ s ", " ++ status

theorem demoEnv_names : LowerNames demoEnv.parse := by unfold LowerNames; decide +kernel

theorem demo_example : ∃ a : App demoU W, build (exampleProg demoEnv) = (a.router, none) := by
  have h := C89_accepted demoEnv
  generalize build (exampleProg demoEnv) = x at h
  obtain ⟨r, e⟩ := x
  exact ⟨⟨r, none⟩, by rw [show e = none from h]⟩

/-- `GET /files/a.txt` reads `assets/a.txt`, `GET /router//test/` is the page of `/router/test`, `GET /nothing`
is 404. -/
example : ∃ a : App demoU W, build (exampleProg demoEnv) = (a.router, none) ∧
    (∃ sent, (a.serve (bareReq demoU "/files/a.txt" (some "h"))).run 3 = ⟨.ok sent, 3, [.debug, .text (s "GET h/files/a.txt")]⟩ ∧
      sent.status = 200 ∧ sent.body.bytes = utf8 (s "text")) ∧
    (∃ sent, (a.serve (bareReq demoU "/router//test/" (some "h"))).run 3 =
        ⟨.ok sent, 3, [.debug, .text (s "GET h/router//test/")]⟩ ∧
      sent.body.bytes = utf8 (s "<h1>router test get</h1><br>/router//test/")) ∧
    AnswersOnly (a.serve (bareReq demoU "/nothing" none)) 404 "404 Not Found" := by
  obtain ⟨a, hb⟩ := demo_example
  have hv : Visible (s "h") := by decide +kernel
  refine ⟨a, hb, ?_, ?_, ?_⟩
  · obtain ⟨sent, lines, h1, _, _, h2, _⟩ := (C89_files_partial hb (req := bareReq demoU "/files/a.txt" (some "h")) rfl rfl hv).2.2
      [s "a.txt"] (show segments (s "/files/a.txt") = _ by decide +kernel) 3
    obtain ⟨h3, h4, h5⟩ := h2 (s "text") (by simp only [demoEnv]; exact if_pos (by decide +kernel))
    subst h5
    exact ⟨sent, h1.trans (by rw [show requestLine (bareReq demoU "/files/a.txt" (some "h")) (s "h") = s "GET h/files/a.txt" by decide +kernel]), h3, h4⟩
  · obtain ⟨sent, h1, _, h2, _⟩ := C89_pages_partial demoEnv_names hb (row := { path := "/router/test", body := "<h1>router test get</h1>", echo := true })
      (by simp [exampleRows]) (req := bareReq demoU "/router//test/" (some "h")) rfl (show segments (s "/router//test/") = segments "/router/test".toList by decide +kernel) rfl hv 3
    exact ⟨sent, h1.trans (by rw [show requestLine (bareReq demoU "/router//test/" (some "h")) (s "h") = s "GET h/router//test/" by decide +kernel]),
      h2.trans (by rw [text_echo rfl]; exact congrArg utf8 (by decide +kernel))⟩
  · refine C89_others_partial hb ?_
    have h1 : ¬ ∃ p ∈ pageList, Method.get = p.1 ∧ flat (segments (s "/nothing")) = flat (segments p.2.toList) := by decide +kernel
    have h2 : ¬ ∃ d ∈ pageDirs, flat (segments d.toList) <+: flat (segments (s "/nothing")) := by decide +kernel
    rintro (h | ⟨_, h⟩)
    · exact h1 h
    · exact h2 h

/-- `GET /user?id=5&status=new` prints both. -/
example : ∃ a : App demoU W, build (exampleProg demoEnv) = (a.router, none) ∧
    ∀ req : Request demoU, req = { bareReq demoU "/user" (some "h") with query := some (s "id=5&status=new") } → ∀ w,
    ∃ sent, (a.serve req).run w = ⟨.ok sent, w, [.debug, .text (s "GET h/user?id=5&status=new"), .text (s "params: 5, new")]⟩ ∧
      sent.status = 200 := by
  obtain ⟨a, hb⟩ := demo_example
  refine ⟨a, hb, ?_⟩
  rintro req rfl w
  have hv : Visible (s "h") := by decide +kernel
  have hq : Asks demoEnv.repair (some (s "id=5&status=new")) [(s "id", s "5"), (s "status", s "new")] :=
    asks_iff.2 (by decide +kernel)
  obtain ⟨sent, lines, h1, h2, h3, _⟩ := C89_user_partial forwards_visits backwards_visits hb
    (req := { bareReq demoU "/user" (some "h") with query := some (s "id=5&status=new") }) rfl
    (show segments (s "/user") = _ by decide +kernel) (host := s "h") rfl hv hq w
  have := h3 (s "5") [] (s "new") [] (by decide +kernel) (by decide +kernel)
  subst this
  exact ⟨sent, h1.trans (by
    rw [show requestLine { bareReq demoU "/user" (some "h") with query := some (s "id=5&status=new") } (s "h") = s "GET h/user?id=5&status=new" by decide +kernel,
      show s "params: " ++ demoEnv.shown (s "5") (s "new") = s "params: 5, new" by decide +kernel]), h2.1⟩

end Obsidian.Props
