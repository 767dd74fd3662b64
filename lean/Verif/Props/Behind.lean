import Verif.Spec.Behind
import Verif.Proofs.Bare
import Verif.Props.Blind
import Verif.Props.ContentType

/-
C83 for single requests: whatever is known about requests that meet no middlewares holds of requests that
meet middlewares that only watch.  With it C42, C58 and C64 hold in applications with a logger.
-/
namespace Obsidian.Props
open Obsidian Spec
variable {U : Univ} {σ : Type}

/-- **C83** for the logger: it only watches, whatever comes after it, if that builds a response or fails. -/
theorem C83_logger_watches : OnlyWatches (logger : Middleware U σ) := fun _ _ h => logger_same h

theorem chain_watched {h : Handler U σ} (hr : ∀ c, Responds (h c)) : ∀ {ms : List (Middleware U σ)},
    (∀ m ∈ ms, OnlyWatches m) → ∀ c, SameEffect (execNext h ms c) (h c)
  | [], _, c => SameEffect.refl _
  | m :: ms, hm, c => by
    have ih := chain_watched hr (ms := ms) fun m h => hm m (List.mem_cons_of_mem _ h)
    have h1 : Responds (execNext h ms c) := fun w c' hc => hr c w c' (by rw [← (ih c w).1]; exact hc)
    exact fun w => ⟨((hm m List.mem_cons_self c _ h1) w).1.trans (ih c w).1, ((hm m List.mem_cons_self c _ h1) w).2.trans (ih c w).2⟩

/-- **C83**, for single requests and any routers: if the middlewares on the way of a request only watch and
its handler builds a response or fails, then there is an application with the same routes, parameters and
state, but no middlewares at all, in which the request has the same outcome and the same effect. So
whatever has been shown of requests that meet no middlewares holds of the request. -/
theorem C83_behind_watchers (a : App U σ) : ∃ a0 : App U σ, a0.appState = a.appState ∧
    (∀ path, (∀ m, handlerFor a0.router m path = handlerFor a.router m path) ∧
      chainFor a0.router path = (chainFor a.router path).map (fun _ => []) ∧
      ∀ x, paramFor a0.router path x = paramFor a.router path x) ∧
    ∀ (req : Request U) {h : Handler U σ} {ms : List (Middleware U σ)},
      handlerFor a.router req.method req.path = some h → (∀ c, Responds (h c)) →
      chainFor a.router req.path = some ms → (∀ m ∈ ms, OnlyWatches m) →
      SameEffect (a.serve req) (a0.serve req) := by
  refine ⟨⟨a.router.bare, a.appState⟩, rfl, fun path => a.router.bare_sees path, ?_⟩
  intro req h ms hh hr hch hm
  obtain ⟨g1, g2, g3⟩ := a.router.bare_sees req.path
  obtain ⟨ch, c, f1, f2, f3⟩ := serve_some hh
  obtain ⟨ch', c', f1', f2', f3'⟩ := serve_some (a := ⟨a.router.bare, a.appState⟩) (req := req) ((g1 _).trans hh)
  rw [hch] at f1; injection f1 with f1; subst f1
  have f1' : chainFor a.router.bare req.path = some ch' := f1'
  rw [g2, hch] at f1'; injection f1' with f1'; subst f1'
  have hcc : c' = c := by
    refine Starts.unique (a := a) ?_ f2
    exact ⟨f2'.method, f2'.path, f2'.query, f2'.headers, f2'.body, fun x => (f2'.params x).trans (g3 x), f2'.response,
      fun t w hw => f2'.state t w hw, fun hn => f2'.noState hn⟩
  subst hcc
  rw [f3, f3']
  exact SameEffect.bind (chain_watched hr hm c') fun r => SameEffect.refl _

/-- An answer that does not depend on what is printed. -/
theorem same_answer {x y : Act σ Sent} (h : SameEffect x y) {w w' : σ} {sent : Sent} {pr : List Line}
    (hy : y.run w = ⟨.ok sent, w', pr⟩) : ∃ pr', x.run w = ⟨.ok sent, w', pr'⟩ := by
  obtain ⟨h1, h2⟩ := h w
  rw [hy] at h1 h2
  refine ⟨(x.run w).printed, ?_⟩
  rw [← show (x.run w).out = .ok sent from h1, ← show (x.run w).world = w' from h2]

theorem build_responds {parse : ParseName} {res : Responder} {os : List BuilderCall}
    (hn : ∀ o ∈ os, ∀ k ∈ o.resp.names, parse k ≠ none) (c : Context U) :
    Responds (buildHandler parse res os c : Act σ (ContextResult U)) := by
  obtain ⟨b, r, e1, e2, _⟩ := C45_builder parse c res os hn
  intro w c' hc
  rw [buildHandler, e1] at hc
  simp only [Except.map, Act.ofPure, Act.run, e2, Except.ok.injEq] at hc
  rw [← hc]; simp

/-- **C58** behind middlewares that only watch, such as the logger of the default application: the client
gets what the handler hands to `ctx.build`. -/
theorem C58_build_behind_watchers {a : App U σ} {req : Request U} {parse : ParseName} {res : Responder}
    {os : List BuilderCall} {ms : List (Middleware U σ)}
    (hh : handlerFor a.router req.method req.path = some (buildHandler parse res os))
    (hch : chainFor a.router req.path = some ms) (hm : ∀ m ∈ ms, OnlyWatches m)
    (hn : ∀ o ∈ os, ∀ k ∈ o.resp.names, parse k ≠ none)
    (hv : ∀ e ∈ (wire res).headers ++ (os.map BuilderCall.resp).flatMap (RespCall.headers parse),
      Visible e.2) (w : σ) :
    ∃ sent pr, (a.serve req).run w = ⟨.ok sent, w, pr⟩ ∧
      sent.status = ((os.map BuilderCall.resp).filterMap RespCall.status).getLast?.getD (wire res).status ∧
      sent.body.bytes = (wire res).body ∧
      ((∀ r, res = .response r → r.body.fails = false) → sent.body.fails = false) ∧
      ∀ k, sent.headers.get k =
        lastValue ((wire res).headers ++ (os.map BuilderCall.resp).flatMap (RespCall.headers parse)) k := by
  obtain ⟨a0, _, h2, h3⟩ := C83_behind_watchers a
  obtain ⟨sent, e1, e⟩ := C58_build_on_the_wire (((h2 _).1 _).trans hh) ((h2 _).2.1.trans (by rw [hch]; rfl)) hn hv w
  obtain ⟨pr, e1⟩ := same_answer (h3 req hh (build_responds hn) hch hm) e1
  exact ⟨sent, pr, e1, e⟩

/-- **C58** for `build_json`, behind middlewares that only watch. -/
theorem C58_json_behind_watchers {a : App U σ} {req : Request U} {parse : ParseName} {encoded : Except Str Str}
    {os : List BuilderCall} {ms : List (Middleware U σ)}
    (hh : handlerFor a.router req.method req.path = some (jsonHandler parse encoded os))
    (hch : chainFor a.router req.path = some ms) (hm : ∀ m ∈ ms, OnlyWatches m)
    (hn : ∀ o ∈ os, ∀ k ∈ o.resp.names, parse k ≠ none)
    (hv : ∀ e ∈ (os.map BuilderCall.resp).flatMap (RespCall.headers parse), Visible e.2) (w : σ) :
    ∃ sent pr, (a.serve req).run w = ⟨.ok sent, w, pr⟩ ∧
      sent.status = ((os.map BuilderCall.resp).filterMap RespCall.status).getLast?.getD (jsonWire encoded).status ∧
      sent.body.bytes = (jsonWire encoded).body ∧ sent.body.fails = false ∧
      ∀ k, sent.headers.get k =
        lastValue ((jsonWire encoded).headers ++ (os.map BuilderCall.resp).flatMap (RespCall.headers parse)) k := by
  obtain ⟨a0, _, h2, h3⟩ := C83_behind_watchers a
  obtain ⟨sent, e1, e⟩ := C58_json_on_the_wire (((h2 _).1 _).trans hh) ((h2 _).2.1.trans (by rw [hch]; rfl)) hn hv w
  rw [jsonHandler_eq] at hh
  obtain ⟨pr, e1⟩ := same_answer (h3 req hh (build_responds hn) hch hm) e1
  exact ⟨sent, pr, e1, e⟩

theorem file_responds {parse : ParseName} {fs : ReadFile σ} {path : Str} {os : List BuilderCall}
    (hn : ∀ o ∈ os, ∀ k ∈ o.resp.names, parse k ≠ none) (c : Context U) : Responds (fileHandler parse fs path os c) := by
  intro w c' hc
  simp only [fileHandler, Context.buildFileAct] at hc
  rw [Act.run_bind] at hc
  generalize hx : (Act.run _ w : Act.Done σ (ResponseBuilder U)) = x at hc
  have key : ∃ r0, x.out = .ok (c.build (.response r0)) := by
    rw [← hx]
    simp only [Response.fileAct, Act.bind, Act.run]
    cases readToString fs w path with
    | ok t => exact ⟨_, rfl⟩
    | error e => exact ⟨_, rfl⟩
  obtain ⟨r0, hr0⟩ := key
  rw [hr0] at hc
  obtain ⟨b, r, e1, e2, _⟩ := C45_builder parse c (.response r0) os hn
  simp only [e1, Except.map, Act.ofPure, Act.run, e2, Except.ok.injEq] at hc
  rw [← hc]; simp

/-- **C58** for `build_file`, behind middlewares that only watch. (For text files; see C57.) -/
theorem C58_file_behind_watchers {a : App U σ} {req : Request U} {parse : ParseName} {fs : ReadFile σ} {path : Str}
    {os : List BuilderCall} {ms : List (Middleware U σ)}
    (hh : handlerFor a.router req.method req.path = some (fileHandler parse fs path os))
    (hch : chainFor a.router req.path = some ms) (hm : ∀ m ∈ ms, OnlyWatches m)
    (hn : ∀ o ∈ os, ∀ k ∈ o.resp.names, parse k ≠ none)
    (hv : ∀ e ∈ (os.map BuilderCall.resp).flatMap (RespCall.headers parse), Visible e.2) (w : σ)
    (ht : IsText (fs w path)) :
    ∃ sent pr, (a.serve req).run w = ⟨.ok sent, w, pr⟩ ∧
      sent.status = ((os.map BuilderCall.resp).filterMap RespCall.status).getLast?.getD (fileWire (fs w path)).status ∧
      sent.body.bytes = (fileWire (fs w path)).body ∧ sent.body.fails = false ∧
      ∀ k, sent.headers.get k =
        lastValue ((os.map BuilderCall.resp).flatMap (RespCall.headers parse)) k := by
  obtain ⟨a0, _, h2, h3⟩ := C83_behind_watchers a
  obtain ⟨sent, e1, e⟩ := C58_file_on_the_wire (((h2 _).1 _).trans hh) ((h2 _).2.1.trans (by rw [hch]; rfl)) hn hv w ht
  obtain ⟨pr, e1⟩ := same_answer (h3 req hh (file_responds hn) hch hm) e1
  exact ⟨sent, pr, e1, e⟩

/-- **C64, what holds**, behind middlewares that only watch: the answer has a content type if the handler hands
a text to `ctx.build`, if it uses `ctx.build_json`, or if one of the calls of the builder sets it. Missing: other
values without such a call, where the claim is false; other middlewares, which may build any response. -/
theorem C64_behind_watchers_partial {a : App U σ} {req : Request U} {parse : ParseName} {res : Responder}
    {encoded : Except Str Str} {os : List BuilderCall} {h : Handler U σ} {ms : List (Middleware U σ)}
    (hh : handlerFor a.router req.method req.path = some h)
    (hd : h = jsonHandler parse encoded os ∨ h = buildHandler parse res os ∧
      (KnowsType res ∨ ∃ v, (s "content-type", v) ∈ (os.map BuilderCall.resp).flatMap (RespCall.headers parse)))
    (hch : chainFor a.router req.path = some ms) (hm : ∀ m ∈ ms, OnlyWatches m)
    (hn : ∀ o ∈ os, ∀ k ∈ o.resp.names, parse k ≠ none)
    (hv : ∀ e ∈ (wire res).headers ++ (os.map BuilderCall.resp).flatMap (RespCall.headers parse),
      Visible e.2) (w : σ) :
    ∃ sent v pr, (a.serve req).run w = ⟨.ok sent, w, pr⟩ ∧ sent.headers.get (s "content-type") = some v := by
  obtain ⟨a0, _, h2, h3⟩ := C83_behind_watchers a
  obtain ⟨sent, v, e1, e⟩ := C64_typed_partial (((h2 _).1 _).trans hh) hd ((h2 _).2.1.trans (by rw [hch]; rfl)) hn hv w
  have hr : ∀ c, Responds (h c) := by
    rcases hd with rfl | ⟨rfl, _⟩
    · rw [jsonHandler_eq]; exact build_responds hn
    · exact build_responds hn
  obtain ⟨pr, e1⟩ := same_answer (h3 req hh hr hch hm) e1
  exact ⟨sent, v, pr, e1, e⟩

/-- **C42** for `use_static_to`, behind middlewares that only watch: a GET request whose path is the virtual
path followed by `x1, …, xn` is answered with the file `d/x1/…/xn`, unless another registered path claims
it (as for any wildcard, see C03). -/
theorem C42_behind_watchers {prog : List (Reg (Middleware U σ) (Handler U σ))} (hc : CleanRegs prog) {a : App U σ}
    (hb : build prog = (a.router, none)) (hsm : NoStarMount (logOf prog)) (fs : ReadFile σ) (v d : Str)
    (he : .useStaticTo fs v d ∈ prog) (hroot : NoRootMount prog) (hns : NoStar (segments v))
    {req : Request U} {r0 : List Str} {x : Str} {xs : List Str} {b : List (Str × Str)}
    (hmeth : req.method = .get) (hma : Matches (segments v) r0 b) (hp : segments req.path = r0 ++ x :: xs)
    {ms : List (Middleware U σ)} (hch : chainFor a.router req.path = some ms) (hm : ∀ m ∈ ms, OnlyWatches m) (w : σ)
    (ht : IsText (fs w (pathOf (segments d ++ x :: xs)))) :
    (∃ sent pr, (a.serve req).run w = ⟨.ok sent, w, pr⟩ ∧
      FileAnswer (fs w (pathOf (segments d ++ x :: xs))) sent) ∨
    ∃ e ∈ logOf prog, e.what ≠ .nothing ∧ flat (segments v ++ [x]) <+: flat e.segs ∧
      (∃ b', FlatMatch e.segs (segments req.path) b') ∧
      ∀ m', handlerFor a.router m' req.path = routeAt (logOf prog) (flat e.segs) m' := by
  have he' : (⟨segments v ++ [['*']], .route .get (staticVirtualFileHandler fs v d)⟩ : Entry _ _) ∈ logOf prog := by
    have := mem_logOf_get hroot he
    rwa [segments_star] at this
  have hlen : r0.length = (segments v).length := matches_length hma hns
  have hf : ∀ c : Context U, c.request.path = req.path → staticVirtualFileHandler fs v d c =
      (Response.ok.fileAct fs (pathOf (segments d ++ x :: xs))).bind fun r => .ret (c.build (.response r)).ok := by
    intro c h
    rw [virtual_reads, h, hp, ← hlen, List.drop_left]
  have hr : ∀ c : Context U, Responds (staticVirtualFileHandler fs v d c) := by
    intro c w c' hc'
    obtain ⟨_, pr, r, h1, _⟩ := C42_handler fs v d c w
    rw [h1] at hc'
    simp only [Except.ok.injEq] at hc'
    rw [← hc']; simp
  obtain ⟨_, ⟨h1, _⟩ | h1⟩ := C03_wildcard_catches hc hb hsm he' hma hns hp
  · refine .inl ?_
    have hh : handlerFor a.router req.method req.path = some (staticVirtualFileHandler fs v d) := by rw [hmeth]; exact h1
    obtain ⟨a0, _, h2, h3⟩ := C83_behind_watchers a
    obtain ⟨sent, pr, e1, e⟩ := serve_file (((h2 _).1 _).trans hh) ((h2 _).2.1.trans (by rw [hch]; rfl)) hf w
    obtain ⟨pr, e1⟩ := same_answer (h3 req hh hr hch hm) e1
    rw [served_text ht] at e
    exact ⟨sent, pr, e1, e⟩
  · exact .inr h1

/-! ### Examples -/

/-- A default application with one route. -/
def defaultWith (h : Handler demoU σ) : App demoU σ := ⟨(build [.useService logger, .get (s "/bye") h]).1, none⟩

theorem defaultWith_sees (h : Handler demoU σ) : handlerFor (defaultWith h).router .get (s "/bye") = some h ∧
    chainFor (defaultWith h).router (s "/bye") = some [logger] := by
  obtain ⟨_, e⟩ := C82_renamed (fun _ : Nat => (logger : Middleware demoU σ)) (fun _ : Nat => h)
    [.useService 0, .get (s "/bye") 0]
  obtain ⟨_, h1, h2, _⟩ := e (s "/bye")
  have h1 := h1 .get
  rw [show handlerFor (build ([.useService 0, .get (s "/bye") 0] : List (Reg Nat Nat))).1 .get (s "/bye") = some 0 by decide +kernel] at h1
  rw [show chainFor (build ([.useService 0, .get (s "/bye") 0] : List (Reg Nat Nat))).1 (s "/bye") = some [0] by decide +kernel] at h2
  exact ⟨h1, h2⟩

/-- The logger prints, and the client gets the same answer as without it. -/
example : ∃ sent pr, ((defaultWith goneHandler).serve (demoReq .get "/bye")).run 7 = ⟨.ok sent, 7, pr⟩ ∧
    sent.status = 410 ∧ sent.body.bytes = utf8 (s "bye") ∧ sent.headers.get (s "content-type") = some (s "text/csv") := by
  obtain ⟨sent, pr, e1, e2, e3, _, e4⟩ := C58_build_behind_watchers (a := defaultWith goneHandler) (req := demoReq .get "/bye")
    (defaultWith_sees goneHandler).1 (defaultWith_sees goneHandler).2 (by simp [C83_logger_watches]) (by intro o _ k _; simp [lowerNames]) (by decide +kernel) 7
  refine ⟨sent, pr, e1, ?_, e3, ?_⟩
  · rw [e2]; decide +kernel
  · rw [e4]; decide +kernel

example : ∃ sent pr, ((defaultWith (jsonHandler lowerNames (.ok (s "[1]")) [.withStatus 201])).serve (demoReq .get "/bye")).run (7 : W) = ⟨.ok sent, 7, pr⟩ ∧
    sent.status = 201 ∧ sent.body.bytes = utf8 (s "[1]") ∧ sent.headers.get (s "content-type") = some (s "application/json") := by
  obtain ⟨sent, pr, e1, e2, e3, _, e4⟩ := C58_json_behind_watchers (req := demoReq .get "/bye")
    (defaultWith_sees (jsonHandler lowerNames (.ok (s "[1]")) [.withStatus 201])).1 (defaultWith_sees _).2 (by simp [C83_logger_watches])
    (by intro o _ k _; simp [lowerNames]) (by decide +kernel) (7 : W)
  exact ⟨sent, pr, e1, e2.trans (by decide +kernel), e3, (e4 _).trans (by decide +kernel)⟩

example : ∃ sent pr, ((defaultWith (fileHandler lowerNames readFiles (s "a.txt") [])).serve (demoReq .get "/bye")).run [(s "a.txt", utf8 (s "hi"))] =
      ⟨.ok sent, [(s "a.txt", utf8 (s "hi"))], pr⟩ ∧ sent.status = 200 ∧ sent.body.bytes = utf8 (s "hi") := by
  have hf : readFiles [(s "a.txt", utf8 (s "hi"))] (s "a.txt") = .ok (utf8 (s "hi")) := by rw [readFiles]; simp
  obtain ⟨sent, pr, e1, e2, e3, _⟩ := C58_file_behind_watchers (req := demoReq .get "/bye")
    (defaultWith_sees (fileHandler lowerNames readFiles (s "a.txt") [])).1 (defaultWith_sees _).2 (by simp [C83_logger_watches])
    (by simp) (by simp) [(s "a.txt", utf8 (s "hi"))] (by rw [hf]; intro b hb; injection hb with hb; exact ⟨_, hb⟩)
  rw [hf] at e2 e3
  exact ⟨sent, pr, e1, e2, e3⟩

example : ∃ sent v pr, ((defaultWith goneHandler).serve (demoReq .get "/bye")).run 7 = ⟨.ok sent, 7, pr⟩ ∧
    sent.headers.get (s "content-type") = some v :=
  C64_behind_watchers_partial (req := demoReq .get "/bye") (res := .str (s "bye")) (encoded := .ok []) (defaultWith_sees goneHandler).1 (.inr ⟨rfl, .inl trivial⟩) (defaultWith_sees _).2
    (by simp [C83_logger_watches]) (by intro o _ k _; simp [lowerNames]) (by decide +kernel) 7

/-- The static directory of the examples in a default application. -/
def defaultStatic : List (Reg (Middleware demoU Files) (Handler demoU Files)) :=
  [.useService logger, .useStaticTo readFiles (s "/static") (s "public/assets")]

theorem defaultStatic_ok : (build defaultStatic).2 = none := by decide +kernel

theorem defaultStatic_chain : chainFor (appOf defaultStatic_ok).router (s "/static/css/site.css") = some [logger] := by
  obtain ⟨_, e⟩ := C82_renamed (fun _ : Nat => (logger : Middleware demoU Files))
    (fun _ : Nat => (staticVirtualFileHandler readFiles (s "/static") (s "public/assets") : Handler demoU Files)) [.useService 0, .get (s "/static/*") 0]
  obtain ⟨_, _, h2, _⟩ := e (s "/static/css/site.css")
  rw [show chainFor (build ([.useService 0, .get (s "/static/*") 0] : List (Reg Nat Nat))).1 (s "/static/css/site.css") = some [0] by decide +kernel] at h2
  have e : mapCalls (fun _ : Nat => (logger : Middleware demoU Files))
      (fun _ : Nat => (staticVirtualFileHandler readFiles (s "/static") (s "public/assets") : Handler demoU Files))
      [.useService 0, .get (s "/static/*") 0] = defaultStatic := rfl
  rw [appOf_router, ← e]
  exact h2

example : ∃ sent pr, ((appOf defaultStatic_ok).serve (fileReq "/static/css/site.css")).run
      [(s "public/assets/css/site.css", utf8 (s "body {}"))] =
        ⟨.ok sent, [(s "public/assets/css/site.css", utf8 (s "body {}"))], pr⟩ ∧
    sent.status = 200 ∧ sent.body.bytes = utf8 (s "body {}") := by
  have hl : logOf defaultStatic = [⟨[], .middleware logger⟩,
      ⟨[s "static", s "*"], .route .get (staticVirtualFileHandler readFiles (s "/static") (s "public/assets"))⟩] := by
    simp only [defaultStatic, logOf]; rfl
  have hf : readFiles [(s "public/assets/css/site.css", utf8 (s "body {}"))]
      (pathOf (segments (s "public/assets") ++ s "css" :: [s "site.css"])) = .ok (utf8 (s "body {}")) := by
    have : pathOf (segments (s "public/assets") ++ s "css" :: [s "site.css"]) = s "public/assets/css/site.css" := by
      decide +kernel
    rw [this, readFiles]; simp
  rcases C42_behind_watchers (prog := defaultStatic) (by simp only [defaultStatic, Reg.useStaticTo, CleanRegs, CleanReg, and_true, true_and]; decide +kernel)
      (build_eq defaultStatic_ok) (by
        rw [hl]; intro e he pre post hs
        simp only [List.mem_cons, List.not_mem_nil, or_false] at he
        rcases he with rfl | rfl
        · simp at hs
        · refine ⟨?_, by simp⟩
          rcases pre with _ | ⟨a, _ | ⟨b, pre⟩⟩ <;> simp [s] at hs
          exact hs.2)
      readFiles (s "/static") (s "public/assets") (by simp [defaultStatic]) (by simp [NoRootMount, defaultStatic, Reg.useStaticTo]) (by decide +kernel)
      (req := fileReq "/static/css/site.css") rfl static_static (x := s "css") (xs := [s "site.css"]) (by decide +kernel) defaultStatic_chain
      (by simp [C83_logger_watches]) [(s "public/assets/css/site.css", utf8 (s "body {}"))]
      (by rw [hf]; intro b hb; injection hb with hb; exact ⟨_, hb⟩) with ⟨sent, pr, h1, h2⟩ | ⟨e, he, _, hpre, _⟩
  · rw [hf] at h2; exact ⟨sent, pr, h1, h2.2.2⟩
  · rw [hl] at he
    simp only [List.mem_cons, List.not_mem_nil, or_false] at he
    rcases he with rfl | rfl <;> exact absurd hpre (by decide +kernel)

example : ∃ a0 : App demoU W, chainFor a0.router (s "/bye") = some [] ∧
    SameEffect ((defaultWith goneHandler).serve (demoReq .get "/bye")) (a0.serve (demoReq .get "/bye")) := by
  obtain ⟨a0, _, h2, h3⟩ := C83_behind_watchers (defaultWith goneHandler)
  exact ⟨a0, (h2 _).2.1.trans (by rw [(defaultWith_sees goneHandler).2]; rfl),
    h3 _ (defaultWith_sees goneHandler).1 (build_responds (by intro o _ k _; simp [lowerNames])) (defaultWith_sees goneHandler).2 (by simp [C83_logger_watches])⟩

/-- A middleware that counts requests does not only watch: the world is part of the effect. -/
example : ¬ OnlyWatches (fun c next => .step (· + 1) fun _ => next c : Middleware demoU W) := by
  intro h
  have := (h ⟨demoReq .get "/", fun _ => none, some Response.ok⟩ (fun c => .ret (.ok c)) (by
    intro w c hc; simp only [Act.run, Except.ok.injEq] at hc; rw [← hc]; simp) 0).2
  simp [Act.run] at this

end Obsidian.Props
