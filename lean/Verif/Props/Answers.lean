import Verif.Props.Slashes
import Verif.Props.Order
import Verif.Props.Mount
import Verif.Props.AppCommon

/- C06, C07 and C18 for the answers of whole applications. -/
namespace Obsidian.Props
open Obsidian Spec
variable {U : Univ} {σ : Type}

/-- **C06** for applications: respelling the paths of the registrations changes no answer and no effect
of serving a request. -/
theorem C06_answers {prog prog' : List (Reg (Middleware U σ) (Handler U σ))} (h : RespelledAll prog prog')
    {a a' : App U σ} (hb : build prog = (a.router, none)) (hb' : build prog' = (a'.router, none))
    (hs : a.appState = a'.appState) (req : Request U) : a.serve req = a'.serve req := by
  have := (C06_programs h).1
  rw [hb, hb'] at this
  obtain ⟨r, st⟩ := a
  obtain ⟨r', st'⟩ := a'
  simp only at this hs
  rw [this, hs]

/-- **C06** for requests: a request whose path is spelled differently runs the same handler inside the
same middlewares with the same parameters; its chain starts in a context that differs in the path only. -/
theorem C06_same_chain {a : App U σ} {req : Request U} {p : Str} (h : segments p = segments req.path)
    {x : Act σ (ContextResult U)} (hx : ServedBy a { req with path := p } x) :
    ∃ hd chain c, Starts a req c ∧ ServedBy a req (execNext hd chain c) ∧
      x = execNext hd chain { c with request := { c.request with path := p } } := by
  obtain ⟨hd, chain, c, h1, h2, h3, h4⟩ := hx
  have hr := C06_request h a.router
  simp only [handlerFor, chainFor, hr] at h1 h2
  have hst : Starts a req { c with request := { c.request with path := req.path } } := by
    refine ⟨h3.method, rfl, h3.query, h3.headers, h3.body, fun y => ?_, h3.response, h3.state, h3.noState⟩
    have := h3.params y
    simp only [paramFor, hr] at this ⊢
    exact this
  refine ⟨hd, chain, _, hst, ⟨hd, chain, _, h1, h2, hst, rfl⟩, ?_⟩
  rw [h4]
  have : c.request.path = p := h3.path
  obtain ⟨⟨_, _, _, _, _, _⟩, _, _⟩ := c
  simp only at this
  subst this
  rfl

/-- **C07** for applications: reordering the registrations changes no answer and no effect. -/
theorem C07_answers {prog prog' : List (Reg (Middleware U σ) (Handler U σ))} (hc : CleanRegs prog)
    (hm : ∀ c ∈ prog, NotMount c) (hp : prog.Perm prog') (hmw : prog.filter isMw = prog'.filter isMw)
    {a a' : App U σ} (hb : build prog = (a.router, none)) (hb' : build prog' = (a'.router, none))
    (hs : a.appState = a'.appState) (req : Request U) : a.serve req = a'.serve req :=
  serve_congr ((C07_order_irrelevant hc hm hp hmw).2 _ _ hb hb' req.path) hs

/-- **C18** for applications: mounting a router and making its registrations with the path in front
give the same application, and so the same answers and effects. -/
theorem C18_answers {pre post sub : List (Reg (Middleware U σ) (Handler U σ))}
    {c : Reg (Middleware U σ) (Handler U σ)} {p : Str} (hm : IsMount c p sub)
    {a a' : App U σ} (hb : build (pre ++ c :: post) = (a.router, none)) (h0 : segments p ≠ [])
    (hs : NoStar (segments p)) (hsub : sub ≠ []) (hrm : NoRootMount sub) (hmw : NoRootMw sub)
    (hb' : build (pre ++ sub.map (prefixReg p) ++ post) = (a'.router, none)) (hst : a'.appState = a.appState)
    (req : Request U) : a.serve req = a'.serve req := by
  rw [C18_mount_is_prefixing hm hb h0 hs hsub hrm hmw] at hb'
  obtain ⟨r, st⟩ := a
  obtain ⟨r', st'⟩ := a'
  simp only [Prod.mk.injEq, and_true] at hb' hst
  rw [hb', hst]

/-! ### Examples -/

/-- The example application with other spellings of the paths. -/
def respelledProg : List (Reg (Middleware demoU W) (Handler demoU W)) :=
  [.useService (tickMiddleware 5), .get (s "hello/") (sayHandler 1 "hi"),
   .post (s "//items//:id") (sayHandler 2 "made"), .get (s "fail") (failHandler (.generalError (s "oops"))),
   .get (s "/silent//") silentHandler]

theorem respelledProg_ok : (build respelledProg).2 = none := by decide +kernel

example (req : Request demoU) :
    demoApp.serve req = (appOf respelledProg_ok).serve req := by
  refine C06_answers (prog := demoAppProg) (prog' := respelledProg) ?_ ?_ (appOf_build respelledProg_ok) (by rw [appOf_state, demoApp]) req
  · simp only [demoAppProg, respelledProg, RespelledAll, Respelled]; decide +kernel
  · rw [demoApp_router]; exact demoAppProg_build

/-- The example application with its registrations in another order. -/
def reorderedProg : List (Reg (Middleware demoU W) (Handler demoU W)) :=
  [.get (s "/silent") silentHandler, .get (s "/fail") (failHandler (.generalError (s "oops"))),
   .post (s "/items/:id") (sayHandler 2 "made"), .get (s "/hello") (sayHandler 1 "hi"),
   .useService (tickMiddleware 5)]

theorem reorderedProg_ok : (build reorderedProg).2 = none := by decide +kernel

example (req : Request demoU) :
    demoApp.serve req = (appOf reorderedProg_ok).serve req := by
  refine C07_answers (prog := demoAppProg) (prog' := reorderedProg) demoAppProg_clean ?_ ?_ ?_ ?_
    (appOf_build reorderedProg_ok) (by rw [appOf_state, demoApp]) req
  · intro c hc; simp only [demoAppProg, List.mem_cons, List.not_mem_nil, or_false] at hc
    rcases hc with rfl | rfl | rfl | rfl | rfl <;> simp [NotMount]
  · exact (by
      have : demoAppProg = reorderedProg.reverse := by
        simp only [demoAppProg, reorderedProg, List.reverse_cons, List.reverse_nil, List.nil_append, List.cons_append]
      rw [this]; exact List.reverse_perm reorderedProg)
  · rfl
  · rw [demoApp_router]; exact demoAppProg_build

/-- The example application, mounted at `/v1`. -/
def mountedProg : List (Reg (Middleware demoU W) (Handler demoU W)) :=
  [.get (s "/hello") (sayHandler 7 "outer")] ++ .useRouter (s "/v1") demoAppProg :: []

theorem mountedProg_ok : (build mountedProg).2 = none := by decide +kernel

example {a' : App demoU W} (h : build ([.get (s "/hello") (sayHandler 7 "outer")] ++
      demoAppProg.map (prefixReg (s "/v1")) ++ []) = (a'.router, none))
    (hst : a'.appState = (appOf mountedProg_ok).appState) (req : Request demoU) :
    (appOf mountedProg_ok).serve req = a'.serve req :=
  C18_answers (pre := [.get (s "/hello") (sayHandler 7 "outer")]) (post := [])
    (sub := demoAppProg) (p := s "/v1") (.inl rfl)
    (a := appOf mountedProg_ok) (appOf_build mountedProg_ok) (by decide +kernel) (by decide +kernel)
    (by simp only [demoAppProg]; exact List.cons_ne_nil _ _) (by
      intro c hc p sub h
      simp only [demoAppProg, List.mem_cons, List.not_mem_nil, or_false] at hc
      rcases hc with rfl | rfl | rfl | rfl | rfl <;> simp at h) (by
      intro p m h
      simp only [demoAppProg, List.mem_cons, List.not_mem_nil, or_false] at h
      rcases h with h | h | h | h | h <;> exact nomatch h) h hst req

end Obsidian.Props
