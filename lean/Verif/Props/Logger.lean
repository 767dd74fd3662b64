import Verif.Spec.Answers
import Verif.Props.Chain
import Verif.Props.Middleware
import Verif.Proofs.First

/- C31: the logger. -/
namespace Obsidian.Props
open Obsidian Spec
variable {U : Univ} {σ : Type}

theorem SameEffect.refl {α : Type} (x : Act σ α) : SameEffect x x := fun _ => ⟨rfl, rfl⟩

theorem SameEffect.bind {α β : Type} {x y : Act σ α} {f g : α → Act σ β} (h : SameEffect x y)
    (hf : ∀ a, SameEffect (f a) (g a)) : SameEffect (x.bind f) (y.bind g) := by
  intro w
  obtain ⟨h1, h2⟩ := h w
  rw [Act.run_bind, Act.run_bind, ← h1]
  cases (x.run w).out with
  | error e => exact ⟨rfl, h2⟩
  | ok a =>
    simp only
    rw [← h2]
    exact hf a _

theorem logger_same {c : Context U} {next : Context U → Act σ (ContextResult U)}
    (h : Responds (next c)) : SameEffect (logger c next) (next c) := by
  intro w
  simp only [logger, Act.run_print]
  rw [Act.run_bind]
  cases ho : ((next c).run w).out with
  | error e => exact ⟨rfl, rfl⟩
  | ok r =>
    cases r with
    | error e => exact ⟨rfl, rfl⟩
    | ok c' =>
      have := h w c' ho
      simp only
      cases hr : c'.response with
      | none => exact absurd hr this
      | some r => exact ⟨rfl, rfl⟩

/-- **C31 fails**: with the logger, a handler that returns the context without having built a response
makes the request panic; without the logger the request is answered with 200. -/
theorem C31_false : ∃ (h : Handler demoU W) (c : Context demoU),
    ((execNext h [] c).run 0).out = .ok (.ok c) ∧
    (∃ sent, finish (.ok c) = .ok sent ∧ sent.status = 200) ∧
    ((execNext h [logger] c).run 0).out = .error .noResponse :=
  ⟨silentHandler, ⟨⟨.get, [], none, [], Extensions.empty, Body.empty⟩, fun _ => none, none⟩, rfl,
    ⟨_, rfl, rfl⟩, rfl⟩

/-- **C31, what holds**, for a logger anywhere in a chain: if what comes after the logger always builds
a response (or fails), leaving out the logger changes neither the outcome nor the effect on the world.
The middlewares before the logger use the rest of the chain at most once; the ones after it are
arbitrary. Missing: handlers that build no response, where the claim is false. -/
theorem C31_logger_transparent_partial (h : Handler U σ) (pre : List (Link U σ))
    (post : List (Middleware U σ)) (hr : ∀ c, Responds (execNext h post c)) (c : Context U) :
    SameEffect (execNext h (pre.map Link.mw ++ logger :: post) c)
      (execNext h (pre.map Link.mw ++ post) c) := by
  induction pre generalizing c with
  | nil => exact logger_same (hr c)
  | cons l pre ih =>
    simp only [List.map_cons, List.cons_append, execNext, mw_link]
    refine SameEffect.bind (SameEffect.refl _) fun d => ?_
    cases d with
    | answer r => exact SameEffect.refl _
    | forward c' after => exact SameEffect.bind (ih c') fun r => SameEffect.refl _

example (c : Context demoU) (w : W) :
    (((execNext (sayHandler 1 "hi") ([(⟨fun c => .step (· + 3) fun _ => .ret (.forward c .ret)⟩ : Link demoU W)].map
      Link.mw ++ logger :: [tickMiddleware 7]) c).run w).world) = (w + 3 + 7 + 1) * 2 := by
  rw [(C31_logger_transparent_partial (sayHandler 1 "hi") _ [tickMiddleware 7] _ c w).2]
  · rfl
  · intro c w c' h
    simp [execNext, tickMiddleware, sayHandler, ResponseBuilder.ok, Context.build] at h
    subst h; simp

/-! ### The logger of `App::default` -/

/-- Adding a global middleware as the first call changes the routing in no way, and puts it in front
of every chain. -/
theorem global_first {M H : Type} {m : M} {prog : List (Reg M H)} {r r' : Router M H}
    (hn : NoRootMount prog) (hb : build prog = (r, none))
    (hb' : build (.useService m :: prog) = (r', none)) (path : Str) :
    (∀ meth, handlerFor r' meth path = handlerFor r meth path) ∧
    (∀ meth h, handlerFor r meth path = some h →
      (∀ x, paramFor r' path x = paramFor r path x) ∧
      ∃ c, chainFor r path = some c ∧ chainFor r' path = some (m :: c)) := by
  have hb : runRegs prog Router.new = (r, none) := hb
  have hb' : runRegs prog (Router.new.useService m) = (r', none) := by rw [build, runRegs] at hb'; exact hb'
  have h0 : Node.Ahead m (Router.new : Router M H).routes.head (Router.new.useService m).routes.head :=
    ⟨rfl, fun _ => rfl, fun _ h => nomatch h⟩
  have ha := h0.calls hn (by rw [hb]) (by rw [hb'])
  rw [hb, hb'] at ha
  obtain ⟨h1, h2⟩ := ha.search path
  unfold handlerFor paramFor chainFor
  cases hs : r.searchRoute path with
  | panic p =>
    rw [hs] at h2
    cases hs' : r'.searchRoute path with
    | panic p => simp
    | ok o =>
      cases o with
      | none => simp
      | some v => simp [h2 (by simp) v hs']
  | ok o =>
    cases o with
    | some v => rw [h1 v hs]; simp [RouteValueResult.getRoute, RouteValueResult.getMiddlewares, RouteValueResult.getParams]
    | none =>
      rw [hs] at h2
      cases hs' : r'.searchRoute path with
      | panic p => simp
      | ok o =>
        cases o with
        | none => simp
        | some v => simp [h2 (by simp) v hs']

/-- **C31, what holds**, for applications: an application started with `App::default()` answers every
request like the one started with `App::new()` and given the same calls, with the same effects, if the
chain of the request always builds a response or fails. Missing: chains that build no response (where
it is false), and programs that mount a router at the root, which throws away the logger. -/
theorem C31_default_app_partial {prog : List (Reg (Middleware U σ) (Handler U σ))}
    (hn : NoRootMount prog) {a a' : App U σ} (hb : runRegs prog (App.new : App U σ).router = (a.router, none))
    (hb' : runRegs prog (App.default : App U σ).router = (a'.router, none))
    (hs : a'.appState = a.appState) (req : Request U)
    (hr : ∀ x, ServedBy a req x → Responds x) : SameEffect (a'.serve req) (a.serve req) := by
  obtain ⟨h1, h2⟩ := global_first (m := logger) (prog := prog) hn hb
    (by rw [build, runRegs]; exact hb') req.path
  cases hh : handlerFor a.router req.method req.path with
  | none =>
    rw [serve_none hh, serve_none (by rw [h1, hh])]
    exact SameEffect.refl _
  | some h =>
    obtain ⟨hp, ch, hch, hch'⟩ := h2 req.method h hh
    obtain ⟨c1, ctx, e1, e2, e3⟩ := serve_some hh
    obtain ⟨c1', ctx', e1', e2', e3'⟩ := serve_some (a := a') (by rw [h1, hh])
    rw [hch] at e1; injection e1 with e1; subst e1
    rw [hch'] at e1'; injection e1' with e1'; subst e1'
    have hctx : ctx' = ctx := (e2'.congr hp hs).unique e2
    rw [e3, e3', hctx]
    refine SameEffect.bind ?_ (fun r => SameEffect.refl _)
    exact logger_same (hr _ ⟨h, _, ctx, hh, hch, e2, rfl⟩)

/-- The example application with the logger. -/
def demoLogApp : App demoU W := ⟨(runRegs demoAppProg (App.default : App demoU W).router).1, none⟩

example (w : W) : ∃ sent, ((demoLogApp.serve (demoReq .get "/hello")).run w).out = .ok sent ∧
    ((demoLogApp.serve (demoReq .get "/hello")).run w).world = (w + 5 + 1) * 2 := by
  have he : (⟨[s "hello"], .route .get (sayHandler 1 "hi")⟩ : Entry _ _) ∈
      logOf demoAppProg := by rw [demoAppProg_log]; simp
  have hp : segments (s "/hello") = [s "hello"] := by decide +kernel
  have hh := demoApp_handler he (by decide +kernel) hp
  have := C31_default_app_partial (prog := demoAppProg) (a := demoApp) (a' := demoLogApp)
    (by
      intro c hc p sub h
      simp only [demoAppProg, List.mem_cons, List.not_mem_nil, or_false] at hc
      rcases hc with rfl | rfl | rfl | rfl | rfl <;> simp at h)
    (by rw [demoApp_router]; exact demoAppProg_build)
    (Prod.ext (by rw [demoLogApp]) (by decide +kernel)) rfl (demoReq .get "/hello") (by
      intro x hx
      obtain ⟨c, _, rfl⟩ := demoApp_served (req := demoReq .get "/hello") he (by decide +kernel) hp hx
      intro w c' h
      simp [execNext, tickMiddleware, sayHandler, ResponseBuilder.ok, Context.build] at h
      subst h; simp)
  obtain ⟨h1, h2⟩ := this w
  rw [h1, h2]
  obtain ⟨x, hx, h3⟩ := C29_built_response_is_sent demoApp (demoReq .get "/hello") hh
  obtain ⟨c, _, rfl⟩ := demoApp_served (req := demoReq .get "/hello") he (by decide +kernel) hp hx
  obtain ⟨sent, h4⟩ := ((h3 w _ rfl).1 (respondStr (s "hi")) rfl).2 (by decide +kernel)
  rw [h4]
  exact ⟨sent, rfl, rfl⟩

end Obsidian.Props
