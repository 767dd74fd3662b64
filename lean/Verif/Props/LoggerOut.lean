import Verif.Props.Logger
import Verif.Props.Solo
import Verif.Spec.Log

/- C59: what the logger prints. -/
namespace Obsidian.Props
open Obsidian Spec
variable {U : Univ} {σ : Type}

theorem methodText_eq (m : Method) : methodText m = (methodName m).toList := by
  cases m with
  | extension n => exact (String.toList_ofList (l := n)).symm
  | _ => rfl

theorem uriText_eq (r : Request U) : uriText r = target r := by
  rw [uriText, target]
  cases r.query <;> simp

/-- The output of the logger around any computation. -/
theorem logger_prints {c : Context U} {next : Context U → Act σ (ContextResult U)} {w : σ} {sent : Sent}
    (h : (((logger c next).bind fun r => .ofPure (finish r)).run w).out = .ok sent) :
    Reported c.request sent (((next c).bind fun r => .ofPure (finish r)).run w).printed
      (((logger c next).bind fun r => .ofPure (finish r)).run w).printed := by
  have hl : (logger c next).bind (fun r => .ofPure (finish r)) =
      .print (.request (methodText c.request.method) (uriText c.request)) (.print .debug
        ((next c).bind fun r => ((match r with
          | .ok after =>
            match after.response with
            | some r => .print (.sent r.status) (.ret (.ok after))
            | none => .panic .noResponse
          | .error e => .print (.error e.text) (.ret (.error e))) : Act σ (ContextResult U)).bind fun r => .ofPure (finish r))) := by
    rw [logger]; simp only [Act.print_bind, Act.bind_assoc]
    rfl
  rw [hl] at h ⊢
  simp only [Act.run_print] at h ⊢
  cases ho : ((next c).run w).out with
  | error e => rw [Act.run_bind_error ho] at h; exact nomatch h
  | ok r =>
    rw [run_finish ho]
    rw [Act.run_bind_ok ho] at h ⊢
    cases r with
    | error e =>
      simp only [Act.print_bind, Act.ret_bind, finish_error, Act.ofPure, Act.run_print, Act.run_ret] at h ⊢
      injection h with h
      refine ⟨.error e.text, by rw [methodText_eq, uriText_eq]; rfl, .inr ⟨e.text, rfl, by rw [← h], by rw [← h]; exact (bytes_ofStr _).1⟩⟩
    | ok after =>
      cases hr : after.response with
      | none => simp only [hr] at h; exact nomatch h
      | some r =>
        simp only [hr, Act.print_bind, Act.ret_bind, Act.run_print] at h ⊢
        cases hf : finish (.ok after : ContextResult U) with
        | error e => rw [hf] at h; exact nomatch h
        | ok sent' =>
          rw [hf] at h
          injection h with h
          subst h
          refine ⟨.sent r.status, by rw [methodText_eq, uriText_eq]; rfl, .inl ?_⟩
          rcases Classical.em (∀ e ∈ headerList r, Visible e.2) with hv | hv
          · obtain ⟨m, e1, _⟩ := finish_response hr hv
            rw [e1] at hf; injection hf with hf; rw [← hf]
          · obtain ⟨v, e1⟩ := finish_bad hr (by
              refine Classical.byContradiction fun hn => hv fun e he => ?_
              exact Classical.byContradiction fun hx => hn ⟨e, he, hx⟩)
            rw [e1] at hf; exact nomatch hf

theorem build_default {prog : List (Reg (Middleware U σ) (Handler U σ))} {r : Router (Middleware U σ) (Handler U σ)}
    (h : runRegs prog (App.default : App U σ).router = (r, none)) :
    build (.useService logger :: prog) = (r, none) := by
  rw [build, runRegs]; exact h

/-- **C59 fails**: nothing is printed for a request that no route matches, or whose method has no
handler: it is answered with 404 and never seen by the logger. -/
theorem C59_false : ∃ sent, ((demoLogApp.serve (demoReq .get "/nope")).run 0) = ⟨.ok sent, 0, []⟩ ∧ sent.status = 404 ∧
    ∀ inner, ¬ Reported (demoReq .get "/nope") sent inner [] := by
  have hb : build (.useService logger :: demoAppProg) = (demoLogApp.router, none) :=
    build_default (Prod.ext (by rw [demoLogApp]) (by decide +kernel))
  have hl : lookup (logOf (.useService logger :: demoAppProg)) (s "/nope") = none := by decide +kernel
  have := ((build_rep (prog := .useService logger :: demoAppProg) (by rw [CleanRegs]; exact ⟨trivial, demoAppProg_clean⟩) hb).obs_none hl).2.1
  refine ⟨pageNotFound, by rw [serve_none (a := demoLogApp) (req := demoReq .get "/nope") (this .get)]; rfl, rfl, ?_⟩
  rintro inner ⟨last, h, _⟩
  exact nomatch h

/-- **C59, what holds**: in an application started with `App::default()`, every request for which there
is a handler and that is answered is reported: the first line has its method and its target, the last
one the status that the client gets, or the error that the client gets with status 500; in between is
what the application would print without the logger. Missing: requests without a handler, for which
nothing is printed. Router mounts at the root, which throw away the logger, are excluded. -/
theorem C59_logged_partial {prog : List (Reg (Middleware U σ) (Handler U σ))}
    (hn : NoRootMount prog) {a a' : App U σ} (hb : runRegs prog (App.new : App U σ).router = (a.router, none))
    (hb' : runRegs prog (App.default : App U σ).router = (a'.router, none))
    (hs : a'.appState = a.appState) {req : Request U} (hh : handlerFor a'.router req.method req.path ≠ none)
    {w : σ} {sent : Sent} (ho : ((a'.serve req).run w).out = .ok sent) :
    Reported req sent ((a.serve req).run w).printed ((a'.serve req).run w).printed := by
  obtain ⟨h1, h2⟩ := global_first (m := logger) (prog := prog) hn hb
    (by rw [build, runRegs]; exact hb') req.path
  cases hh' : handlerFor a.router req.method req.path with
  | none => exact absurd (by rw [h1, hh']) hh
  | some h =>
    obtain ⟨hp, ch, hch, hch'⟩ := h2 req.method h hh'
    obtain ⟨c1, ctx, e1, e2, e3⟩ := serve_some hh'
    obtain ⟨c1', ctx', e1', e2', e3'⟩ := serve_some (a := a') (by rw [h1, hh'])
    rw [hch] at e1; injection e1 with e1; subst e1
    rw [hch'] at e1'; injection e1' with e1'; subst e1'
    have hctx : ctx' = ctx := (e2'.congr hp hs).unique e2
    subst hctx
    rw [e3'] at ho
    have := logger_prints ho
    rw [e3, e3']
    obtain ⟨last, p1, p2⟩ := this
    refine ⟨last, ?_, p2⟩
    have ht : target ctx'.request = target req := by rw [target, target, e2'.path, e2'.query]
    rw [e2'.method, ht] at p1
    exact p1

example (w : W) : ∃ sent, ((demoLogApp.serve (demoReq .get "/hello")).run w).out = .ok sent ∧ sent.status = 200 ∧
    ((demoLogApp.serve (demoReq .get "/hello")).run w).printed =
      [.request (s "GET") (s "/hello"), .debug, .sent 200] := by
  have he : (⟨[s "hello"], .route .get (sayHandler 1 "hi")⟩ : Entry _ _) ∈
      logOf demoAppProg := by rw [demoAppProg_log]; simp
  have hp : segments (s "/hello") = [s "hello"] := by decide +kernel
  have hh := demoApp_handler he (by decide +kernel) hp
  have hn : NoRootMount demoAppProg := by
    intro c hc p sub h
    simp only [demoAppProg, List.mem_cons, List.not_mem_nil, or_false] at hc
    rcases hc with rfl | rfl | rfl | rfl | rfl <;> simp at h
  have hb : runRegs demoAppProg (App.new : App demoU W).router = (demoApp.router, none) := by
    rw [demoApp_router]; exact demoAppProg_build
  have hb' : runRegs demoAppProg (App.default : App demoU W).router = (demoLogApp.router, none) :=
    Prod.ext (by rw [demoLogApp]) (by decide +kernel)
  have h1 := (global_first hn hb (build_default hb') (s "/hello")).1 .get
  obtain ⟨x, hx, h3⟩ := C29_built_response_is_sent demoApp (demoReq .get "/hello") hh
  obtain ⟨c, hc, rfl⟩ := demoApp_served (req := demoReq .get "/hello") he (by decide +kernel) hp hx
  obtain ⟨sent, h4⟩ := ((h3 w _ rfl).1 (respondStr (s "hi")) rfl).2 (by decide +kernel)
  have hne : handlerFor demoLogApp.router .get (s "/hello") ≠ none := by
    rw [h1, hh]; exact nofun
  have h5 := C31_default_app_partial hn hb hb' rfl (demoReq .get "/hello") (by
    intro x hx
    obtain ⟨c, _, rfl⟩ := demoApp_served (req := demoReq .get "/hello") he (by decide +kernel) hp hx
    intro w c' h
    simp [execNext, tickMiddleware, sayHandler, ResponseBuilder.ok, Context.build] at h
    subst h; simp) w
  have ho : ((demoLogApp.serve (demoReq .get "/hello")).run w).out = .ok sent := by rw [h5.1, h4]
  have hst : sent.status = 200 := (((h3 w _ rfl).1 (respondStr (s "hi")) rfl).1 sent (by rw [h4])).1
  obtain ⟨last, e1, e2⟩ := C59_logged_partial hn hb hb' rfl (req := demoReq .get "/hello")
    hne ho
  refine ⟨sent, ho, hst, ?_⟩
  rw [e1, h4]
  rcases e2 with rfl | ⟨_, _, h, _⟩
  · rw [hst]; rfl
  · rw [hst] at h; exact nomatch h

end Obsidian.Props
