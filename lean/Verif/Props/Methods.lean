import Verif.Spec.Calls
import Verif.Props.Dispatch

/- C60: methods for which no handler can be registered. -/
namespace Obsidian.Props
open Obsidian Spec
variable {U : Univ} {σ : Type}

section Log
variable {M H : Type}

theorem _root_.Obsidian.Spec.VerbsOnly.route {L : Log M H} (hL : VerbsOnly L) (ss : List Str) (v : Verb) (h : H) :
    VerbsOnly (L ++ [⟨ss, .route v.method h⟩]) := by
  intro e he m k hw
  rcases List.mem_append.1 he with he | he
  · exact hL e he m k hw
  · rw [List.mem_singleton] at he
    subst he
    injection hw with h1 _
    exact ⟨v, h1⟩

theorem _root_.Obsidian.Spec.VerbsOnly.mw {L : Log M H} (hL : VerbsOnly L) (ss : List Str) (x : M) :
    VerbsOnly (L ++ [⟨ss, .middleware x⟩]) := by
  intro e he m k hw
  rcases List.mem_append.1 he with he | he
  · exact hL e he m k hw
  · rw [List.mem_singleton] at he
    subst he
    exact nomatch hw

theorem _root_.Obsidian.Spec.VerbsOnly.mount {L S : Log M H} (hL : VerbsOnly L) (hS : VerbsOnly S) (ss : List Str) :
    VerbsOnly (mountLog ss L S) := by
  rw [mountLog]
  split
  · exact hS
  · intro e he m k hw
    rcases List.mem_append.1 he with he | he
    · exact hL e he m k hw
    · rcases List.mem_cons.1 he with rfl | he
      · exact nomatch hw
      · obtain ⟨e', he', rfl⟩ := List.mem_map.1 he
        exact hS e' he' m k hw

mutual
theorem verbs_reg : ∀ (c : Reg M H) (L : Log M H), VerbsOnly L → VerbsOnly (logReg c L)
  | .get p h, L, hL => by rw [logReg]; exact hL.route _ .get h
  | .post p h, L, hL => by rw [logReg]; exact hL.route _ .post h
  | .put p h, L, hL => by rw [logReg]; exact hL.route _ .put h
  | .patch p h, L, hL => by rw [logReg]; exact hL.route _ .patch h
  | .delete p h, L, hL => by rw [logReg]; exact hL.route _ .delete h
  | .useService m, L, hL => by rw [logReg]; exact hL.mw _ m
  | .useServiceTo p m, L, hL => by
    rw [logReg]; split
    · exact hL
    · exact hL.mw _ m
  | .useRouter p sub, L, hL => by rw [logReg]; exact hL.mount (verbs_regs sub [] nofun) _
  | .scope p sub, L, hL => by rw [logReg]; exact hL.mount (verbs_regs sub [] nofun) _
theorem verbs_regs : ∀ (cs : List (Reg M H)) (L : Log M H), VerbsOnly L → VerbsOnly (logRegs cs L)
  | [], L, hL => by rw [logRegs]; exact hL
  | c :: cs, L, hL => by rw [logRegs]; exact verbs_regs cs _ (verbs_reg c L hL)
end

end Log

/-- **C60 fails**: the request `GET /hello` is answered with 200, `HEAD /hello` with 404. -/
theorem C60_false : ∃ sent sent' w', ((demoApp.serve (demoReq .get "/hello")).run 0).out = .ok sent ∧ sent.status = 200 ∧
    (demoApp.serve (demoReq .head "/hello")).run 0 = ⟨.ok sent', w', []⟩ ∧ sent'.status = 404 := by
  have he : (⟨[s "hello"], .route .get (sayHandler 1 "hi")⟩ : Entry _ _) ∈
      logOf demoAppProg := by rw [demoAppProg_log]; simp
  have hp : segments (s "/hello") = [s "hello"] := by decide +kernel
  have hh := demoApp_handler he (by decide +kernel) hp
  obtain ⟨x, hx, h3⟩ := C29_built_response_is_sent demoApp (demoReq .get "/hello") hh
  obtain ⟨c, hc, rfl⟩ := demoApp_served (req := demoReq .get "/hello") he (by decide +kernel) hp hx
  obtain ⟨sent, h4⟩ := ((h3 0 _ rfl).1 (respondStr (s "hi")) rfl).2 (by decide +kernel)
  have hst : sent.status = 200 := (((h3 0 _ rfl).1 (respondStr (s "hi")) rfl).1 sent (by rw [h4])).1
  obtain ⟨sent', h5, h6, _⟩ := C24_no_handler demoApp (demoReq .head "/hello")
    (Option.isNone_iff_eq_none.1 (by decide +kernel)) 0
  exact ⟨sent, sent', 0, by rw [h4], hst, h5, h6⟩

/-- **C60, what is so instead**: a request with a method other than the five for which handlers can be
registered is answered with 404 and runs nothing, on every path of every application. -/
theorem C60_other_methods {prog : List (Reg (Middleware U σ) (Handler U σ))}
    {a : App U σ} (hb : build prog = (a.router, none)) (req : Request U)
    (hm : ∀ v : Verb, v.method ≠ req.method) : AnswersOnly (a.serve req) 404 "404 Not Found" := by
  refine C24_no_handler a req ?_
  cases hh : handlerFor a.router req.method req.path with
  | none => rfl
  | some k =>
    obtain ⟨e, he, hw⟩ := C04_registered_for_method hb hh
    obtain ⟨v, hv⟩ := verbs_regs prog [] nofun e he _ _ hw
    exact absurd hv (hm v)

/-- **C60, what holds**: if there is no GET handler for the path, HEAD is answered exactly like GET.
Missing: paths with a GET handler, where the claim is false. -/
theorem C60_head_partial {prog : List (Reg (Middleware U σ) (Handler U σ))}
    {a : App U σ} (hb : build prog = (a.router, none)) (req : Request U)
    (hg : handlerFor a.router .get req.path = none) :
    a.serve { req with method := .head } = a.serve { req with method := .get } := by
  have hh : handlerFor a.router .head req.path = none := by
    cases hh : handlerFor a.router .head req.path with
    | none => rfl
    | some k =>
      obtain ⟨e, he, hw⟩ := C04_registered_for_method hb hh
      obtain ⟨v, hv⟩ := verbs_regs prog [] nofun e he _ _ hw
      cases v <;> exact nomatch hv
  rw [serve_none (req := { req with method := .get }) hg,
    serve_none (req := { req with method := .head }) hh]

example : AnswersOnly (demoApp.serve (demoReq (.extension (s "get")) "/hello")) 404 "404 Not Found" ∧
    AnswersOnly (demoApp.serve (demoReq .options "/hello")) 404 "404 Not Found" := by
  have hb : build demoAppProg = (demoApp.router, none) := by rw [demoApp_router]; exact demoAppProg_build
  exact ⟨C60_other_methods hb _ (by intro v; cases v <;> exact nofun),
    C60_other_methods hb _ (by intro v; cases v <;> exact nofun)⟩

example : demoApp.serve (demoReq .head "/nope") = demoApp.serve (demoReq .get "/nope") := by
  have hb : build demoAppProg = (demoApp.router, none) := by rw [demoApp_router]; exact demoAppProg_build
  exact C60_head_partial hb (demoReq .get "/nope")
    (Option.isNone_iff_eq_none.1 (by decide +kernel))

end Obsidian.Props
