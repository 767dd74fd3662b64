import Verif.Props.Exact
import Verif.Props.Middleware
import Verif.Props.Config
import Verif.Props.Dispatch
import Verif.Spec.Whole

/-
C88: serving a request, from the registrations to the response.
-/
namespace Obsidian.Props
open Obsidian Spec
variable {U : Univ} {σ : Type} {M H : Type}

theorem middlewaresAt_eq (L : Log M H) (q : Str) : middlewaresAt L q = mwsAt L q := by
  rw [middlewaresAt, mwsAt]
  congr 1
  funext x
  simp only [Entry.isAt, decide_eq_true_eq]
  split
  · cases x.what <;> rfl
  · rfl

theorem middlewaresOf_eq (L : Log M H) (ss : List Str) : middlewaresOf L ss = Spec.chain L (flat ss) := by
  rw [middlewaresOf, Spec.chain, upTo_range]
  simp only [middlewaresAt_eq, List.nil_append]

theorem nest_eq (h : Handler U σ) (ms : List (Middleware U σ)) : execNext h ms = nest h ms := by
  induction ms with
  | nil => funext c; rfl
  | cons m ms ih => funext c; rw [execNext, ih]; rfl

theorem headers_bad {hs : List (HeaderName × Str)} {m : HeaderMap} (h : ∃ e ∈ hs, ¬ Visible e.2) :
    ∃ v, ¬ Visible v ∧ insertHeaders hs m = .error (.headerValue v) := by
  induction hs generalizing m with
  | nil => simp at h
  | cons e hs ih =>
    obtain ⟨k0, v0⟩ := e
    rw [insertHeaders]
    split
    · next hv =>
      obtain ⟨e, he, hb⟩ := h
      rcases List.mem_cons.1 he with rfl | he
      · exact absurd ((valid_iff _).1 hv) hb
      · exact ih ⟨e, he, hb⟩
    · next hv => exact ⟨v0, fun h => hv ((valid_iff _).2 h), rfl⟩

theorem finish_sends (result : ContextResult U) :
    (Unsendable result → ∃ v, ¬ Visible v ∧ finish result = .error (.headerValue v)) ∧
    (¬ Unsendable result → ∃ sent, finish result = .ok sent ∧ SendsFor result sent) := by
  constructor
  · rintro ⟨c, ⟨b, st, hs⟩, rfl, hr, hv⟩
    cases hs with
    | none => simp [headersOf] at hv
    | some hs =>
      obtain ⟨v, h0, h1⟩ := headers_bad (m := HMap.empty) (by simpa [headersOf] using hv)
      refine ⟨v, h0, ?_⟩
      simp only [finish, Context.takeResponse, hr, Builder.withHeaders, Builder.new, h1]; rfl
  · intro hu
    cases result with
    | error e =>
      exact ⟨_, finish_error e, .error rfl (bytes_ofStr _).1 (bytes_ofStr _).2 fun k => rfl⟩
    | ok c =>
      cases hr : c.response with
      | none =>
        refine ⟨⟨200, HMap.empty, Body.ofStr []⟩, ?_, .silent hr rfl (bytes_ofStr _).1 (bytes_ofStr _).2 fun k => rfl⟩
        simp only [finish, Context.takeResponse, hr]; rfl
      | some r =>
        have hv : ∀ h ∈ headersOf r, Visible h.2 := fun h hh =>
          Classical.byContradiction fun hn => hu ⟨c, r, rfl, hr, h, hh, hn⟩
        obtain ⟨m, h1, h2⟩ := finish_response hr hv
        exact ⟨_, h1, .response hr hv rfl rfl h2⟩

/-- What serving a request runs, for an application with a given router and state. -/
theorem serving_eq {prog : List (Reg (Middleware U σ) (Handler U σ))} {a : App U σ} (hb : build prog = (a.router, none))
    (hc : CleanRegs prog) (hsm : NoStarMount (logOf prog)) (req : Request U) :
    let L := logOf prog
    ((¬ ∃ e ∈ L, ∃ h b, e.what = .route req.method h ∧ LeadsTo L e.segs (segments req.path) b) →
      handlerFor a.router req.method req.path = none) ∧
    ∀ e ∈ L, ∀ h b, e.what = .route req.method h → LeadsTo L e.segs (segments req.path) b →
      ∃ c, Given a.appState req b c ∧
        a.serve req = (nest h (middlewaresOf L e.segs) c).bind (fun r => .ofPure (finish r)) := by
  intro L
  obtain ⟨hx, hp⟩ := C04_exact_partial hc hb hsm req.method req.path
  constructor
  · intro hno
    cases hh : handlerFor a.router req.method req.path with
    | none => rfl
    | some h =>
      obtain ⟨e, he, hw, b, hl⟩ := (hx h).1 hh
      exact absurd ⟨e, he, h, b, hw, hl⟩ hno
  · intro e he h b hw hl
    have hne : e.what ≠ .nothing := by rw [hw]; simp
    have hr := build_rep hc hb
    have obs := hr.obs_some ((hr.tidy.lookup_leads hsm he hne).2 hl)
    obtain ⟨chain, c, g1, g2, g3⟩ := C24_handler_runs a req ((hx h).2 ⟨e, he, hw, b, hl⟩)
    rw [obs.2.2.1] at g1
    simp only [Option.some.injEq] at g1
    rw [← middlewaresOf_eq] at g1
    refine ⟨c, ⟨g2.method, g2.path, g2.query, g2.headers, g2.body, fun x => by rw [g2.params, obs.2.2.2], g2.response,
      fun t' v hs => ?_, fun hs t' => ?_⟩, by rw [g3, ← g1, ← nest_eq]⟩
    · have := g2.state t' v hs
      refine ⟨by rw [Context.get, this, ext_get_insert], fun t'' hn => ?_⟩
      rw [Context.get, this, ext_get_insert_ne _ _ _ hn]
    · rw [Context.get, g2.noState hs]

theorem ends_for (x : Act σ (ContextResult U)) (w : σ) : EndsFor (x.run w) ((x.bind fun r => .ofPure (finish r)).run w) := by
  cases ho : (x.run w).out with
  | error k =>
    rw [Act.run_bind_error ho]
    refine ⟨rfl, rfl, fun k' hk => ?_, fun result hk => ?_⟩
    · rw [ho] at hk; injection hk with hk; rw [hk]
    · rw [ho] at hk; exact nomatch hk
  | ok result =>
    rw [Act.run_bind_ok ho]
    have hf := finish_sends result
    cases hfin : finish result with
    | error k =>
      refine ⟨rfl, List.append_nil _, fun k' hk => (by rw [ho] at hk; exact nomatch hk), fun result' hk => ?_⟩
      rw [ho] at hk; injection hk with hk; subst hk
      refine ⟨fun hu => ?_, fun hu => ?_⟩
      · obtain ⟨v, h1, h2⟩ := hf.1 hu
        refine ⟨v, h1, ?_⟩
        rw [hfin] at h2; injection h2 with h2; subst h2; rfl
      · obtain ⟨s, h1, _⟩ := hf.2 hu
        rw [hfin] at h1; exact nomatch h1
    | ok sent =>
      refine ⟨rfl, List.append_nil _, fun k' hk => (by rw [ho] at hk; exact nomatch hk), fun result' hk => ?_⟩
      rw [ho] at hk; injection hk with hk; subst hk
      refine ⟨fun hu => ?_, fun hu => ?_⟩
      · obtain ⟨v, _, h2⟩ := hf.1 hu
        rw [hfin] at h2; exact nomatch h2
      · obtain ⟨s, h1, h2⟩ := hf.2 hu
        rw [hfin] at h1; injection h1 with h1; subst h1
        exact ⟨sent, rfl, h2⟩

/-- Serving a request, for an application with a given router and state. -/
theorem serving {prog : List (Reg (Middleware U σ) (Handler U σ))} {a : App U σ} (hb : build prog = (a.router, none))
    (hc : CleanRegs prog) (hsm : NoStarMount (logOf prog)) (req : Request U) :
    let L := logOf prog
    ((¬ ∃ e ∈ L, ∃ h b, e.what = .route req.method h ∧ LeadsTo L e.segs (segments req.path) b) →
      AnswersOnly (a.serve req) 404 "404 Not Found") ∧
    ∀ e ∈ L, ∀ h b, e.what = .route req.method h → LeadsTo L e.segs (segments req.path) b →
      ∃ c, Given a.appState req b c ∧
        ∀ w, EndsFor ((nest h (middlewaresOf L e.segs) c).run w) ((a.serve req).run w) := by
  intro L
  obtain ⟨h1, h2⟩ := serving_eq hb hc hsm req
  refine ⟨fun hno => C24_no_handler a req (h1 hno), fun e he h b hw hl => ?_⟩
  obtain ⟨c, h3, h4⟩ := h2 e he h b hw hl
  exact ⟨c, h3, fun w => by rw [h4]; exact ends_for _ w⟩

/-- **C88.** Serving a request of an application, completely.  If the request leads to no path with a route
for its method, the answer is 404 and nothing else happens.  Otherwise the handler of the route runs
inside the middlewares of the path, on the request with the parameters on the way and the state that was
set last, and what it ends with is sent. -/
theorem C88_serving {t : U.Ty} {cs : List (AppCall U σ t)} {a : App U σ} (hcs : App.calls cs App.new = (a, none))
    (hc : CleanRegs (registrations cs)) (hsm : NoStarMount (logOf (registrations cs))) (req : Request U) :
    let L := logOf (registrations cs)
    ((¬ ∃ e ∈ L, ∃ h b, e.what = .route req.method h ∧ LeadsTo L e.segs (segments req.path) b) →
      AnswersOnly (a.serve req) 404 "404 Not Found") ∧
    ∀ e ∈ L, ∀ h b, e.what = .route req.method h → LeadsTo L e.segs (segments req.path) b →
      ∃ c, Given ((lastState cs).map fun v => ⟨t, v⟩) req b c ∧
        ∀ w, EndsFor ((nest h (middlewaresOf L e.segs) c).run w) ((a.serve req).run w) := by
  have hb : build (registrations cs) = (a.router, none) := by
    have h1 := (C79_registrations cs).1
    rw [hcs] at h1
    exact Prod.ext h1.2.symm h1.1.symm
  have hst : a.appState = (lastState cs).map fun v => ⟨t, v⟩ := by
    rw [calls_state hcs]; cases lastState cs <;> rfl
  rw [← hst]
  exact serving hb hc hsm req

/-- **C88** for the default application: the same, with the logger registered first. -/
theorem C88_default {t : U.Ty} {cs : List (AppCall U σ t)} {a : App U σ} (hcs : App.calls cs App.default = (a, none))
    (hc : CleanRegs (registrations cs)) (hsm : NoStarMount (logOf (.useService logger :: registrations cs)))
    (req : Request U) :
    let L := logOf (.useService logger :: registrations cs)
    ((¬ ∃ e ∈ L, ∃ h b, e.what = .route req.method h ∧ LeadsTo L e.segs (segments req.path) b) →
      AnswersOnly (a.serve req) 404 "404 Not Found") ∧
    ∀ e ∈ L, ∀ h b, e.what = .route req.method h → LeadsTo L e.segs (segments req.path) b →
      ∃ c, Given ((lastState cs).map fun v => ⟨t, v⟩) req b c ∧
        ∀ w, EndsFor ((nest h (middlewaresOf L e.segs) c).run w) ((a.serve req).run w) := by
  have hb : build (.useService logger :: registrations cs) = (a.router, none) := by
    have h1 := (C79_registrations cs).2
    rw [hcs] at h1
    exact Prod.ext h1.2.symm h1.1.symm
  have hst : a.appState = (lastState cs).map fun v => ⟨t, v⟩ := by
    rw [calls_state hcs]; cases lastState cs <;> rfl
  rw [← hst]
  exact serving hb ⟨by simp [CleanReg], hc⟩ hsm req

/-- The example application with a state. -/
def demoCalls : List (AppCall demoU W true) :=
  [.setAppState (4 : Nat)] ++ demoAppProg.map .reg ++ [.setAppState (9 : Nat)]

/-- `POST /items/7`: the handler runs inside the middleware of the whole application, on the request with the
parameter and the last state. -/
example (req : Request demoU) (hm : req.method = .post) (hp : req.path = s "/items/7") :
    ∃ a c, App.calls demoCalls App.new = (a, none) ∧
      Given (U := demoU) (some ⟨true, (9 : Nat)⟩) req [(s "id", s "7")] c ∧
      ∀ w, EndsFor ((tickMiddleware 5 c (sayHandler 2 "made")).run w) ((a.serve req).run w) := by
  have hreg : registrations demoCalls = demoAppProg := by
    simp only [demoCalls, demoAppProg, List.map_cons, List.map_nil, List.cons_append, List.nil_append, registrations]
  obtain ⟨a, ha⟩ : ∃ a, App.calls demoCalls App.new = (a, none) := by
    have h1 := (C79_registrations demoCalls).1.1
    rw [hreg, demoAppProg_ok] at h1
    generalize App.calls demoCalls App.new = x at h1
    obtain ⟨a, e⟩ := x
    exact ⟨a, by rw [show e = none from h1]⟩
  have hsm : NoStarMount (logOf (registrations demoCalls)) := by
    rw [hreg, demoAppProg_log]
    refine noStarMount_of_noStar fun e he => .inl ?_
    simp only [List.mem_cons, List.not_mem_nil, or_false] at he
    rcases he with rfl | rfl | rfl | rfl | rfl <;> decide +kernel
  have hmem : (⟨[s "items", s ":id"], .route .post (sayHandler 2 "made")⟩ : Entry (Middleware demoU W) (Handler demoU W)) ∈
      logOf (registrations demoCalls) := by rw [hreg, demoAppProg_log]; simp
  have hseg : segments (s "/items/7") = [s "items", s "7"] := by decide +kernel
  have hl : LeadsTo (logOf (registrations demoCalls)) [s "items", s ":id"] (segments req.path) [(s "id", s "7")] := by
    rw [hp, hseg]
    refine .inl (.text (p := []) (x := s "items") ?_ (by decide +kernel) (.inl ⟨_, hmem, [s "items"], [s ":id"], rfl, rfl⟩)
      (.param (y := s "id") ⟨[s "items"], [], rfl, rfl⟩ .done))
    rintro y ⟨pre, post, h1, h2⟩
    cases pre with
    | nil => simp [s] at h1
    | cons z pre => simp only [flat] at h2; rw [List.cons_append] at h1; injection h1 with h1 _; subst h1; simp [s] at h2
  obtain ⟨c, h1, h2⟩ := (C88_serving ha (by rw [hreg]; exact demoAppProg_clean) hsm req).2 _ hmem _ _
    (by rw [hm]) hl
  refine ⟨a, c, ha, h1, ?_⟩
  have : middlewaresOf (logOf (registrations demoCalls)) [s "items", s ":id"] = [tickMiddleware 5] := by
    rw [middlewaresOf_eq, hreg]
    exact demoAppProg_chain (by rw [demoAppProg_log]; decide +kernel)
  rw [this] at h2
  exact h2

end Obsidian.Props
