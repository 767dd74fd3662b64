import Verif.Spec.Answers
import Verif.Props.AppCommon
import Verif.Props.Sound

/-
Dispatching requests: C24 (methods), C25 (unknown paths), C28 (errors), C29 (responses), C30 (headers).
-/
namespace Obsidian.Props
open Obsidian Spec
variable {U : Univ} {σ : Type}

theorem answers_404 : AnswersOnly (.ret pageNotFound : Act σ Sent) 404 "404 Not Found" := fun w =>
  ⟨pageNotFound, rfl, rfl, by decide +kernel, rfl, fun _ => rfl⟩

/-- **C25**: an unknown path is answered with 404 and nothing runs. -/
theorem C25_unknown_paths (a : App U σ) (req : Request U) (h : isFound a.router req.path = false) :
    AnswersOnly (a.serve req) 404 "404 Not Found" := by
  rw [serve_none]
  · exact answers_404
  · rw [isFound] at h
    rw [handlerFor]
    obtain ⟨res, hr⟩ := C21_lookup_total a.router req.path
    rw [hr] at h ⊢
    cases res with
    | none => rfl
    | some v => simp at h

example : AnswersOnly (demoApp.serve (demoReq .get "/nowhere")) 404 "404 Not Found" :=
  C25_unknown_paths _ _ (by decide +kernel)

/-- **C24**, first half: without a handler for the method of the request the answer is 404 and
nothing runs. -/
theorem C24_no_handler (a : App U σ) (req : Request U)
    (h : handlerFor a.router req.method req.path = none) :
    AnswersOnly (a.serve req) 404 "404 Not Found" := by
  rw [serve_none h]; exact answers_404

example : isFound demoApp.router (s "/hello") = true ∧
    AnswersOnly (demoApp.serve (demoReq .head "/hello")) 404 "404 Not Found" :=
  ⟨by decide +kernel, C24_no_handler _ _ (Option.isNone_iff_eq_none.1 (by decide +kernel))⟩

/-- **C24** in terms of registrations: if no route registered for the method of the request has the
pieces of the request path (up to the slashes), the answer is 404 and nothing runs. -/
theorem C24_only_registered_methods {prog : List (Reg (Middleware U σ) (Handler U σ))}
    (hc : CleanRegs prog) {a : App U σ} (hb : build prog = (a.router, none)) (req : Request U)
    (h : ∀ e ∈ logOf prog, ∀ k, e.what = .route req.method k →
      ∀ b, ¬ FlatMatch e.segs (segments req.path) b) :
    AnswersOnly (a.serve req) 404 "404 Not Found" := by
  refine C24_no_handler a req ?_
  cases hh : handlerFor a.router req.method req.path with
  | none => rfl
  | some k =>
    obtain ⟨e, he, hw, b, hm, _⟩ := C04_served_by_matching_route_partial hc hb hh
    exact absurd hm (h e he k hw b)

/-- **C24**, second half: with a handler for the method, it is this handler that runs, inside the chain
of the path. -/
theorem C24_handler_runs (a : App U σ) (req : Request U) {h : Handler U σ}
    (hh : handlerFor a.router req.method req.path = some h) :
    ∃ chain c, chainFor a.router req.path = some chain ∧ Starts a req c ∧
      a.serve req = (execNext h chain c).bind (fun r => .ofPure (finish r)) := serve_some hh

example : ∃ chain c, chainFor demoApp.router (s "/hello") = some chain ∧
    Starts demoApp (demoReq .get "/hello") c ∧ demoApp.serve (demoReq .get "/hello") =
      (execNext (sayHandler 1 "hi") chain c).bind (fun r => .ofPure (finish r)) :=
  C24_handler_runs demoApp (demoReq .get "/hello")
    (demoApp_handler (ss := [s "hello"]) (by rw [demoAppProg_log]; simp [demoReq]) (by decide +kernel)
      (by decide +kernel))

/-! ### From the result of the chain to the response -/

theorem served_by (a : App U σ) (req : Request U) {h : Handler U σ}
    (hh : handlerFor a.router req.method req.path = some h) :
    ∃ x, ServedBy a req x ∧ a.serve req = x.bind (fun r => .ofPure (finish r)) := by
  obtain ⟨chain, c, h1, h2, h3⟩ := serve_some hh
  exact ⟨_, ⟨h, chain, c, hh, h1, h2, rfl⟩, h3⟩

theorem run_finish {x : Act σ (ContextResult U)} {w : σ} {r : ContextResult U}
    (h : (x.run w).out = .ok r) :
    (x.bind (fun r => .ofPure (finish r))).run w = ⟨finish r, (x.run w).world, (x.run w).printed⟩ := by
  rw [Act.run_bind_ok h]
  cases finish r <;> simp [Act.ofPure]

theorem finish_error (e : ObsidianError) :
    finish (.error e : ContextResult U) = .ok ⟨500, HMap.empty, Body.ofStr e.text⟩ := rfl

theorem bytes_ofStr (x : Str) : (Body.ofStr x).bytes = utf8 x ∧ (Body.ofStr x).fails = false := by
  rw [Body.ofStr, Body.ofBytes]
  split
  · next h => rw [h]; exact ⟨rfl, rfl⟩
  · exact ⟨by simp [Body.bytes], rfl⟩

/-- **C28**: an error of the chain becomes a response with status 500, the text of the error and no
headers; nothing else happens. -/
theorem C28_errors_are_500 (a : App U σ) (req : Request U) {h : Handler U σ}
    (hh : handlerFor a.router req.method req.path = some h) :
    ∃ x, ServedBy a req x ∧ ∀ w e, (x.run w).out = .ok (.error e) →
      ∃ sent, (a.serve req).run w = ⟨.ok sent, (x.run w).world, (x.run w).printed⟩ ∧
        sent.status = 500 ∧ sent.body.bytes = utf8 e.text ∧ sent.body.fails = false ∧
        ∀ k, sent.headers.get k = none := by
  obtain ⟨x, h1, h2⟩ := served_by a req hh
  refine ⟨x, h1, fun w e he => ⟨⟨500, HMap.empty, Body.ofStr e.text⟩, ?_, rfl, (bytes_ofStr e.text).1, (bytes_ofStr e.text).2, fun _ => rfl⟩⟩
  rw [h2, run_finish he, finish_error]

/-- **C28**: the texts. -/
theorem C28_texts (m : Str) :
    (ObsidianError.paramError m).text = m ∧ (ObsidianError.generalError m).text = m ∧
    (ObsidianError.jsonError m).text = m ∧ (ObsidianError.formError (.message m)).text = m ∧
    ObsidianError.noneError.text = s "Input should not be None" ∧
    (ObsidianError.formError .noneError).text = s "Input should not be None" :=
  ⟨rfl, rfl, rfl, rfl, rfl, rfl⟩

example : ∃ sent, (demoApp.serve (demoReq .get "/fail")).run 1 = ⟨.ok sent, 14, []⟩ ∧
    sent.status = 500 ∧ sent.body.bytes = utf8 (s "oops") := by
  have he : (⟨[s "fail"], .route .get (failHandler (.generalError (s "oops")))⟩ : Entry _ _) ∈
      logOf demoAppProg := by rw [demoAppProg_log]; simp
  have hp : segments (s "/fail") = [s "fail"] := by decide +kernel
  obtain ⟨x, hx, h4⟩ := C28_errors_are_500 demoApp (demoReq .get "/fail")
    (demoApp_handler he (by decide +kernel) hp)
  obtain ⟨c, _, rfl⟩ := demoApp_served (req := demoReq .get "/fail") he (by decide +kernel) hp hx
  obtain ⟨sent, h5, h6, h7, _⟩ := h4 1 (.generalError (s "oops")) rfl
  exact ⟨sent, h5, h6, h7⟩

theorem valid_iff (v : Str) : validHeaderValue v = true ↔ Visible v := by
  simp only [validHeaderValue, Visible, List.all_eq_true, Bool.or_eq_true, Bool.and_eq_true, decide_eq_true_eq]
  refine forall_congr' fun c => imp_congr_right fun _ => or_congr (and_congr ?_ ?_) Iff.rfl
  · rw [Char.le_def, UInt32.le_iff_toNat_le]; rfl
  · rw [Char.le_def, UInt32.le_iff_toNat_le]; exact Nat.lt_succ_iff

theorem insertHeaders_ok {hs : List (HeaderName × Str)} {m : HeaderMap}
    (h : ∀ e ∈ hs, Visible e.2) : ∃ m', insertHeaders hs m = .ok m' ∧
      ∀ k, m'.get k = match lastValue hs k with | some v => some v | none => m.get k := by
  induction hs generalizing m with
  | nil => exact ⟨m, rfl, fun k => rfl⟩
  | cons e hs ih =>
    obtain ⟨k0, v0⟩ := e
    obtain ⟨m', h1, h2⟩ := ih (m := m.insert k0 v0) (fun e he => h e (List.mem_cons_of_mem _ he))
    refine ⟨m', by rw [insertHeaders, if_pos ((valid_iff _).2 (h _ List.mem_cons_self))]; exact h1, fun k => ?_⟩
    rw [h2 k, HMap.get_insert]
    have e1 : lastValue ((k0, v0) :: hs) k =
        match lastValue hs k with | some v => some v | none => if k = k0 then some v0 else none := by
      unfold lastValue
      rw [List.filter_cons]
      by_cases hk : k0 = k
      · rw [if_pos (by simpa using hk), List.getLast?_cons]
        cases hl : (hs.filter (fun e => decide (e.1 = k))).getLast? with
        | none => simp [hk]
        | some x => simp
      · rw [if_neg (by simpa using hk), if_neg (fun h => hk h.symm)]
        cases (hs.filter (fun e => decide (e.1 = k))).getLast? <;> rfl
    rw [e1]
    cases lastValue hs k with
    | some v => rfl
    | none =>
      by_cases hk : k = k0
      · simp [hk]
      · simp [hk]

theorem insertHeaders_bad {hs : List (HeaderName × Str)} {m : HeaderMap}
    (h : ∃ e ∈ hs, ¬ Visible e.2) : ∃ v, insertHeaders hs m = .error (.headerValue v) := by
  induction hs generalizing m with
  | nil => simp at h
  | cons e hs ih =>
    obtain ⟨k0, v0⟩ := e
    rw [insertHeaders]
    split
    · next hv =>
      obtain ⟨e, he, hb⟩ := h
      rcases List.mem_cons.1 he with rfl | he
      · exact absurd ((valid_iff _).1 hv) hb
      · exact ih ⟨e, he, hb⟩
    · exact ⟨_, rfl⟩

theorem finish_response {c : Context U} {r : Response} (hr : c.response = some r)
    (hv : ∀ e ∈ headerList r, Visible e.2) :
    ∃ m, finish (.ok c) = .ok ⟨r.status, m, r.body⟩ ∧ ∀ k, m.get k = lastValue (headerList r) k := by
  obtain ⟨b, st, hs⟩ := r
  cases hs with
  | none =>
    refine ⟨HMap.empty, ?_, fun k => rfl⟩
    simp only [finish, Context.takeResponse, hr]; rfl
  | some hs =>
    obtain ⟨m', h1, h2⟩ := insertHeaders_ok (m := HMap.empty) (by simpa [headerList] using hv)
    refine ⟨m', ?_, fun k => ?_⟩
    · simp only [finish, Context.takeResponse, hr, Builder.withHeaders, Builder.new, h1]; rfl
    · rw [h2 k]; simp only [headerList, Option.getD_some]
      cases lastValue hs k <;> rfl

theorem finish_bad {c : Context U} {r : Response} (hr : c.response = some r)
    (hv : ∃ e ∈ headerList r, ¬ Visible e.2) :
    ∃ v, finish (.ok c) = .error (.headerValue v) := by
  obtain ⟨b, st, hs⟩ := r
  cases hs with
  | none => simp [headerList] at hv
  | some hs =>
    obtain ⟨v, h1⟩ := insertHeaders_bad (m := HMap.empty) (by simpa [headerList] using hv)
    refine ⟨v, ?_⟩
    simp only [finish, Context.takeResponse, hr, Builder.withHeaders, Builder.new, h1]; rfl

/-- **C29**: whatever response is sent has exactly the status and the body the chain built; it is sent
unless one of its header values is not allowed in HTTP (see C30). Without a response, 200 and an empty
body are sent. -/
theorem C29_built_response_is_sent (a : App U σ) (req : Request U) {h : Handler U σ}
    (hh : handlerFor a.router req.method req.path = some h) :
    ∃ x, ServedBy a req x ∧ ∀ w c, (x.run w).out = .ok (.ok c) →
      (∀ r, c.response = some r →
        (∀ sent, ((a.serve req).run w).out = .ok sent → sent.status = r.status ∧ sent.body = r.body) ∧
        ((∀ e ∈ headerList r, Visible e.2) → ∃ sent,
          (a.serve req).run w = ⟨.ok sent, (x.run w).world, (x.run w).printed⟩)) ∧
      (c.response = none → ∃ sent,
        (a.serve req).run w = ⟨.ok sent, (x.run w).world, (x.run w).printed⟩ ∧
        sent.status = 200 ∧ sent.body.bytes = [] ∧ sent.body.fails = false) := by
  obtain ⟨x, h1, h2⟩ := served_by a req hh
  refine ⟨x, h1, fun w c he => ?_⟩
  rw [h2, run_finish he]
  refine ⟨fun r hr => ⟨fun sent hs => ?_, fun hv => ?_⟩, fun hr => ⟨⟨200, HMap.empty, Body.ofStr []⟩, ?_⟩⟩
  · by_cases hv : ∀ e ∈ headerList r, Visible e.2
    · obtain ⟨m, h3, _⟩ := finish_response hr hv
      rw [h3] at hs; injection hs with hs; subst hs; exact ⟨rfl, rfl⟩
    · obtain ⟨v, h3⟩ := finish_bad hr (by simpa using hv)
      rw [h3] at hs; simp at hs
  · obtain ⟨m, h3, _⟩ := finish_response hr hv
    exact ⟨_, by rw [h3]⟩
  · refine ⟨?_, rfl, rfl, rfl⟩
    have : finish (.ok c) = .ok ⟨200, HMap.empty, Body.ofStr []⟩ := by
      simp only [finish, Context.takeResponse, hr]; rfl
    rw [this]

/-- **C30 fails**: of two headers with the same name only the last one is sent (so a response cannot
set two cookies). -/
theorem C30_false : ∃ (c : Context U) (r : Response) (sent : Sent), c.response = some r ∧
    headerList r = [(s "set-cookie", s "a=1"), (s "set-cookie", s "b=2")] ∧
    finish (.ok c) = .ok sent ∧ sent.headers.get (s "set-cookie") = some (s "b=2") ∧
    (s "set-cookie", s "a=1") ∉ sent.headers.entries := by
  refine ⟨⟨⟨.get, [], none, [], Extensions.empty, Body.empty⟩, fun _ => none,
    some (((Response.new Body.empty).setHeader (s "set-cookie") (s "a=1")).setHeader (s "set-cookie") (s "b=2"))⟩,
    _, ⟨200, ⟨[(s "set-cookie", s "b=2")]⟩, Body.empty⟩, rfl, rfl, rfl, by decide +kernel, by decide +kernel⟩

/-- **C30 fails** also for values that are not visible ASCII: serving the request panics. -/
theorem C30_false_panic (v : Str) (hv : ¬ Visible v) (k : HeaderName) (b : Body)
    (c : Context U) (hc : c.response = some ((Response.new b).setHeader k v)) :
    finish (.ok c) = .error (.headerValue v) := by
  simp only [finish, Context.takeResponse, hc, Response.setHeader, Response.new, Builder.withHeaders, Builder.new]
  rw [insertHeaders, if_neg (fun h => hv ((valid_iff v).1 h))]
  rfl

example : ¬ Visible (s "é") := by decide +kernel

/-- **C30, what holds**: if all values are visible ASCII, the sent response has, for every name, the
value that was set last for that name, and no other names. In particular, headers with different names
are all sent. Missing: earlier values of repeated names, and other values, where the claim is false. -/
theorem C30_last_values_partial (a : App U σ) (req : Request U) {h : Handler U σ}
    (hh : handlerFor a.router req.method req.path = some h) :
    ∃ x, ServedBy a req x ∧ ∀ w c r, (x.run w).out = .ok (.ok c) → c.response = some r →
      (∀ e ∈ headerList r, Visible e.2) →
      ∃ sent, ((a.serve req).run w).out = .ok sent ∧
        (∀ k, sent.headers.get k = lastValue (headerList r) k) ∧
        ((headerList r).Pairwise (fun e e' => e.1 ≠ e'.1) →
          ∀ e ∈ headerList r, sent.headers.get e.1 = some e.2) := by
  obtain ⟨x, h1, h2⟩ := served_by a req hh
  refine ⟨x, h1, fun w c r he hr hv => ?_⟩
  rw [h2, run_finish he]
  obtain ⟨m, h3, h4⟩ := finish_response hr hv
  refine ⟨_, h3, h4, fun hp e hm => ?_⟩
  rw [h4]
  unfold lastValue
  have : (headerList r).filter (fun x => decide (x.1 = e.1)) = [e] := by
    generalize headerList r = hs at hp hm
    clear h3 h4 hv
    induction hs with
    | nil => simp at hm
    | cons y hs ih =>
      obtain ⟨p1, p2⟩ := List.pairwise_cons.1 hp
      rcases List.mem_cons.1 hm with rfl | hm
      · rw [List.filter_cons, if_pos (by simp)]
        congr 1
        rw [List.filter_eq_nil_iff]
        intro z hz; simpa using fun h => (p1 z hz) h.symm
      · rw [List.filter_cons, if_neg (by simpa using p1 e hm)]
        exact ih p2 hm
  rw [this]; rfl

example : ∃ sent, ((demoApp.serve (demoReq .get "/hello")).run 1).out = .ok sent ∧
    sent.status = 200 ∧ sent.body.bytes = utf8 (s "hi") ∧
    sent.headers.get contentType = some (s "text/plain; charset=utf-8") := by
  have he : (⟨[s "hello"], .route .get (sayHandler 1 "hi")⟩ : Entry _ _) ∈
      logOf demoAppProg := by rw [demoAppProg_log]; simp
  have hp : segments (s "/hello") = [s "hello"] := by decide +kernel
  have hh := demoApp_handler he (by decide +kernel) hp
  obtain ⟨x, hx, h1⟩ := C29_built_response_is_sent demoApp (demoReq .get "/hello") hh
  obtain ⟨y, hy, h2⟩ := C30_last_values_partial demoApp (demoReq .get "/hello") hh
  obtain ⟨c, _, rfl⟩ := demoApp_served (req := demoReq .get "/hello") he (by decide +kernel) hp hx
  obtain ⟨c', _, rfl⟩ := demoApp_served (req := demoReq .get "/hello") he (by decide +kernel) hp hy
  obtain ⟨sent, h3, h4, _⟩ := h2 1 _ (respondStr (s "hi")) rfl rfl (by decide +kernel)
  obtain ⟨h5, _⟩ := (h1 1 _ rfl).1 (respondStr (s "hi")) rfl
  obtain ⟨h6, h7⟩ := h5 sent h3
  exact ⟨sent, h3, h6, by rw [h7]; decide +kernel, by rw [h4]; decide +kernel⟩

end Obsidian.Props
