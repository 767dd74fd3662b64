import Verif.Spec.Answers
import Verif.Props.Dispatch
import Verif.Model.Server

/-
Contexts: C32 (application state), C33 (typed store), C34 (bodies), C46 (parameters).
-/
namespace Obsidian.Props
open Obsidian Spec
variable {U : Univ} {σ : Type}

/-! ### C33: the typed store -/

theorem find_filter (t t' : U.Ty) (l : List ((t : U.Ty) × U.Val t)) (h : t' ≠ t) :
    Extensions.find t' (l.filter (fun x => !decide (x.1 = t))) = Extensions.find t' l := by
  induction l with
  | nil => rfl
  | cons e l ih =>
    obtain ⟨t0, v0⟩ := e
    rw [List.filter_cons]
    by_cases h0 : t0 = t
    · have h1 : ¬ t0 = t' := fun h' => h (h'.symm.trans h0)
      rw [if_neg (by simpa using h0), ih, Extensions.find, dif_neg h1]
    · rw [if_pos (by simpa using h0), Extensions.find, Extensions.find, ih]

theorem ext_get_insert (e : Extensions U) (t : U.Ty) (v : U.Val t) : (e.insert t v).get t = some v := by
  simp [Extensions.insert, Extensions.get, Extensions.find]

theorem ext_get_insert_ne (e : Extensions U) (t : U.Ty) (v : U.Val t) {t' : U.Ty} (h : t' ≠ t) :
    (e.insert t v).get t' = e.get t' := by
  simp only [Extensions.insert, Extensions.get, Extensions.find]
  rw [dif_neg (fun h' => h h'.symm), find_filter t t' _ h]

/-- **C33**: after any sequence of changes, reading gives what the same changes make of a function from
types to optional values; and nothing but the data has changed. -/
theorem C33_typed_store (ops : List (StoreOp U)) (c : Context U) :
    let c' := ops.foldl (fun c o => o.run c) c
    (∀ t, c'.get t = ops.foldl (fun g o => o.spec g) c.get t) ∧
    c' = withData c c'.request.extensions := by
  have one : ∀ (o : StoreOp U) (c : Context U), (o.run c).get = o.spec c.get ∧
      o.run c = withData c (o.run c).request.extensions := by
    intro o c
    cases o with
    | add t v =>
      refine ⟨?_, rfl⟩
      funext t'
      simp only [StoreOp.run, StoreOp.spec, Context.get, Context.add]
      by_cases h : t = t'
      · subst h; simp [ext_get_insert]
      · simp [h, ext_get_insert_ne _ _ _ (fun h' => h h'.symm : t' ≠ t)]
    | update t f =>
      simp only [StoreOp.run, StoreOp.spec, Context.modify, Extensions.modify]
      cases hg : c.request.extensions.get t with
      | none =>
        refine ⟨?_, rfl⟩
        funext t'
        simp only [Context.get, Option.getD_none]
        by_cases h : t = t'
        · subst h; simp [hg]
        · simp [h]
      | some v =>
        refine ⟨?_, rfl⟩
        funext t'
        simp only [Context.get, Option.getD_some]
        by_cases h : t = t'
        · subst h; simp [hg, ext_get_insert]
        · simp [h, ext_get_insert_ne _ _ _ (fun h' => h h'.symm : t' ≠ t)]
  induction ops generalizing c with
  | nil => exact ⟨fun t => rfl, rfl⟩
  | cons o ops ih =>
    obtain ⟨h1, h2⟩ := ih (o.run c)
    obtain ⟨k1, k2⟩ := one o c
    simp only [List.foldl_cons]
    refine ⟨fun t => by rw [h1, k1], ?_⟩
    rw [h2]
    generalize (List.foldl (fun c o => o.run c) (o.run c) ops).request.extensions = e
    rw [k2]; rfl

/-- **C33**: in particular, the value added last is read, and other types are not affected. -/
theorem C33_get_add (c : Context U) (t : U.Ty) (v : U.Val t) :
    (c.add t v).get t = some v ∧ ∀ t', t' ≠ t → (c.add t v).get t' = c.get t' :=
  ⟨ext_get_insert _ _ _, fun _ h => ext_get_insert_ne _ _ _ h⟩

/-- A context for examples. -/
def ctx0 : Context demoU := ⟨demoReq .get "/", fun _ => none, none⟩

example : let c := [StoreOp.add (U := demoU) true (3 : Nat), .add (U := demoU) false (s "x"),
      .update (U := demoU) true (fun n : Nat => n + 4)].foldl (fun c o => o.run c) ctx0
    c.get true = some (7 : Nat) ∧ c.get false = some (s "x") := ⟨rfl, rfl⟩

/-! ### C32: application state -/

theorem calls_state {t : U.Ty} {cs : List (AppCall U σ t)} {a a' : App U σ}
    (h : App.calls cs a = (a', none)) :
    a'.appState = match lastState cs with | some v => some ⟨t, v⟩ | none => a.appState := by
  induction cs generalizing a with
  | nil => simp only [App.calls, Prod.mk.injEq, and_true] at h; rw [h]; rfl
  | cons c cs ih =>
    cases c with
    | reg c =>
      rw [App.calls] at h
      split at h
      · rw [ih h]; rfl
      · simp at h
    | setAppState v =>
      rw [App.calls] at h
      rw [ih h, lastState]
      cases lastState cs <;> rfl

/-- **C32**: whatever calls configure an application, the chain of every request that is served starts
in a context that holds a copy of the state that was set last, and otherwise the data that came with
the request. Nothing about earlier requests matters. -/
theorem C32_state_reaches_requests {t : U.Ty} {cs : List (AppCall U σ t)} {a : App U σ}
    (hb : App.calls cs App.new = (a, none) ∨ App.calls cs App.default = (a, none)) (req : Request U)
    {h : Handler U σ} (hh : handlerFor a.router req.method req.path = some h) :
    ∃ chain c, chainFor a.router req.path = some chain ∧ Starts a req c ∧
      a.serve req = (execNext h chain c).bind (fun r => .ofPure (finish r)) ∧
      (∀ v, lastState cs = some v → c.get t = some v) ∧
      (lastState cs = none → c.get t = req.extensions.get t) ∧
      ∀ t', t' ≠ t → c.get t' = req.extensions.get t' := by
  obtain ⟨chain, c, h1, h2, h3⟩ := serve_some hh
  have hst : a.appState = match lastState cs with | some v => some ⟨t, v⟩ | none => none := by
    rcases hb with hb | hb <;> exact calls_state hb
  refine ⟨chain, c, h1, h2, h3, fun v hv => ?_, fun hn => ?_, fun t' ht => ?_⟩
  · rw [hv] at hst
    rw [Context.get, h2.state t v hst, ext_get_insert]
  · rw [hn] at hst
    rw [Context.get, h2.noState hst]
  · cases hl : lastState cs with
    | none => rw [hl] at hst; rw [Context.get, h2.noState hst]
    | some v => rw [hl] at hst; rw [Context.get, h2.state t v hst, ext_get_insert_ne _ _ _ ht]

example : (App.calls (U := demoU) (σ := W) (t := true)
      [.setAppState (1 : Nat), .reg (.get (s "/n") silentHandler), .setAppState (2 : Nat)] App.new).2 = none ∧
    lastState (U := demoU) (σ := W) (t := true)
      [.setAppState (1 : Nat), .reg (.get (s "/n") silentHandler), .setAppState (2 : Nat)] = some (2 : Nat) :=
  ⟨by decide +kernel, rfl⟩

/-! ### C34: bodies -/

/-- **C34**: reading the body leaves an empty body and nothing else changed. -/
theorem C34_read_empties (rd : Read) (c c' : Context U) (h : rd.after c = .ok c') : c' = emptied c := by
  cases rd with
  | takeBody => simp only [Read.after, Context.takeBody, Except.ok.injEq] at h; exact h.symm
  | form pq =>
    simp only [Read.after, Context.form, Context.takeBody] at h
    split at h
    · simp only [Except.map, Except.ok.injEq] at h; exact h.symm
    · split at h
      · simp only [Except.map, Except.ok.injEq] at h; exact h.symm
      · simp [Except.map] at h
  | json fs =>
    simp only [Read.after, Context.json, Context.takeBody] at h
    split at h
    · simp only [Except.ok.injEq] at h; exact h.symm
    · split at h <;> (simp only [Except.ok.injEq] at h; exact h.symm)

/-- **C34**: after any sequence of at least one read, all further reads see an empty body: `take_body`
returns one, `form` and `json` decode the empty input. -/
theorem C34_second_read {α : Type} (rds : List Read) (hne : rds ≠ []) (c c' : Context U)
    (h : rds.foldlM (fun c rd => rd.after c) c = .ok c') :
    c' = emptied c ∧ c'.takeBody.1.bytes = [] ∧
    (∀ pq : Bytes → Except Crash (Except ObsidianError α),
      c'.form pq = (pq []).map (fun r => (r, c'))) ∧
    (∀ fs : Bytes → Except Str α, (c'.json fs).1 = match fs [] with
      | .ok x => .ok x | .error e => .error (.jsonError e)) := by
  have key : c' = emptied c := by
    induction rds generalizing c with
    | nil => exact absurd rfl hne
    | cons rd rds ih =>
      rw [List.foldlM_cons] at h
      cases h1 : rd.after c with
      | error e => rw [h1] at h; cases h
      | ok c1 =>
        rw [h1] at h
        have h2 := C34_read_empties rd c c1 h1
        cases rds with
        | nil => cases h; exact h2
        | cons rd' rds' => rw [ih (by simp) c1 h, h2]; rfl
  refine ⟨key, by rw [key]; rfl, fun pq => ?_, fun fs => ?_⟩
  · rw [key]
    simp only [Context.form, Context.takeBody, emptied]
    simp only [Body.aggregateChunk, Body.empty]
    simp only [Bool.false_eq_true, if_false, List.find?_nil, Option.getD_none]
    cases pq [] <;> rfl
  · rw [key]
    simp only [Context.json, Context.takeBody, emptied]
    simp only [Body.aggregateChunk, Body.empty]
    simp only [Bool.false_eq_true, if_false, List.find?_nil, Option.getD_none]
    cases fs [] <;> rfl

example : ∃ c : Context demoU, c.request.body.bytes = [104, 105] ∧ c.takeBody.1.bytes = [104, 105] ∧
    (c.takeBody.2.takeBody).1.bytes = [] :=
  ⟨{ ctx0 with request := { ctx0.request with body := ⟨[[104, 105]], false⟩ } }, rfl, rfl, rfl⟩

/-! ### C46: parameters -/

/-- **C46**: a parameter is an error exactly if it is absent or cannot be parsed, and the errors say
which; otherwise it is the parsed value. For requests, the parameters are those of the route. -/
theorem C46_param {α : Type} (a : App U σ) (req : Request U) (c : Context U) (hc : Starts a req c)
    (parse : Str → Option α) (name : Str) :
    (paramFor a.router req.path name = none → c.param parse name = .error .noneError) ∧
    (∀ v, paramFor a.router req.path name = some v →
      (∀ x, parse v = some x → c.param parse name = .ok x) ∧
      (parse v = none → c.param parse name =
        .error (.paramError (s "Failed to parse param " ++ name)))) := by
  rw [← hc.params]
  refine ⟨fun h => by rw [Context.param, h], fun v h => ⟨fun x hx => ?_, fun hx => ?_⟩⟩
  · rw [Context.param, h]; simp only [hx]
  · rw [Context.param, h]; simp only [hx]

/-- **C46** after the chain has done anything to the data and the response of the context: parameters
do not change. -/
theorem C46_stable {α : Type} (ops : List (StoreOp U)) (c : Context U) (res : Option Response)
    (parse : Str → Option α) (name : Str) :
    ({ ops.foldl (fun c o => o.run c) c with response := res } : Context U).param parse name =
      c.param parse name := by
  have := (C33_typed_store ops c).2
  rw [this]; rfl

example : ∃ c, Starts demoApp (demoReq .post "/items/42") c ∧
    c.param (fun x => if x = s "42" then some 42 else none) (s "id") = .ok 42 ∧
    c.param (fun x => if x = s "43" then some 43 else none) (s "id") =
      .error (.paramError (s "Failed to parse param id")) ∧
    c.param (fun x => some x) (s "other") = .error .noneError := by
  have he : (⟨[s "items", s ":id"], .route .post (sayHandler 2 "made")⟩ : Entry _ _) ∈
      logOf demoAppProg := by rw [demoAppProg_log]; simp
  have hp : segments (s "/items/42") = [s "items", s "42"] := by decide +kernel
  obtain ⟨_, h2, h3⟩ := C02_parameter_routes_reachable demoAppProg_build he
    (by decide +kernel) (path := s "/items/42") (b := [(s "id", s "42")])
    (by rw [hp]; exact .static (by decide +kernel) (by decide +kernel) (.param .nil))
  rw [← demoApp_router] at h2 h3
  obtain ⟨_, c, _, hc, _⟩ := C24_handler_runs demoApp (demoReq .post "/items/42") h2
  refine ⟨c, hc, ?_, ?_, ?_⟩
  · exact ((C46_param demoApp _ c hc _ (s "id")).2 (s "42") (by rw [← show s "/items/42" = (demoReq .post "/items/42").path from rfl, h3]; decide +kernel)).1 42 (by decide +kernel)
  · exact ((C46_param demoApp _ c hc _ (s "id")).2 (s "42") (by rw [← show s "/items/42" = (demoReq .post "/items/42").path from rfl, h3]; decide +kernel)).2 (by decide +kernel)
  · exact (C46_param demoApp _ c hc _ (s "other")).1 (by rw [← show s "/items/42" = (demoReq .post "/items/42").path from rfl, h3]; decide +kernel)

end Obsidian.Props
