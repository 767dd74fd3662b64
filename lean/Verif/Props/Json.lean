import Verif.Spec.Answers
import Verif.Props.Numeric
import Verif.Props.ContentType

/-
C78 (the JSON program of the README) and C81 (a service that reads and answers JSON).
-/
namespace Obsidian.Props
open Obsidian Spec
variable {U : Univ} {σ H : Type}

theorem joined_self (ss : List Str) : Joined ss ss :=
  ⟨ss.map fun x => [x], by simp, by induction ss <;> simp_all, by
    induction ss with
    | nil => rfl
    | cons x xs ih => rw [List.map_cons, List.map_cons, ← ih]; simp⟩

theorem joined_one {x : Str} {req : List Str} : Joined [x] req ↔ req = [x] := by
  constructor
  · rintro ⟨gs, h1, h2, rfl⟩
    match gs with
    | [] => simp at h2
    | g :: gs =>
      match g, h1 g (by simp) with
      | y :: g, _ =>
        simp only [List.flatten_cons, List.cons_append, List.cons.injEq, List.append_eq_nil_iff] at h2
        obtain ⟨rfl, rfl, h3⟩ := h2
        match gs with
        | [] => simp
        | g' :: gs => simp at h3; exact absurd h3.1 (h1 g' (by simp))
  · rintro rfl; exact joined_self _

theorem joined_none {req : List Str} : Joined [] req ↔ req = [] := by
  constructor
  · rintro ⟨gs, h1, h2, rfl⟩
    match gs with
    | [] => rfl
    | g :: gs => simp at h2; exact absurd h2.1 (h1 g (by simp))
  · rintro rfl; exact joined_self _

theorem flat_flatten (gs : List (List Str)) : flat gs.flatten = flat (gs.map flat) := by
  induction gs with
  | nil => rfl
  | cons g gs ih => rw [List.map_cons, flat_cons, List.flatten_cons, flat_append, ih]

theorem joined_flat {ss req : List Str} (h : Joined ss req) : flat req = flat ss := by
  obtain ⟨gs, _, rfl, rfl⟩ := h
  exact (flat_flatten gs).symm

theorem joined_of {ss req : List Str} (hs : ∀ x ∈ ss, x ≠ []) (hr : ∀ x ∈ req, x ≠ []) (h1 : flat ss = flat req)
    (h2 : ∀ pre post, req = pre ++ post → pre ≠ [] → ∃ a b, ss = a ++ b ∧ flat a = flat pre) : Joined ss req := by
  induction req generalizing ss with
  | nil =>
    rw [(flat_eq_nil hs).1 h1]; exact joined_self _
  | cons y ys ih =>
    obtain ⟨a, b, rfl, ha⟩ := h2 [y] ys rfl (by simp)
    have hy := hr y (by simp)
    rw [flat_cons, flat_nil, List.append_nil] at ha
    have ha0 : a ≠ [] := by rintro rfl; exact hy ha.symm
    rw [flat_append, ha, flat_cons] at h1
    obtain ⟨gs, g1, g2, g3⟩ := ih (ss := b) (fun x hx => hs x (by simp [hx])) (fun x hx => hr x (by simp [hx]))
      (List.append_cancel_left h1) (by
        intro pre post hp hne
        obtain ⟨a', b', hab, hf⟩ := h2 (y :: pre) post (by rw [hp]; rfl) (by simp)
        rw [flat_cons, ← ha] at hf
        rcases List.prefix_or_prefix_of_prefix (l₁ := a) (l₂ := a') ⟨b, rfl⟩ ⟨b', hab.symm⟩ with ⟨c, rfl⟩ | ⟨c, rfl⟩
        · rw [List.append_assoc] at hab
          rw [flat_append] at hf
          exact ⟨c, b', List.append_cancel_left hab, List.append_cancel_left hf⟩
        · exfalso
          rw [flat_append, List.append_assoc] at hf
          have h3 := congrArg List.length hf
          have h4 : flat pre = [] := by
            simp only [List.length_append] at h3
            exact List.length_eq_zero_iff.1 (by omega)
          exact hne ((flat_eq_nil fun x hx => hr x (by rw [hp]; simp [hx])).1 h4))
    exact ⟨a :: gs, by simpa [ha0] using g1, by rw [List.flatten_cons, g2], by rw [List.map_cons, ha, g3]⟩

/-- The only page is given exactly to the requests with its segments, some of its slashes perhaps left out. -/
theorem answers_joined {p : Page H} {path : Str} : p.Answers [p] path ↔ Joined (segments p.path) (segments path) := by
  constructor
  · rintro ⟨h1, h2⟩
    refine joined_of (segments_ne _) (segments_ne _) h1 fun pre post hp hne => ?_
    rcases h2 pre post hp hne with ⟨q, hq, a, b, g1, g2⟩ | ⟨q, hq, q', hq', c, d, u, v, g1, g2, g3⟩
    · simp at hq; subst hq; exact ⟨a, b, g1, g2⟩
    · simp at hq hq'; subst hq; subst hq'
      rw [g1] at g2
      have := List.append_cancel_left g2
      simp at this
      exact absurd this.1 g3
  · intro h
    refine ⟨(joined_flat h).symm, fun pre post hp _ => .inl ⟨p, by simp, ?_⟩⟩
    obtain ⟨gs, _, h2, h3⟩ := h
    rw [h3] at hp
    obtain ⟨ga, gb, rfl, rfl, rfl⟩ := List.map_eq_append_iff.1 hp
    refine ⟨ga.flatten, gb.flatten, by rw [← h2, List.flatten_append], ?_⟩
    exact flat_flatten _

/-- An application with one handler, at a fixed path. -/
theorem one_page (t : U.Ty) (v : Verb) {path : Str} (hf : Fixed path) (h : Handler U σ) :
    ∃ a : App U σ, App.calls (t := t) ((Page.calls [⟨v, path, h⟩]).map .reg) App.new = (a, none) ∧
      ∀ req, (req.method = v.method ∧ Joined (segments path) (segments req.path) →
          handlerFor a.router req.method req.path = some h ∧ chainFor a.router req.path = some []) ∧
        (¬ (req.method = v.method ∧ Joined (segments path) (segments req.path)) →
          AnswersOnly (a.serve req) 404 "404 Not Found") := by
  have hf' : ∀ p ∈ ([⟨v, path, h⟩] : List (Page (Handler U σ))), Fixed p.path := by
    intro p hp; simp at hp; subst hp; exact hf
  obtain ⟨r, hb⟩ : ∃ r, build (M := Middleware U σ) (Page.calls [⟨v, path, h⟩]) = (r, none) :=
    ⟨_, build_eq ((C77_accepted _ hf').2 (by simp))⟩
  refine ⟨⟨r, none⟩, calls_one (by rw [← hb]; rfl), fun req => ?_⟩
  obtain ⟨h1, _, h3⟩ := C77_pages_partial hf' hb req.method req.path
  have mem : (⟨v, path, h⟩ : Page (Handler U σ)) ∈ ([⟨v, path, h⟩] : List (Page (Handler U σ))) := by simp
  constructor
  · rintro ⟨hm, hp⟩
    have ha := (answers_joined (p := (⟨v, path, h⟩ : Page (Handler U σ)))).2 hp
    exact ⟨(h1 h).2 ⟨_, mem, hm.symm, ha, rfl⟩, h3 _ mem ha⟩
  · intro hn
    refine C24_no_handler _ req ?_
    cases hh : handlerFor r req.method req.path with
    | none => rfl
    | some k =>
      obtain ⟨p, hp, hm, ha, _⟩ := (h1 _).1 hh
      simp at hp; subst hp
      exact absurd ⟨hm.symm, (answers_joined (p := (⟨v, path, h⟩ : Page (Handler U σ)))).1 ha⟩ hn

/-- **C78**, the program "JSON Response" of the README, whatever value it encodes: it starts, answers
every `GET` request for `/user` with the JSON text, and every other request with 404. -/
theorem C78_json (parse : ParseName) (t : U.Ty) (text : Str) :
    ∃ a : App U σ, App.calls (t := t) [.reg (.get (s "/user") (jsonHandler parse (.ok text) []))] App.new = (a, none) ∧
      ∀ req, (req.method = .get ∧ segments req.path = [s "user"] → AnswersJson (a.serve req) text) ∧
        (¬ (req.method = .get ∧ segments req.path = [s "user"]) → AnswersOnly (a.serve req) 404 "404 Not Found") := by
  obtain ⟨a, h1, h2⟩ := one_page (U := U) (σ := σ) t .get (path := s "/user") (by decide +kernel)
    (jsonHandler parse (.ok text) [])
  rw [show segments (s "/user") = [s "user"] by decide +kernel] at h2
  simp only [joined_one] at h2
  refine ⟨a, h1, fun req => ⟨fun h w => ?_, (h2 req).2⟩⟩
  obtain ⟨g1, g2⟩ := (h2 req).1 h
  obtain ⟨sent, e1, e2, e3, e4, e5⟩ := C58_json_on_the_wire g1 g2 (by simp) (by simp) w
  refine ⟨sent, e1, e2, e3, e4, fun k => ?_⟩
  rw [e5]; exact lastValue_one _ _ k

example (req : Request U) (hm : req.method = .get) (hp : req.path = s "/user/") :
    req.method = .get ∧ segments req.path = [s "user"] := ⟨hm, by rw [hp]; decide +kernel⟩

/-! ### C81 -/

variable {α β : Type}

theorem finish_json (c : Context U) (t : Str) : ∃ m, finish (c.buildJson (.ok t)).ok = .ok ⟨200, m, Body.ofStr t⟩ ∧
    ∀ k, m.get k = if k = s "content-type" then some (s "application/json") else none := by
  obtain ⟨m, f1, f2⟩ := finish_response (c := { c with response := some (Response.ok.json (.ok t)) }) rfl
    (by
      intro e he
      have he' : e ∈ [(s "content-type", s "application/json")] := he
      simp at he'; subst he'; decide +kernel)
  refine ⟨m, ?_, fun k => by rw [f2]; exact lastValue_one _ _ k⟩
  have : (c.buildJson (.ok t)).ok = .ok { c with response := some (Response.ok.json (.ok t)) } := rfl
  rw [this, f1]; rfl

/-- **C81**, what holds for a service anywhere in any application, for every request that reaches it without
middlewares, if the body comes in one piece: a body that can be read gets the encoded answer, any other body
gets 500 with the error.  Missing: bodies in several pieces, where the claim is false. -/
theorem C81_anywhere_partial {a : App U σ} {req : Request U} (fromSlice : Bytes → Except Str α) (toText : β → Str) (f : α → β)
    (g1 : handlerFor a.router req.method req.path = some (jsonService fromSlice toText f))
    (g2 : chainFor a.router req.path = some []) :
    (req.body.fails = true → Refuses (a.serve req) (s "Input should not be None")) ∧
    (OnePiece req.body →
      (∀ v, fromSlice req.body.bytes = .ok v → AnswersJson (a.serve req) (toText (f v))) ∧
      (∀ e, fromSlice req.body.bytes = .error e → Refuses (a.serve req) e)) := by
  refine ⟨fun hbad => ?_, fun hone => ⟨fun v hv w => ?_, fun e he => ?_⟩⟩
  · refine refuses_of (e := .noneError) g1 g2 (fun c hc => ?_) rfl
    have := ((C39_single_chunk_partial (α := α) c).2 fromSlice).1 (by rw [hc.body]; exact hbad)
    rw [jsonService]
    generalize c.json fromSlice = o at this
    obtain ⟨o1, o2⟩ := o
    simp only at this; subst this; rfl
  · obtain ⟨chain, c, k1, k2, k3⟩ := C24_handler_runs _ req g1
    rw [g2] at k1; simp only [Option.some.injEq] at k1; subst k1
    have := ((C39_single_chunk_partial (α := α) c).2 fromSlice).2 (by rw [k2.body]; exact hone.1)
      (by rw [k2.body]; exact hone.2)
    rw [k2.body, hv] at this
    have hrun : ∃ c', jsonService (U := U) (σ := σ) fromSlice toText f c = .ret (Context.buildJson c' (.ok (toText (f v)))).ok := by
      rw [jsonService]
      generalize c.json fromSlice = o at this
      obtain ⟨o1, o2⟩ := o
      simp only [Except.mapError] at this; subst this; exact ⟨o2, rfl⟩
    obtain ⟨c', hrun⟩ := hrun
    obtain ⟨m, f1, f2⟩ := finish_json c' (toText (f v))
    refine ⟨⟨200, m, Body.ofStr (toText (f v))⟩, ?_, rfl, (bytes_ofStr _).1, (bytes_ofStr _).2, f2⟩
    rw [k3, execNext, hrun]
    simp only [Act.ret_bind, f1]; rfl
  · refine refuses_of (e := .jsonError e) g1 g2 (fun c hc => ?_) rfl
    have := ((C39_single_chunk_partial (α := α) c).2 fromSlice).2 (by rw [hc.body]; exact hone.1)
      (by rw [hc.body]; exact hone.2)
    rw [hc.body, he] at this
    rw [jsonService]
    generalize c.json fromSlice = o at this
    obtain ⟨o1, o2⟩ := o
    simp only [Except.mapError] at this; subst this; rfl

/-- **C81**, what holds for every request to a service at a fixed path, if the body comes in one
piece: a body that can be read gets the encoded answer, any other body gets 500 with the error, and requests
with other methods or other paths get 404; but requests in which slashes of the path are left out are
requests to the service (`Joined`, see C77).  Missing: bodies in several pieces, where the claim is false. -/
theorem C81_service_partial (t : U.Ty) {path : Str} (hf : Fixed path)
    (fromSlice : Bytes → Except Str α) (toText : β → Str) (f : α → β) :
    ∃ a : App U σ, App.calls (t := t) [.reg (.post path (jsonService fromSlice toText f))] App.new = (a, none) ∧
      ∀ req,
        (req.method = .post ∧ Joined (segments path) (segments req.path) →
          (req.body.fails = true → Refuses (a.serve req) (s "Input should not be None")) ∧
          (OnePiece req.body →
            (∀ v, fromSlice req.body.bytes = .ok v → AnswersJson (a.serve req) (toText (f v))) ∧
            (∀ e, fromSlice req.body.bytes = .error e → Refuses (a.serve req) e))) ∧
        (¬ (req.method = .post ∧ Joined (segments path) (segments req.path)) →
          AnswersOnly (a.serve req) 404 "404 Not Found") := by
  obtain ⟨a, h1, h2⟩ := one_page (U := U) (σ := σ) t .post hf (jsonService fromSlice toText f)
  exact ⟨a, h1, fun req => ⟨fun h => C81_anywhere_partial fromSlice toText f ((h2 req).1 h).1 ((h2 req).1 h).2, (h2 req).2⟩⟩

/-- **C81**, round trip: if what is written can be read, a service that answers with the value it was sent
returns a body that is read as this value.  Missing: as above. -/
theorem C81_echo_partial (t : U.Ty) {path : Str} (hf : Fixed path)
    (fromSlice : Bytes → Except Str α) (toText : α → Str) (hrt : ∀ v, fromSlice (utf8 (toText v)) = .ok v) :
    ∃ a : App U σ, App.calls (t := t) [.reg (.post path (jsonService fromSlice toText id))] App.new = (a, none) ∧
      ∀ req v w, req.method = .post → segments req.path = segments path → OnePiece req.body → req.body.bytes = utf8 (toText v) →
        ∃ sent, (a.serve req).run w = ⟨.ok sent, w, []⟩ ∧ sent.status = 200 ∧ fromSlice sent.body.bytes = .ok v := by
  obtain ⟨a, h1, h2⟩ := C81_service_partial (σ := σ) t hf fromSlice toText id
  refine ⟨a, h1, fun req v w hm hp hone hb => ?_⟩
  obtain ⟨sent, e1, e2, e3, _⟩ := ((((h2 req).1 ⟨hm, by rw [hp]; exact joined_self _⟩).2 hone).1 v (by rw [hb, hrt])) w
  exact ⟨sent, e1, e2, by rw [e3]; exact hrt v⟩

/-- Lists of bytes as JSON arrays, for examples. -/
def readBytes (b : Bytes) : Except Str Bytes :=
  match (fromUtf8 b).bind readJson with
  | some v => .ok v
  | none => .error (s "expected `,` or `]`")

theorem readBytes_utf8 (t : Str) : readBytes (utf8 t) = match readJson t with
    | some v => .ok v | none => .error (s "expected `,` or `]`") := by
  rw [readBytes, fromUtf8_eq.2 rfl]; rfl

theorem readBytes_write (v : Bytes) : readBytes (utf8 (jsonNumbers v)) = .ok v := by
  obtain ⟨t, h1, h2⟩ := C58_bytes_round_trip v
  have : (wire (.bytes v)).body = utf8 (jsonNumbers v) := rfl
  rw [← this, h1, readBytes_utf8, h2]

/-- A service that echoes lists of bytes. -/
example (t : U.Ty) : ∃ a : App U σ,
    App.calls (t := t) [.reg (.post (s "/api/echo") (jsonService readBytes jsonNumbers id))] App.new = (a, none) ∧
      ∀ req v w, req.method = .post → segments req.path = segments (s "/api/echo") → OnePiece req.body →
        req.body.bytes = utf8 (jsonNumbers v) →
        ∃ sent, (a.serve req).run w = ⟨.ok sent, w, []⟩ ∧ sent.status = 200 ∧ readBytes sent.body.bytes = .ok v :=
  C81_echo_partial t (by decide +kernel) readBytes jsonNumbers readBytes_write

/-- **C81 fails** for bodies in several pieces: `[1,2]` is refused if it comes as `[1` and `,2]`. -/
theorem C81_false (t : U.Ty) : ∃ (a : App U σ) (whole split : Body),
    App.calls (t := t) [.reg (.post (s "/echo") (jsonService readBytes jsonNumbers id))] App.new = (a, none) ∧
    whole.bytes = split.bytes ∧ split.fails = false ∧
    ∀ req : Request U, req.method = .post → req.path = s "/echo" →
      (req.body = whole → AnswersJson (a.serve req) (s "[1,2]")) ∧
      (req.body = split → Refuses (a.serve req) (s "expected `,` or `]`")) := by
  have hfix : Fixed (s "/echo") := by decide +kernel
  obtain ⟨a, h1, h2⟩ := one_page (U := U) (σ := σ) t .post hfix (jsonService readBytes jsonNumbers id)
  obtain ⟨a', h1', h2'⟩ := C81_service_partial (U := U) (σ := σ) t hfix readBytes jsonNumbers id
  have : a' = a := by
    have h3 : App.calls (U := U) (σ := σ) (t := t) [.reg (.post (s "/echo") (jsonService readBytes jsonNumbers id))] App.new = (a, none) := h1
    rw [h1'] at h3; injection h3
  subst this
  refine ⟨a', ⟨[utf8 (s "[1,2]")], false⟩, ⟨[utf8 (s "[1"), utf8 (s ",2]")], false⟩, h1', by decide +kernel, rfl,
    fun req hm hp => ⟨fun hb => ?_, fun hb => ?_⟩⟩
  · have hr : readBytes (utf8 (s "[1,2]")) = .ok [1, 2] := by
      have h : readJson (s "[1,2]") = some [1, 2] := by decide +kernel
      rw [readBytes_utf8, h]
    have hj : jsonNumbers [1, 2] = s "[1,2]" := by decide +kernel
    have := (((h2' req).1 ⟨hm, by rw [hp]; exact joined_self _⟩).2 (by rw [hb]; exact ⟨rfl, by decide +kernel⟩)).1 [1, 2]
      (by rw [hb, ← hr]; congr 1)
    rw [id, hj] at this
    exact this
  · obtain ⟨g1, g2⟩ := (h2 req).1 ⟨hm, by rw [hp]; exact joined_self _⟩
    refine refuses_of (e := .jsonError (s "expected `,` or `]`")) g1 g2 (fun c hc => ?_) rfl
    have hagg : Body.aggregateChunk ⟨[utf8 (s "[1"), utf8 (s ",2]")], false⟩ = some (utf8 (s "[1")) := by decide +kernel
    have hr : readBytes (utf8 (s "[1")) = .error (s "expected `,` or `]`") := by
      have h : readJson (s "[1") = none := by decide +kernel
      rw [readBytes_utf8, h]
    have : c.request.body = _ := hc.body.trans hb
    simp only [jsonService, Context.json, Context.takeBody, this, hagg, hr]

end Obsidian.Props
