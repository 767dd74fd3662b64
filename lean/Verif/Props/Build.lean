import Verif.Spec.Answers
import Verif.Props.AppCommon

/-
C45: building responses.
-/
namespace Obsidian.Props
open Obsidian Spec
variable {U : Univ}

theorem setHeader_headers (r : Response) (k : HeaderName) (v : Str) :
    (r.setHeader k v).headers = some (r.headers.getD [] ++ [(k, v)]) ∧
    (r.setHeader k v).status = r.status ∧ (r.setHeader k v).body = r.body := by
  rw [Response.setHeader]; split <;> simp [*]

theorem setHeaders_headers (r : Response) (hs : List (HeaderName × Str)) :
    (r.setHeaders hs).headers = some (r.headers.getD [] ++ hs) ∧
    (r.setHeaders hs).status = r.status ∧ (r.setHeaders hs).body = r.body := by
  rw [Response.setHeaders]; split <;> simp [*]

theorem parseNames_ok (parse : ParseName) (hs : List (Str × Str))
    (h : ∀ k ∈ hs.map (·.1), parse k ≠ none) :
    Response.parseNames parse hs = .ok (hs.map (fun (k, v) => ((parse k).getD [], v))) := by
  induction hs with
  | nil => rfl
  | cons e hs ih =>
    obtain ⟨k, v⟩ := e
    rw [Response.parseNames]
    cases hk : parse k with
    | none => exact absurd hk (h k (by simp))
    | some k' => simp only [ih (fun k hk => h k (by simp at hk ⊢; exact Or.inr hk)), List.map_cons, hk]; rfl

theorem parseNames_bad (parse : ParseName) (hs : List (Str × Str))
    (h : ∃ k ∈ hs.map (·.1), parse k = none) :
    ∃ k, parse k = none ∧ Response.parseNames parse hs = .error (.headerName k) := by
  induction hs with
  | nil => simp at h
  | cons e hs ih =>
    obtain ⟨k, v⟩ := e
    rw [Response.parseNames]
    cases hk : parse k with
    | none => exact ⟨k, hk, rfl⟩
    | some k' =>
      obtain ⟨k2, h1, h2⟩ := h
      have h3 : ∃ k ∈ hs.map (·.1), parse k = none := by
        rw [List.map_cons] at h1
        rcases List.mem_cons.1 h1 with h1 | h1
        · simp only at h1; rw [h1, hk] at h2; simp at h2
        · exact ⟨k2, h1, h2⟩
      obtain ⟨k3, h4, h5⟩ := ih h3
      exact ⟨k3, h4, by simp only [h5]⟩

/-- One call. -/
theorem respCall_run (parse : ParseName) (o : RespCall) (r : Response)
    (h : ∀ k ∈ o.names, parse k ≠ none) :
    ∃ r', o.run parse r = .ok r' ∧ r'.status = o.status.getD r.status ∧
      r'.body = o.body.getD r.body ∧ r'.headers.getD [] = r.headers.getD [] ++ o.headers parse := by
  cases o with
  | setStatus x => exact ⟨_, rfl, rfl, rfl, by simp [RespCall.headers, Response.setStatus]⟩
  | setBody b => exact ⟨_, rfl, rfl, rfl, by simp [RespCall.headers, Response.setBody]⟩
  | setHeader k v =>
    have := setHeader_headers r k v
    exact ⟨_, rfl, this.2.1, this.2.2, by rw [this.1]; rfl⟩
  | setHeaderStr k v =>
    rw [RespCall.run, Response.setHeaderStr]
    cases hk : parse k with
    | none => exact absurd hk (h k (by simp [RespCall.names]))
    | some k' =>
      have := setHeader_headers r k' v
      exact ⟨_, rfl, this.2.1, this.2.2, by rw [this.1]; simp [RespCall.headers, hk]⟩
  | setContentType v =>
    have := setHeader_headers r contentType v
    exact ⟨_, rfl, this.2.1, this.2.2, by rw [Response.setContentType, this.1]; rfl⟩
  | setHeaders hs =>
    have := setHeaders_headers r hs
    exact ⟨_, rfl, this.2.1, this.2.2, by rw [this.1]; rfl⟩
  | setHeadersStr hs =>
    rw [RespCall.run, Response.setHeadersStr, parseNames_ok parse hs h]
    have := setHeaders_headers r (hs.map (fun (k, v) => ((parse k).getD [], v)))
    exact ⟨_, rfl, this.2.1, this.2.2, by rw [this.1]; rfl⟩
  | html b =>
    have := setHeader_headers r contentType (s "text/html")
    refine ⟨_, rfl, this.2.1, rfl, ?_⟩
    rw [Response.html, Response.setBody, Response.setContentType]
    simp only
    rw [this.1]; rfl
  | json e =>
    have := setHeader_headers r contentType (s "application/json")
    cases e with
    | ok x =>
      refine ⟨_, rfl, this.2.1, rfl, ?_⟩
      simp only [Response.json, Response.setBody, Response.setContentType]
      rw [this.1]; rfl
    | error x =>
      refine ⟨_, rfl, rfl, rfl, ?_⟩
      simp only [Response.json, Response.setBody, Response.setContentType, Response.setStatus]
      rw [this.1]; rfl
  | file x =>
    cases x with
    | ok x => exact ⟨_, rfl, rfl, rfl, by simp [RespCall.headers, Response.file, Response.setBody]⟩
    | error x =>
      exact ⟨_, rfl, rfl, rfl, by simp [RespCall.headers, Response.file, Response.setBody, Response.setStatus]⟩

/-- **C45**: after any sequence of calls the status is the one set last, the body is the one set last,
and the headers are all the headers set, in the order of the calls. (If no header name given as text is
invalid; see `C45_invalid_names`.) -/
theorem C45_calls (parse : ParseName) (os : List RespCall) (r : Response)
    (h : ∀ o ∈ os, ∀ k ∈ o.names, parse k ≠ none) :
    ∃ r', os.foldlM (fun r o => o.run parse r) r = .ok r' ∧
      r'.status = (os.filterMap RespCall.status).getLast?.getD r.status ∧
      r'.body = (os.filterMap RespCall.body).getLast?.getD r.body ∧
      r'.headers.getD [] = r.headers.getD [] ++ os.flatMap (RespCall.headers parse) := by
  induction os generalizing r with
  | nil => exact ⟨r, rfl, rfl, rfl, by simp⟩
  | cons o os ih =>
    obtain ⟨r1, h1, h2, h3, h4⟩ := respCall_run parse o r (h o List.mem_cons_self)
    obtain ⟨r', k1, k2, k3, k4⟩ := ih r1 (fun o ho => h o (List.mem_cons_of_mem _ ho))
    refine ⟨r', ?_, ?_, ?_, ?_⟩
    · rw [List.foldlM_cons, h1]; exact k1
    · rw [k2, h2, List.filterMap_cons]
      cases o.status with
      | none => rfl
      | some x => rw [List.getLast?_cons]; rfl
    · rw [k3, h3, List.filterMap_cons]
      cases o.body with
      | none => rfl
      | some x => rw [List.getLast?_cons]; rfl
    · rw [k4, h4, List.flatMap_cons, List.append_assoc]

/-- **C45**: an invalid header name given as text panics, and this is the only way in which building a
response can panic. -/
theorem C45_invalid_names (parse : ParseName) (os : List RespCall) (r : Response) :
    (∃ o ∈ os, ∃ k ∈ o.names, parse k = none) ↔
    ∃ k, parse k = none ∧ os.foldlM (fun r o => o.run parse r) r = .error (.headerName k) := by
  constructor
  · intro h
    induction os generalizing r with
    | nil => obtain ⟨o, ho, _⟩ := h; simp at ho
    | cons o os ih =>
      by_cases hb : ∃ k ∈ o.names, parse k = none
      · have : ∃ k, parse k = none ∧ o.run parse r = .error (.headerName k) := by
          cases o with
          | setHeaderStr k v =>
            obtain ⟨k', h1, h2⟩ := hb
            simp only [RespCall.names, List.mem_singleton] at h1
            subst h1
            exact ⟨k', h2, by rw [RespCall.run, Response.setHeaderStr, h2]⟩
          | setHeadersStr hs =>
            obtain ⟨k, h1, h2⟩ := parseNames_bad parse hs hb
            exact ⟨k, h1, by rw [RespCall.run, Response.setHeadersStr, h2]⟩
          | _ => obtain ⟨k', h1, h2⟩ := hb; simp [RespCall.names] at h1
        obtain ⟨k, h1, h2⟩ := this
        exact ⟨k, h1, by rw [List.foldlM_cons, h2]; rfl⟩
      · obtain ⟨r1, h1, _⟩ := respCall_run parse o r (fun k hk hn => hb ⟨k, hk, hn⟩)
        obtain ⟨o', ho', hk⟩ := h
        rcases List.mem_cons.1 ho' with rfl | ho'
        · exact absurd hk hb
        · obtain ⟨k, h2, h3⟩ := ih r1 ⟨o', ho', hk⟩
          exact ⟨k, h2, by rw [List.foldlM_cons, h1]; exact h3⟩
  · rintro ⟨k, hk, he⟩
    refine Classical.byContradiction fun hno => ?_
    obtain ⟨r', h1, _⟩ := C45_calls parse os r (fun o ho k hk hn => hno ⟨o, ho, k, hk, hn⟩)
    rw [h1] at he; cases he

theorem builder_run (parse : ParseName) (o : BuilderCall) (b : ResponseBuilder U) :
    o.run parse b = (o.resp.run parse b.response).map (fun r => ⟨b.ctx, r⟩) := by
  cases o with
  | withHeaderStr k v =>
    simp only [BuilderCall.run, BuilderCall.resp, RespCall.run, ResponseBuilder.withHeaderStr]
    cases b.response.setHeaderStr parse k v <;> rfl
  | withHeadersStr hs =>
    simp only [BuilderCall.run, BuilderCall.resp, RespCall.run, ResponseBuilder.withHeadersStr]
    cases b.response.setHeadersStr parse hs <;> rfl
  | _ => rfl

/-- **C45** for `ctx.build(..).with_..(..).ok()`: the result is the context with the response that has
the status set last, the original body and all headers in order; the rest of the context is as it was. -/
theorem C45_builder (parse : ParseName) (c : Context U) (res : Responder) (os : List BuilderCall)
    (h : ∀ o ∈ os, ∀ k ∈ o.resp.names, parse k ≠ none) :
    ∃ (b : ResponseBuilder U) (r : Response),
      os.foldlM (fun b o => o.run parse b) (c.build res) = .ok b ∧
      b.ok = .ok { c with response := some r } ∧
      r.status = ((os.map BuilderCall.resp).filterMap RespCall.status).getLast?.getD res.respondTo.status ∧
      r.body = res.respondTo.body ∧
      r.headers.getD [] = res.respondTo.headers.getD [] ++
        (os.map BuilderCall.resp).flatMap (RespCall.headers parse) := by
  have key : ∀ (os : List BuilderCall) (b : ResponseBuilder U),
      os.foldlM (fun b o => BuilderCall.run parse o b) b =
        ((os.map BuilderCall.resp).foldlM (fun r o => RespCall.run parse o r) b.response).map
          (fun r => (⟨b.ctx, r⟩ : ResponseBuilder U)) := by
    intro os
    induction os with
    | nil => intro b; rfl
    | cons o os ih =>
      intro b
      rw [List.foldlM_cons, builder_run, List.map_cons, List.foldlM_cons]
      cases o.resp.run parse b.response with
      | error e => rfl
      | ok r => exact ih ⟨b.ctx, r⟩
  obtain ⟨r', h1, h2, h3, h4⟩ := C45_calls parse (os.map BuilderCall.resp) res.respondTo
    (fun o ho k hk => by
      obtain ⟨o', ho', rfl⟩ := List.mem_map.1 ho
      exact h o' ho' k hk)
  refine ⟨⟨c, r'⟩, r', ?_, rfl, h2, ?_, h4⟩
  · rw [key]; simp only [Context.build]; rw [h1]; rfl
  · rw [h3]
    have : (os.map BuilderCall.resp).filterMap RespCall.body = [] := by
      rw [List.filterMap_eq_nil_iff]
      intro o ho
      obtain ⟨o', _, rfl⟩ := List.mem_map.1 ho
      cases o' <;> rfl
    rw [this]; rfl

/-- Names that are accepted in the example. -/
def demoParse : ParseName := fun n => if n = s "X-A" then some (s "x-a") else none

example (c : Context demoU) :
    ∃ (b : ResponseBuilder demoU) (r : Response),
      ([.withStatus 201, .withHeaderStr (s "X-A") (s "1"), .withStatus 202, .withHeader (s "x-b") (s "2")] :
        List BuilderCall).foldlM (fun b o => BuilderCall.run demoParse o b) (c.build (.str (s "hi"))) = .ok b ∧
      b.ok = .ok { c with response := some r } ∧ r.status = 202 ∧ r.body = Body.ofStr (s "hi") ∧
      r.headers.getD [] = [(s "content-type", s "text/plain; charset=utf-8"), (s "x-a", s "1"), (s "x-b", s "2")] := by
  obtain ⟨b, r, h1, h2, h3, h4, h5⟩ := C45_builder demoParse c (.str (s "hi"))
    [.withStatus 201, .withHeaderStr (s "X-A") (s "1"), .withStatus 202, .withHeader (s "x-b") (s "2")]
    (by decide +kernel)
  exact ⟨b, r, h1, h2, h3, h4, h5.trans (by decide +kernel)⟩

example : ([.setStatus 201, .setHeadersStr [(s "X-A", s "1"), (s "é", s "2")]] : List RespCall).foldlM
    (fun r o => RespCall.run demoParse o r) Response.ok = .error (.headerName (s "é")) := by rfl

end Obsidian.Props
