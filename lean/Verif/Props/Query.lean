import Verif.Spec.Answers
import Verif.Props.Complain

/-
C86: services that read the query of the request, for all requests.
-/
namespace Obsidian.Props
open Obsidian Spec
variable {U : Univ} {σ : Type}

theorem each_texts (repair : Bytes → Str) {parts : List (Bytes × Bytes)} {pairs : List (Str × Str)} :
    Each (fun b t => ReadsAs repair b.1 t.1 ∧ ReadsAs repair b.2 t.2) parts pairs ↔
      pairs = parts.map (textsOf repair) := by
  constructor
  · intro h
    induction h with
    | nil => rfl
    | cons h _ ih => rw [List.map_cons, ← ih, textsOf, textOf_reads.2 h.1, textOf_reads.2 h.2]
  · rintro rfl
    induction parts with
    | nil => exact .nil
    | cons p ps ih => exact .cons ⟨textOf_reads.1 rfl, textOf_reads.1 rfl⟩ ih

theorem asks_iff {repair : Bytes → Str} {query : Option Str} {pairs : List (Str × Str)} :
    Asks repair query pairs ↔ pairs = urlParse repair (utf8 (query.getD [])) := by
  constructor
  · rintro ⟨parts, hw, hr⟩
    rw [urlParse_parts repair hw]; exact (each_texts repair).1 hr
  · intro h
    obtain ⟨parts, hw, _⟩ := C62_every_input (utf8 (query.getD []))
    exact ⟨parts, hw, (each_texts repair).2 (by rw [h, urlParse_parts repair hw])⟩

/-- **C86**: every query stands for exactly one list of names and values. -/
theorem C86_every_query (repair : Bytes → Str) (query : Option Str) :
    ∃ pairs, Asks repair query pairs ∧ ∀ pairs', Asks repair query pairs' → pairs' = pairs :=
  ⟨_, asks_iff.2 rfl, fun _ h => asks_iff.1 h⟩

/-- The query service, in terms of `parse_queries`. -/
theorem query_service {a : App U σ} {req : Request U} (repair : Bytes → Str) (i1 i2 : Iter) (shape : Shape) (answer : Decoded → Str)
    (g1 : handlerFor a.router req.method req.path = some (queryService repair i1 i2 shape answer))
    (g2 : chainFor a.router req.path = some []) :
    (∀ v, parseQueries (urlParse repair) i1 i2 shape (utf8 (req.query.getD [])) = .ok (.ok v) →
      AnswersText (a.serve req) (answer v)) ∧
    (∀ e, parseQueries (urlParse repair) i1 i2 shape (utf8 (req.query.getD [])) = .ok (.error e) →
      Refuses (a.serve req) e.text) := by
  have run : ∀ {c : Context U}, Starts a req c → c.queryParams (parseQueries (urlParse repair) i1 i2 shape) =
      parseQueries (urlParse repair) i1 i2 shape (utf8 (req.query.getD [])) := by
    intro c hc
    rw [Context.queryParams, hc.query]
    cases req.query <;> rfl
  refine ⟨fun v hv w => ?_, fun e he => ?_⟩
  · obtain ⟨chain, c, k1, k2, k3⟩ := C24_handler_runs _ req g1
    rw [g2] at k1; simp only [Option.some.injEq] at k1; subst k1
    obtain ⟨m, f1, f2⟩ := finish_text c (answer v)
    refine ⟨⟨200, m, Body.ofStr (answer v)⟩, ?_, rfl, (bytes_ofStr _).1, (bytes_ofStr _).2, f2⟩
    rw [k3, execNext, queryService, run k2, hv]
    simp only [Act.ret_bind, f1]; rfl
  · refine refuses_of (e := e) g1 g2 (fun c hc => ?_) rfl
    rw [queryService, run hc, he]

/-- **C86**, for a service anywhere in any application, and every request that reaches it without middlewares: a
query that can be read gets the answer; if something is wrong with what was given, the answer is 500 with a
text that says so; if only a field is lacking, 500 with its name.  Every request falls under one of these.
The body does not matter. -/
theorem C86_anywhere {a : App U σ} {req : Request U} (repair : Bytes → Str) {i1 i2 : Iter} (h1 : Visits i1) (h2 : Visits i2)
    {fields : List Field} (hd : Distinct fields) (deny : Option (Str → Str)) (answer : Decoded → Str)
    (hh : handlerFor a.router req.method req.path = some (queryService repair i1 i2 (.struct fields deny) answer))
    (hch : chainFor a.router req.path = some []) {pairs : List (Str × Str)} (hq : Asks repair req.query pairs)
    {es : List (Str × List Str)} (hes : Collects pairs es) :
    (∀ vs, StructValue Means fields deny es vs → AnswersText (a.serve req) (answer (.struct vs))) ∧
    (∀ e, EntryComplaint fields deny es e → ∃ e', EntryComplaint fields deny es e' ∧ Refuses (a.serve req) e'.text) ∧
    ((∀ e, ¬ EntryComplaint fields deny es e) → ∀ e, LackComplaint fields es e → Refuses (a.serve req) e.text) ∧
    ((∃ vs, StructValue Means fields deny es vs) ∨ (∃ e, EntryComplaint fields deny es e) ∨
      (∃ e, LackComplaint fields es e)) := by
  obtain ⟨g1, g2⟩ := query_service repair i1 i2 (.struct fields deny) answer hh hch
  have hp := asks_iff.1 hq
  rw [hp] at hes
  obtain ⟨_, c2, c3, c4⟩ := C84_struct (deny := deny) hd (urlParse repair) h1 h2 _ hes
  have val : ∀ vs, _ ↔ StructValue Means fields deny es vs := C37_form hd (urlParse repair) h1 h2 _ hes.1 hes.2
  refine ⟨fun vs hvs => g1 _ ((val vs).2 hvs), fun e he => ?_, fun hno e he => g2 _ (c3 hno e he), ?_⟩
  · obtain ⟨e', h3, h4⟩ := c2 e he
    exact ⟨e', h4, g2 _ h3⟩
  · by_cases he : ∃ e, EntryComplaint fields deny es e
    · exact .inr (.inl he)
    · by_cases hl : ∃ e, LackComplaint fields es e
      · exact .inr (.inr hl)
      · obtain ⟨vs, hvs⟩ := c4 (fun e h => he ⟨e, h⟩) (fun e h => hl ⟨e, h⟩)
        exact .inl ⟨vs, (val vs).1 hvs⟩

/-- **C86**, every request to an application that consists of a service that reads the query, at a fixed path:
requests with other methods or other paths get 404, those to the service get what `C86_anywhere` says; requests in
which slashes of the path are left out are requests to the service (`Joined`, see C77). -/
theorem C86_service (t : U.Ty) {path : Str} (hf : Fixed path)
    (repair : Bytes → Str) {i1 i2 : Iter} (h1 : Visits i1) (h2 : Visits i2) {fields : List Field}
    (hd : Distinct fields) (deny : Option (Str → Str)) (answer : Decoded → Str) :
    ∃ a : App U σ,
      App.calls (t := t) [.reg (.get path (queryService repair i1 i2 (.struct fields deny) answer))] App.new = (a, none) ∧
      ∀ req,
        (req.method = .get ∧ Joined (segments path) (segments req.path) →
          ∀ pairs, Asks repair req.query pairs → ∀ es, Collects pairs es →
            (∀ vs, StructValue Means fields deny es vs → AnswersText (a.serve req) (answer (.struct vs))) ∧
            (∀ e, EntryComplaint fields deny es e → ∃ e', EntryComplaint fields deny es e' ∧ Refuses (a.serve req) e'.text) ∧
            ((∀ e, ¬ EntryComplaint fields deny es e) → ∀ e, LackComplaint fields es e → Refuses (a.serve req) e.text) ∧
            ((∃ vs, StructValue Means fields deny es vs) ∨ (∃ e, EntryComplaint fields deny es e) ∨
              (∃ e, LackComplaint fields es e))) ∧
        (¬ (req.method = .get ∧ Joined (segments path) (segments req.path)) →
          AnswersOnly (a.serve req) 404 "404 Not Found") := by
  obtain ⟨a, ha, hreq⟩ := one_page (U := U) (σ := σ) t .get hf (queryService repair i1 i2 (.struct fields deny) answer)
  exact ⟨a, ha, fun req => ⟨fun h pairs hq es hes =>
    C86_anywhere repair h1 h2 hd deny answer ((hreq req).1 h).1 ((hreq req).1 h).2 hq hes, (hreq req).2⟩⟩

/-- **C86**, round trip: the struct that a client writes into the query, in whatever way, is what the service
answers about. -/
theorem C86_submitted (t : U.Ty) {path : Str} (hf : Fixed path)
    (repair : Bytes → Str) {i1 i2 : Iter} (h1 : Visits i1) (h2 : Visits i2) {fields : List Field}
    (hd : Distinct fields) (answer : Decoded → Str) :
    ∃ a : App U σ,
      App.calls (t := t) [.reg (.get path (queryService repair i1 i2 (.struct fields none) answer))] App.new = (a, none) ∧
      ∀ req vs pairs query, req.method = .get → Joined (segments path) (segments req.path) → req.query = some query →
        Submits fields vs pairs → WritesForm pairs (utf8 query) → AnswersText (a.serve req) (answer (.struct vs)) := by
  obtain ⟨a, ha, hreq⟩ := C86_service (U := U) (σ := σ) t hf repair h1 h2 hd none answer
  refine ⟨a, ha, fun req vs pairs query hm hp hq hs hw => ?_⟩
  have hes := entries_spec h1 h2 pairs
  refine (((hreq req).1 ⟨hm, hp⟩) pairs (asks_iff.2 ?_) _ hes).1 vs (submits_value hs (.inl rfl) hes.2)
  rw [hq]; exact (urlParse_writes repair hw).symm

/-- The query of `examples/main.rs`: `?id=7&status=on` is answered, and without a query the first field is
found lacking. -/
example (t : U.Ty) (repair : Bytes → Str) (answer : Decoded → Str) : ∃ a : App U σ,
    App.calls (t := t) [.reg (.get (s "/user") (queryService repair forwards backwards
      (.struct [⟨s "id", [], string, none⟩, ⟨s "status", [], string, none⟩] none) answer))] App.new = (a, none) ∧
    ∀ req, req.method = .get → segments req.path = [s "user"] →
      (req.query = some (s "id=7&status=on") →
        AnswersText (a.serve req) (answer (.struct [.str (s "7"), .str (s "on")]))) ∧
      (req.query = none → Refuses (a.serve req) (s "missing field `id`")) := by
  obtain ⟨a, ha, hreq⟩ := one_page (U := U) (σ := σ) t .get (path := s "/user") (by decide +kernel)
    (queryService repair forwards backwards
      (.struct [⟨s "id", [], string, none⟩, ⟨s "status", [], string, none⟩] none) answer)
  obtain ⟨a', ha', hreq'⟩ := C86_service (U := U) (σ := σ) t (path := s "/user") (by decide +kernel)
    repair forwards_visits backwards_visits
    (fields := [⟨s "id", [], string, none⟩, ⟨s "status", [], string, none⟩])
    (by
      simp only [Distinct, List.pairwise_cons, List.mem_singleton, forall_eq, List.not_mem_nil, false_imp_iff, implies_true,
        List.Pairwise.nil, and_true, Field.has, List.contains_nil, Bool.or_false, decide_eq_true_eq]
      rintro _ rfl; decide +kernel) none answer
  have : a' = a := by
    rw [show App.calls (t := t) [.reg (.get (s "/user") _)] App.new = (a, none) from ha] at ha'
    exact (congrArg Prod.fst ha').symm
  subst this
  have id_ : WritesPart (utf8 (s "id"), utf8 (s "7")) (utf8 (s "id=7")) := by
    have h1 : utf8 (s "id=7") = utf8 (s "id") ++ 61 :: utf8 (s "7") := by decide +kernel
    rw [h1]
    exact .both (by decide +kernel) (plainWrites (by unfold special; decide +kernel))
      (plainWrites (by unfold special; decide +kernel))
  have status : WritesPart (utf8 (s "status"), utf8 (s "on")) (utf8 (s "status=on")) := by
    have h1 : utf8 (s "status=on") = utf8 (s "status") ++ 61 :: utf8 (s "on") := by decide +kernel
    rw [h1]
    exact .both (by decide +kernel) (plainWrites (by unfold special; decide +kernel))
      (plainWrites (by unfold special; decide +kernel))
  have hw : WritesForm [(s "id", s "7"), (s "status", s "on")] (utf8 (s "id=7&status=on")) := by
    have h1 : utf8 (s "id=7&status=on") = utf8 (s "id=7") ++ 38 :: utf8 (s "status=on") := by decide +kernel
    rw [h1]; exact .more id_ (.one status)
  refine ⟨a', ha, fun req hm hp => ?_⟩
  have hj : req.method = .get ∧ Joined (segments (s "/user")) (segments req.path) :=
    ⟨hm, by rw [hp]; exact (show segments (s "/user") = [s "user"] by decide +kernel) ▸ joined_self _⟩
  refine ⟨fun hq => ?_, fun hq => ?_⟩
  · refine (query_service _ _ _ _ _ ((hreq req).1 hj).1 ((hreq req).1 hj).2).1 _ ?_
    rw [hq, Option.getD_some, parseQueries, urlParse_writes repair hw]; rfl
  · have hno : Collects [] [] := ⟨by simp [KeysDistinct], fun k vals => by simp [valuesOf]⟩
    obtain ⟨_, _, r, _⟩ := (hreq' req).1 hj [] (by rw [hq]; exact ⟨[], .nil, .nil⟩) [] hno
    exact r (fun e h => by cases h <;> simp_all) (.message (s "missing field `id`"))
      ⟨[], _, _, rfl, by simp, ⟨rfl, nofun, by simp⟩, rfl⟩

end Obsidian.Props
