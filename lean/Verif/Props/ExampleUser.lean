import Verif.Props.Example

/-
C89: the page of the example application that reads the query.
-/
namespace Obsidian.Props
open Obsidian Spec
variable {U : Univ} {σ : Type} {M H : Type}

/-! ### The page that reads the query -/

theorem queryString_distinct : Distinct [⟨s "id", [], .scalar .string, none⟩, ⟨s "status", [], .scalar .string, none⟩] := by
  simp only [Distinct, List.pairwise_cons, List.mem_singleton, forall_eq, List.not_mem_nil, false_imp_iff, implies_true,
    List.Pairwise.nil, and_true, Field.has, List.contains_nil, Bool.or_false, decide_eq_true_eq]
  rintro _ rfl; decide +kernel

theorem plain_has (n k : Str) (t : Ty) : Field.has ⟨n, [], t, none⟩ k = true ↔ n = k := by
  simp [Field.has]

theorem user_parse {i1 i2 : Iter} (h1 : Visits i1) (h2 : Visits i2) (up : Bytes → List (Str × Str)) (q : Bytes) :
    (∀ id ids st sts, valuesOf (up q) (s "id") = id :: ids → valuesOf (up q) (s "status") = st :: sts →
      parseQueries up i1 i2 queryString q = .ok (.ok (.struct [.str id, .str st]))) ∧
    (valuesOf (up q) (s "id") = [] →
      parseQueries up i1 i2 queryString q = .ok (.error (.formError (.message (s "missing field `id`"))))) ∧
    (valuesOf (up q) (s "id") ≠ [] → valuesOf (up q) (s "status") = [] →
      parseQueries up i1 i2 queryString q = .ok (.error (.formError (.message (s "missing field `status`"))))) := by
  have hes := entries_spec h1 h2 (up q)
  generalize i2 (cowMap (i1 (groupPairs (up q)))) = es at hes
  obtain ⟨_, _, c3, _⟩ := C84_struct (deny := none) queryString_distinct up h1 h2 q hes
  have val := C37_form (deny := none) queryString_distinct up h1 h2 q hes.1 hes.2
  have given : ∀ n id ids, valuesOf (up q) n = id :: ids →
      FieldValue Means es ⟨n, [], .scalar .string, none⟩ (.str id) := by
    intro n id ids h
    refine .inl ⟨(n, id :: ids), (hes.2 _ _).2 ⟨h.symm, by simp⟩, (plain_has _ _ _).2 rfl, ?_, ids, id, rfl, rfl⟩
    rintro ⟨k, vals⟩ he hk
    have hk := (plain_has _ _ _).1 hk
    subst hk
    obtain ⟨e1, _⟩ := (hes.2 _ _).1 he
    rw [e1, h]
  have lacks : ∀ n, valuesOf (up q) n = [] → Lacks es ⟨n, [], .scalar .string, none⟩ := by
    intro n h
    refine ⟨rfl, nofun, fun e he => ?_⟩
    cases hk : Field.has ⟨n, [], .scalar .string, none⟩ e.1 with
    | false => rfl
    | true =>
      have hk := (plain_has _ _ _).1 hk
      obtain ⟨e1, e2⟩ := (hes.2 e.1 e.2).1 he
      rw [← hk] at e1
      rw [e1, h] at e2
      exact absurd rfl e2
  have fine : ∀ e, ¬ EntryComplaint [⟨s "id", [], .scalar .string, none⟩, ⟨s "status", [], .scalar .string, none⟩] none es e := by
    intro e h
    cases h with
    | value h1 h2 h3 h4 =>
      simp only [List.mem_cons, List.not_mem_nil, or_false] at h1
      rcases h1 with rfl | rfl <;> obtain ⟨x, r, _, h⟩ := h4 <;> exact nomatch h
    | @twice f e e' h1 h2 h3 h4 h5 h6 =>
      have : f.has e.1 = true → f.has e'.1 = true → e.1 = e'.1 := by
        simp only [List.mem_cons, List.not_mem_nil, or_false] at h1
        rcases h1 with rfl | rfl <;> rw [plain_has, plain_has] <;> exact fun h h' => h.symm.trans h'
      have hk := this h5 h6
      obtain ⟨k1, _⟩ := (hes.2 e.1 e.2).1 h2
      obtain ⟨k2, _⟩ := (hes.2 e'.1 e'.2).1 h3
      exact h4 (Prod.ext hk (by rw [k1, k2, hk]))
    | unknown h => exact nomatch h
  refine ⟨fun id ids st sts e1 e2 => ?_, fun e1 => ?_, fun e1 e2 => ?_⟩
  · exact (val _).2 ⟨.cons (given _ _ _ e1) (.cons (given _ _ _ e2) .nil), fun _ _ => .inr rfl⟩
  · exact c3 fine _ ⟨[], _, _, rfl, by simp, lacks _ e1, rfl⟩
  · refine c3 fine _ ⟨[_], _, [], rfl, ?_, lacks _ e2, rfl⟩
    intro g hg
    simp only [List.mem_singleton] at hg
    subst hg
    rintro ⟨_, _, h⟩
    cases hv : valuesOf (up q) (s "id") with
    | nil => exact e1 hv
    | cons a as =>
      have := h (s "id", a :: as) ((hes.2 _ _).2 ⟨hv.symm, by simp⟩)
      rw [(plain_has _ _ _).2 rfl] at this
      simp at this

/-- The page at `/user`, whatever the query. -/
def userRow : Row := { path := "/user", body := "" }

/-- **C89**: `/user` is answered with nothing, and prints what the query says, or what is wrong with it. -/
theorem C89_user_partial {env : ExampleEnv U σ} (hi1 : Visits env.i1) (hi2 : Visits env.i2) {a : App U σ}
    (hb : build (exampleProg env) = (a.router, none)) {req : Request U} (hm : req.method = .get)
    (hp : segments req.path = [s "user"]) {host : Str} (hs : hostOf req = some host) (hv : Visible host)
    {pairs : List (Str × Str)} (hq : Asks env.repair req.query pairs) (w : σ) :
    ∃ sent lines, (a.serve req).run w = ⟨.ok sent, w, .debug :: .text (requestLine req host) :: lines⟩ ∧
      userRow.IsSent req.path sent ∧
      (∀ id ids st sts, valuesOf pairs (s "id") = id :: ids → valuesOf pairs (s "status") = st :: sts →
        lines = [.text (s "params: " ++ env.shown id st)]) ∧
      (valuesOf pairs (s "id") = [] →
        lines = [.text (s "error: missing field `id`"), .text (s "params: " ++ env.shown [] [])]) ∧
      (valuesOf pairs (s "id") ≠ [] → valuesOf pairs (s "status") = [] →
        lines = [.text (s "error: missing field `status`"), .text (s "params: " ++ env.shown [] [])]) := by
  have hseg : segments (s "/user") = [s "user"] := by decide +kernel
  have hh : handlerFor (build exTable).1 req.method req.path = some .user := by
    rw [c06_handler _ (hp.trans hseg.symm), hm]; decide +kernel
  obtain ⟨c, hc, hserve⟩ := (example_runs hb hh).1 host hs hv
  obtain ⟨m, f1, f2⟩ := finish_text c []
  have sent : userRow.IsSent req.path ⟨200, m, Body.ofStr []⟩ := by
    refine ⟨rfl, by rw [text_plain rfl]; exact (bytes_ofStr _).1, (bytes_ofStr _).2, fun k => ?_⟩
    rw [f2, ← lastValue_one]
    exact lastValue_lookup (by simp) k
  have run : c.queryParams (parseQueries (urlParse env.repair) env.i1 env.i2 queryString) =
      parseQueries (urlParse env.repair) env.i1 env.i2 queryString (utf8 (req.query.getD [])) := by
    rw [Context.queryParams, hc.query]
    cases req.query <;> rfl
  obtain ⟨p1, p2, p3⟩ := user_parse hi1 hi2 (urlParse env.repair) (utf8 (req.query.getD []))
  rw [← asks_iff.1 hq] at p1 p2 p3
  have lines : ∀ (e : Str) (act : Act σ (ContextResult U)), act = .print (.text e) (.print (.text (s "params: " ++ env.shown [] [])) (.ret (c.build (.str [])).ok)) →
      (Act.print .debug (.print (.text (requestLine req host)) (act.bind fun r => .ofPure (finish r)))).run w =
        ⟨.ok ⟨200, m, Body.ofStr []⟩, w, [.debug, .text (requestLine req host), .text e, .text (s "params: " ++ env.shown [] [])]⟩ := by
    rintro e act rfl
    simp only [Act.print_bind, Act.ret_bind, f1]; rfl
  rw [hserve]
  cases e1 : valuesOf pairs (s "id") with
  | nil =>
    refine ⟨_, _, lines (s "error: missing field `id`") _ ?_, sent, fun id ids st sts h => (nomatch h), fun _ => rfl, fun h => absurd rfl h⟩
    rw [ExampleHandler.run]
    simp only [run, p2 e1]
    rw [show "error: ".toList ++ (ObsidianError.formError (.message (s "missing field `id`"))).text = s "error: missing field `id`" by decide +kernel]
  | cons id ids =>
    cases e2 : valuesOf pairs (s "status") with
    | nil =>
      refine ⟨_, _, lines (s "error: missing field `status`") _ ?_, sent, fun id ids st sts _ h => (nomatch h), fun h => (nomatch h), fun _ _ => rfl⟩
      rw [ExampleHandler.run]
      simp only [run, p3 (by rw [e1]; simp) e2]
      rw [show "error: ".toList ++ (ObsidianError.formError (.message (s "missing field `status`"))).text = s "error: missing field `status`" by decide +kernel]
    | cons st sts =>
      refine ⟨⟨200, m, Body.ofStr []⟩, [.text (s "params: " ++ env.shown id st)], ?_, sent, ?_, fun h => (nomatch h), fun _ h => (nomatch h)⟩
      · have : ExampleHandler.user.run env c = .print (.text (s "params: " ++ env.shown id st)) (.ret (c.build (.str [])).ok) := by
          rw [ExampleHandler.run]
          simp only [run, p1 _ _ _ _ e1 e2]
        rw [this]
        simp only [Act.print_bind, Act.ret_bind, f1]; rfl
      · rintro id' ids' st' sts' h1 h2
        rw [(List.cons.inj h1).1, (List.cons.inj h2).1]

end Obsidian.Props
