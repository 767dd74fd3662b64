import Verif.Props.Behind
import Verif.Props.Json
import Verif.Props.Query
import Verif.Props.HeaderName

/-
The services of C81, C85, C86 and C92 and static files (C42, C44) in applications with a logger: what was
shown of requests that meet no middlewares holds behind middlewares that only watch (C83).
-/
namespace Obsidian.Props
open Obsidian Spec
variable {U : Univ} {σ α β : Type}

/-- What is left of an answer if it may have been logged: the client gets it all the same. -/
theorem logged_answer {P : Sent → Prop} {x : Act σ Sent}
    (h : ButForLog (fun y => ∀ w, ∃ sent, y.run w = ⟨.ok sent, w, []⟩ ∧ P sent) x) (w : σ) :
    ∃ sent pr, x.run w = ⟨.ok sent, w, pr⟩ ∧ P sent := by
  obtain ⟨y, hy, h⟩ := h
  obtain ⟨sent, h1, h2⟩ := hy w
  obtain ⟨pr, h3⟩ := same_answer h h1
  exact ⟨sent, pr, h3, h2⟩

theorem json_responds (fromSlice : Bytes → Except Str α) (toText : β → Str) (f : α → β) (c : Context U) :
    Responds (jsonService fromSlice toText f c : Act σ (ContextResult U)) := by
  intro w c' hc
  rw [jsonService] at hc
  generalize c.json fromSlice = o at hc
  obtain ⟨_ | v, o2⟩ := o
  · simp [Act.run] at hc
  · simp only [Act.run, Except.ok.injEq] at hc
    have hc : (o2.buildJson (.ok (toText (f v)))).ok = .ok c' := hc
    rw [Context.buildJson, ResponseBuilder.ok] at hc
    injection hc with hc
    rw [← hc]; simp

theorem form_responds (repair : Bytes → Str) (i1 i2 : Iter) (shape : Shape) (answer : Decoded → Str) (c : Context U) :
    Responds (formService repair i1 i2 shape answer c : Act σ (ContextResult U)) := by
  intro w c' hc
  rw [formService] at hc
  generalize c.form (parseQueries (urlParse repair) i1 i2 shape) = o at hc
  obtain _ | ⟨_ | v, o2⟩ := o
  · simp [Act.run] at hc
  · simp [Act.run] at hc
  · have hc : (o2.build (.str (answer v))).ok = .ok c' := by simpa only [Act.run, Except.ok.injEq] using hc
    rw [Context.build, ResponseBuilder.ok] at hc
    injection hc with hc
    rw [← hc]; simp

theorem query_responds (repair : Bytes → Str) (i1 i2 : Iter) (shape : Shape) (answer : Decoded → Str) (c : Context U) :
    Responds (queryService repair i1 i2 shape answer c : Act σ (ContextResult U)) := by
  intro w c' hc
  rw [queryService] at hc
  generalize c.queryParams (parseQueries (urlParse repair) i1 i2 shape) = o at hc
  obtain _ | _ | v := o
  · simp [Act.run] at hc
  · simp [Act.run] at hc
  · have hc : (c.build (.str (answer v))).ok = .ok c' := by simpa only [Act.run, Except.ok.injEq] using hc
    rw [Context.build, ResponseBuilder.ok] at hc
    injection hc with hc
    rw [← hc]; simp

theorem headers_responds (r : NameRules) (text : Str) (hs : List (Str × Str)) (c : Context U) :
    Responds (headersHandler r text hs c : Act σ (ContextResult U)) := by
  intro w c' hc
  rw [headersHandler] at hc
  generalize (c.build (.str text)).withHeadersStr (headerName r) hs = o at hc
  obtain _ | b := o
  · simp [Act.run] at hc
  · have hc : b.ok = .ok c' := by simpa only [Act.run, Except.ok.injEq] using hc
    rw [ResponseBuilder.ok] at hc
    injection hc with hc
    rw [← hc]; simp

/-- **C81**, what holds behind middlewares that only watch: as `C81_anywhere_partial`. Missing: bodies in several
pieces, where the claim is false. -/
theorem C81_behind_watchers_partial {a : App U σ} {req : Request U} (fromSlice : Bytes → Except Str α) (toText : β → Str) (f : α → β)
    (g1 : handlerFor a.router req.method req.path = some (jsonService fromSlice toText f))
    {ms : List (Middleware U σ)} (hch : chainFor a.router req.path = some ms) (hm : ∀ m ∈ ms, OnlyWatches m) :
    (req.body.fails = true → ButForLog (Refuses · (s "Input should not be None")) (a.serve req)) ∧
    (OnePiece req.body →
      (∀ v, fromSlice req.body.bytes = .ok v → ButForLog (AnswersJson · (toText (f v))) (a.serve req)) ∧
      (∀ e, fromSlice req.body.bytes = .error e → ButForLog (Refuses · e) (a.serve req))) := by
  obtain ⟨a0, _, h2, h3⟩ := C83_behind_watchers a
  have h3 := h3 req g1 (json_responds _ _ _) hch hm
  obtain ⟨k1, k2⟩ := C81_anywhere_partial fromSlice toText f (((h2 _).1 _).trans g1) ((h2 _).2.1.trans (by rw [hch]; rfl))
  exact ⟨fun h => ⟨_, k1 h, h3⟩, fun h => ⟨fun v hv => ⟨_, (k2 h).1 v hv, h3⟩, fun e he => ⟨_, (k2 h).2 e he, h3⟩⟩⟩

/-- **C85**, what holds behind middlewares that only watch: as `C85_anywhere_partial`. Missing: bodies in several
pieces, where the claim is false. -/
theorem C85_behind_watchers_partial {a : App U σ} {req : Request U} (repair : Bytes → Str) {i1 i2 : Iter} (h1 : Visits i1)
    (h2 : Visits i2) {fields : List Field} (hd : Distinct fields) (deny : Option (Str → Str)) (answer : Decoded → Str)
    (hh : handlerFor a.router req.method req.path = some (formService repair i1 i2 (.struct fields deny) answer))
    {ms : List (Middleware U σ)} (hch : chainFor a.router req.path = some ms) (hm : ∀ m ∈ ms, OnlyWatches m) :
    (req.body.fails = true → ButForLog (Refuses · (s "Input should not be None")) (a.serve req)) ∧
    (OnePiece req.body → ∀ pairs, WritesForm pairs req.body.bytes → ∀ es, Collects pairs es →
      (∀ vs, StructValue Means fields deny es vs → ButForLog (AnswersText · (answer (.struct vs))) (a.serve req)) ∧
      (∀ e, EntryComplaint fields deny es e → ∃ e', EntryComplaint fields deny es e' ∧
        ButForLog (Refuses · e'.text) (a.serve req)) ∧
      ((∀ e, ¬ EntryComplaint fields deny es e) → ∀ e, LackComplaint fields es e →
        ButForLog (Refuses · e.text) (a.serve req))) := by
  obtain ⟨a0, _, g2, g3⟩ := C83_behind_watchers a
  have g3 := g3 req hh (form_responds _ _ _ _ _) hch hm
  obtain ⟨k1, k2⟩ := C85_anywhere_partial repair h1 h2 hd deny answer (((g2 _).1 _).trans hh) ((g2 _).2.1.trans (by rw [hch]; rfl))
  refine ⟨fun h => ⟨_, k1 h, g3⟩, fun h pairs hw es hes => ?_⟩
  obtain ⟨l1, l2, l3⟩ := k2 h pairs hw es hes
  refine ⟨fun vs hv => ⟨_, l1 vs hv, g3⟩, fun e he => ?_, fun hno e he => ⟨_, l3 hno e he, g3⟩⟩
  obtain ⟨e', m1, m2⟩ := l2 e he
  exact ⟨e', m1, _, m2, g3⟩

/-- **C86** behind middlewares that only watch: as `C86_anywhere`. -/
theorem C86_behind_watchers {a : App U σ} {req : Request U} (repair : Bytes → Str) {i1 i2 : Iter} (h1 : Visits i1) (h2 : Visits i2)
    {fields : List Field} (hd : Distinct fields) (deny : Option (Str → Str)) (answer : Decoded → Str)
    (hh : handlerFor a.router req.method req.path = some (queryService repair i1 i2 (.struct fields deny) answer))
    {ms : List (Middleware U σ)} (hch : chainFor a.router req.path = some ms) (hm : ∀ m ∈ ms, OnlyWatches m)
    {pairs : List (Str × Str)} (hq : Asks repair req.query pairs) {es : List (Str × List Str)} (hes : Collects pairs es) :
    (∀ vs, StructValue Means fields deny es vs → ButForLog (AnswersText · (answer (.struct vs))) (a.serve req)) ∧
    (∀ e, EntryComplaint fields deny es e → ∃ e', EntryComplaint fields deny es e' ∧
      ButForLog (Refuses · e'.text) (a.serve req)) ∧
    ((∀ e, ¬ EntryComplaint fields deny es e) → ∀ e, LackComplaint fields es e →
      ButForLog (Refuses · e.text) (a.serve req)) ∧
    ((∃ vs, StructValue Means fields deny es vs) ∨ (∃ e, EntryComplaint fields deny es e) ∨
      (∃ e, LackComplaint fields es e)) := by
  obtain ⟨a0, _, g2, g3⟩ := C83_behind_watchers a
  have g3 := g3 req hh (query_responds _ _ _ _ _) hch hm
  obtain ⟨l1, l2, l3, l4⟩ := C86_anywhere repair h1 h2 hd deny answer (((g2 _).1 _).trans hh) ((g2 _).2.1.trans (by rw [hch]; rfl)) hq hes
  refine ⟨fun vs hv => ⟨_, l1 vs hv, g3⟩, fun e he => ?_, fun hno e he => ⟨_, l3 hno e he, g3⟩, l4⟩
  obtain ⟨e', m1, m2⟩ := l2 e he
  exact ⟨e', m1, _, m2, g3⟩

/-- **C92** behind middlewares that only watch: as `C92_anywhere`, also where the handler panics. -/
theorem C92_behind_watchers {a : App U σ} {req : Request U} (r : NameRules) (text : Str) (hs : List (Str × Str))
    (g1 : handlerFor a.router req.method req.path = some (headersHandler r text hs))
    {ms : List (Middleware U σ)} (hch : chainFor a.router req.path = some ms) (hm : ∀ m ∈ ms, OnlyWatches m) (w : σ) :
    ((a.serve req).run w).world = w ∧
    ((∀ e ∈ hs, Token r e.1 ∧ Visible e.2) → ∃ sent, ((a.serve req).run w).out = .ok sent ∧ sent.status = 200 ∧
      sent.body.bytes = utf8 text ∧
      ∀ name, sent.headers.get (lower name) = lastNamed ((s "Content-Type", s "text/plain; charset=utf-8") :: hs) name) ∧
    (∀ e ∈ hs, ¬ Token r e.1 → ∃ e' ∈ hs, ¬ Token r e'.1 ∧ ((a.serve req).run w).out = .error (.headerName e'.1)) ∧
    ((∀ e ∈ hs, Token r e.1) → ∀ e ∈ hs, ¬ Visible e.2 → ∃ v, ¬ Visible v ∧ ((a.serve req).run w).out = .error (.headerValue v)) := by
  obtain ⟨a0, _, g2, g3⟩ := C83_behind_watchers a
  obtain ⟨e1, e2⟩ := g3 req g1 (headers_responds _ _ _) hch hm w
  obtain ⟨l1, _, l2⟩ := C92_anywhere r text hs (((g2 _).1 _).trans g1) ((g2 _).2.1.trans (by rw [hch]; rfl)) w
  rw [e1, e2]; exact ⟨l1, l2⟩

/-! ### Static files -/

theorem dir_responds {h : Handler U σ} {fs : ReadFile σ} {file : Context U → Str}
    (hf : ∀ c : Context U, h c = (Response.ok.fileAct fs (file c)).bind fun r => .ret (c.build (.response r)).ok) (c : Context U) :
    Responds (h c) := by
  intro w c' hc
  rw [hf, Act.run_bind] at hc
  generalize (Act.run _ w : Act.Done σ Response) = x at hc
  obtain ⟨_ | r, w', pr⟩ := x
  · simp at hc
  · have hc : (c.build (.response r)).ok = .ok c' := by simpa only [Act.run, Except.ok.injEq] using hc
    rw [Context.build, ResponseBuilder.ok] at hc
    injection hc with hc
    rw [← hc]; simp

theorem static_behind {prog : List (Reg (Middleware U σ) (Handler U σ))} (hc : CleanRegs prog) {a : App U σ}
    (hb : build prog = (a.router, none)) (hsm : NoStarMount (logOf prog)) {pre : List Str}
    {h : Handler U σ} (he : ⟨pre ++ [['*']], .route .get h⟩ ∈ logOf prog) (hns : NoStar pre)
    {req : Request U} {r0 : List Str} {x : Str} {xs : List Str} {b : List (Str × Str)}
    (hmeth : req.method = .get) (hma : Matches pre r0 b) (hp : segments req.path = r0 ++ x :: xs)
    {ms : List (Middleware U σ)} (hch : chainFor a.router req.path = some ms) (hm : ∀ m ∈ ms, OnlyWatches m)
    (hr : ∀ c, Responds (h c)) {fs : ReadFile σ} {file : Str}
    (hf : ∀ c : Context U, c.request.path = req.path → h c =
      (Response.ok.fileAct fs file).bind fun r => .ret (c.build (.response r)).ok) (w : σ) :
    (∃ sent pr, (a.serve req).run w = ⟨.ok sent, w, pr⟩ ∧ (IsText (fs w file) → FileAnswer (fs w file) sent)) ∨
    ∃ e ∈ logOf prog, e.what ≠ .nothing ∧ flat (pre ++ [x]) <+: flat e.segs ∧
      (∃ b', FlatMatch e.segs (segments req.path) b') ∧
      ∀ m', handlerFor a.router m' req.path = routeAt (logOf prog) (flat e.segs) m' := by
  obtain ⟨_, ⟨h1, _⟩ | h1⟩ := C03_wildcard_catches hc hb hsm he hma hns hp
  · refine .inl ?_
    have hh : handlerFor a.router req.method req.path = some h := by rw [hmeth]; exact h1
    obtain ⟨a0, _, h2, h3⟩ := C83_behind_watchers a
    obtain ⟨sent, pr, e1, e⟩ := serve_file (((h2 _).1 _).trans hh) ((h2 _).2.1.trans (by rw [hch]; rfl)) hf w
    obtain ⟨pr, e1⟩ := same_answer (h3 req hh hr hch hm) e1
    exact ⟨sent, pr, e1, fun ht => by rwa [served_text ht] at e⟩
  · exact .inr h1

/-- **C42** for `use_static`, behind middlewares that only watch. -/
theorem C42_dir_behind_watchers {prog : List (Reg (Middleware U σ) (Handler U σ))} (hc : CleanRegs prog) {a : App U σ}
    (hb : build prog = (a.router, none)) (hsm : NoStarMount (logOf prog)) (fs : ReadFile σ) (d : Str)
    (he : .useStatic fs d ∈ prog) (hroot : NoRootMount prog) (hns : Static (segments d))
    {req : Request U} {x : Str} {xs : List Str}
    (hmeth : req.method = .get) (hp : segments req.path = segments d ++ x :: xs)
    {ms : List (Middleware U σ)} (hch : chainFor a.router req.path = some ms) (hm : ∀ m ∈ ms, OnlyWatches m) (w : σ)
    (ht : IsText (fs w (pathOf (segments d ++ x :: xs)))) :
    (∃ sent pr, (a.serve req).run w = ⟨.ok sent, w, pr⟩ ∧
      FileAnswer (fs w (pathOf (segments d ++ x :: xs))) sent) ∨
    ∃ e ∈ logOf prog, e.what ≠ .nothing ∧ flat (segments d ++ [x]) <+: flat e.segs ∧
      (∃ b', FlatMatch e.segs (segments req.path) b') ∧
      ∀ m', handlerFor a.router m' req.path = routeAt (logOf prog) (flat e.segs) m' := by
  have he' : (⟨segments d ++ [['*']], .route .get (staticDirFileHandler fs)⟩ : Entry _ _) ∈ logOf prog := by
    have := mem_logOf_get hroot he
    rwa [segments_star] at this
  rcases static_behind hc hb hsm he' (fun h => (hns _ h).2 rfl) hmeth (matches_static hns) hp hch hm
    (dir_responds (dir_reads fs)) (fun c h => by rw [dir_reads, h, hp]) w with ⟨sent, pr, h1, h2⟩ | h
  · exact .inl ⟨sent, pr, h1, h2 ht⟩
  · exact .inr h

/-- **C44**, static directories in scopes (`C44_in_scopes`) behind middlewares that only watch: if the handler of
`use_static_to(v, d)` ends up below `pre`, the pieces of `pre` count as the virtual path. -/
theorem C44_behind_watchers {prog : List (Reg (Middleware U σ) (Handler U σ))} (hc : CleanRegs prog) {a : App U σ}
    (hb : build prog = (a.router, none)) (hsm : NoStarMount (logOf prog)) (fs : ReadFile σ) (v d : Str)
    {pre : List Str}
    (he : ⟨pre ++ segments v ++ [['*']], .route .get (staticVirtualFileHandler fs v d)⟩ ∈ logOf prog)
    (hns : NoStar (pre ++ segments v))
    {req : Request U} {r0 : List Str} {x : Str} {xs : List Str} {b : List (Str × Str)}
    (hmeth : req.method = .get) (hma : Matches (pre ++ segments v) r0 b) (hp : segments req.path = r0 ++ x :: xs)
    {ms : List (Middleware U σ)} (hch : chainFor a.router req.path = some ms) (hm : ∀ m ∈ ms, OnlyWatches m) (w : σ) :
    let file := pathOf (segments d ++ (r0 ++ x :: xs).drop (segments v).length)
    (∃ sent pr, (a.serve req).run w = ⟨.ok sent, w, pr⟩ ∧ (IsText (fs w file) → FileAnswer (fs w file) sent)) ∨
    ∃ e ∈ logOf prog, e.what ≠ .nothing ∧ flat (pre ++ segments v ++ [x]) <+: flat e.segs ∧
      (∃ b', FlatMatch e.segs (segments req.path) b') ∧
      ∀ m', handlerFor a.router m' req.path = routeAt (logOf prog) (flat e.segs) m' :=
  static_behind hc hb hsm he hns hmeth hma hp hch hm (dir_responds (virtual_reads fs v d))
    (fun c h => by rw [virtual_reads, h, hp]) w

/-! ### Examples -/

/-- A request with a body in one piece to the route of `defaultWith`. -/
def bodyReq (b : String) : Request demoU := ⟨.get, s "/bye", none, [], Extensions.empty, Body.ofStr (s b)⟩

/-- Reads only the text `1`. -/
def readOne (b : Bytes) : Except Str Nat := if b = utf8 (s "1") then .ok 1 else .error (s "expected value")

theorem one_piece (b : String) : OnePiece (Body.ofStr (s b)) := by
  refine ⟨(bytes_ofStr _).2, ?_⟩
  rw [Body.ofStr]
  refine Nat.le_trans (List.length_filter_le _ _) ?_
  by_cases h : utf8 (s b) = [] <;> simp [Body.ofBytes, Body.empty, h]

/-- A JSON service in a default application: the logger prints, the client gets the JSON text or the error. -/
example (w : W) : (∃ sent pr, ((defaultWith (jsonService readOne (fun n : Nat => s (toString (n + 1))) id)).serve (bodyReq "1")).run w =
      ⟨.ok sent, w, pr⟩ ∧ sent.status = 200 ∧ sent.body.bytes = utf8 (s "2")) ∧
    ∃ sent pr, ((defaultWith (jsonService readOne (fun n : Nat => s (toString (n + 1))) id)).serve (bodyReq "x")).run w =
      ⟨.ok sent, w, pr⟩ ∧ sent.status = 500 ∧ sent.body.bytes = utf8 (s "expected value") := by
  have h := fun b => (C81_behind_watchers_partial (σ := W) (req := bodyReq b) readOne (fun n : Nat => s (toString (n + 1))) id
    (defaultWith_sees _).1 (defaultWith_sees _).2 (by simp [C83_logger_watches])).2 (one_piece b)
  constructor
  · obtain ⟨sent, pr, h1, h2, h3, _⟩ := logged_answer ((h "1").1 1 (if_pos (by decide +kernel))) w
    exact ⟨sent, pr, h1, h2, h3.trans (by decide +kernel)⟩
  · obtain ⟨sent, pr, h1, h2, h3, _⟩ := logged_answer ((h "x").2 (s "expected value") (if_neg (by decide +kernel))) w
    exact ⟨sent, pr, h1, h2, h3⟩

theorem level_distinct : Distinct [⟨s "level", [], i32, none⟩] := by simp [Distinct]

/-- A form service in a default application: an empty form lacks a field. -/
example (repair : Bytes → Str) (answer : Decoded → Str) (w : W) :
    ∃ sent pr, ((defaultWith (formService repair forwards backwards (.struct [⟨s "level", [], i32, none⟩] none) answer)).serve
      (bodyReq "")).run w = ⟨.ok sent, w, pr⟩ ∧ sent.status = 500 ∧ sent.body.bytes = utf8 (s "missing field `level`") := by
  obtain ⟨_, h⟩ := C85_behind_watchers_partial (req := bodyReq "") repair forwards_visits backwards_visits level_distinct none answer
    (defaultWith_sees _).1 (defaultWith_sees _).2 (by simp [C83_logger_watches])
  have hno : Collects [] [] := ⟨by simp [KeysDistinct], fun k vals => by simp [valuesOf]⟩
  obtain ⟨_, _, r⟩ := h (one_piece _) [] .nil [] hno
  obtain ⟨sent, pr, h1, h2, h3, _⟩ := logged_answer (r (fun e h => by cases h <;> simp_all) (.message (s "missing field `level`"))
      ⟨[], _, _, rfl, by simp, ⟨rfl, nofun, by simp⟩, rfl⟩) w
  exact ⟨sent, pr, h1, h2, h3⟩

/-- A query service in a default application: without a query a field is lacking. -/
example (repair : Bytes → Str) (answer : Decoded → Str) (w : W) :
    ∃ sent pr, ((defaultWith (queryService repair forwards backwards (.struct [⟨s "level", [], i32, none⟩] none) answer)).serve
      (demoReq .get "/bye")).run w = ⟨.ok sent, w, pr⟩ ∧ sent.status = 500 ∧ sent.body.bytes = utf8 (s "missing field `level`") := by
  have hno : Collects [] [] := ⟨by simp [KeysDistinct], fun k vals => by simp [valuesOf]⟩
  obtain ⟨_, _, r, _⟩ := C86_behind_watchers (req := demoReq .get "/bye") repair forwards_visits backwards_visits level_distinct none answer
    (defaultWith_sees _).1 (defaultWith_sees _).2 (by simp [C83_logger_watches]) (pairs := []) ⟨[], .nil, .nil⟩ hno
  obtain ⟨sent, pr, h1, h2, h3, _⟩ := logged_answer (r (fun e h => by cases h <;> simp_all) (.message (s "missing field `level`"))
      ⟨[], _, _, rfl, by simp, ⟨rfl, nofun, by simp⟩, rfl⟩) w
  exact ⟨sent, pr, h1, h2, h3⟩

/-- Headers by name in a default application; a name that is not a token makes the handler panic. -/
example (w : W) : (∃ sent, (((defaultWith (headersHandler rules (s "hi") [(s "X-A", s "1"), (s "x-a", s "2")])).serve
        (demoReq .get "/bye")).run w).out = .ok sent ∧ sent.headers.get (s "x-a") = some (s "2")) ∧
    (((defaultWith (headersHandler rules (s "hi") [(s "X A", s "1")])).serve (demoReq .get "/bye")).run w).out =
      .error (.headerName (s "X A")) := by
  constructor
  · obtain ⟨_, h, _⟩ := C92_behind_watchers (req := demoReq .get "/bye") rules (s "hi") [(s "X-A", s "1"), (s "x-a", s "2")]
      (defaultWith_sees _).1 (defaultWith_sees _).2 (by simp [C83_logger_watches]) w
    obtain ⟨sent, h1, _, _, h2⟩ := h (by decide +kernel)
    exact ⟨sent, h1, (h2 (s "x-A")).trans (by decide +kernel)⟩
  · obtain ⟨_, _, h, _⟩ := C92_behind_watchers (req := demoReq .get "/bye") rules (s "hi") [(s "X A", s "1")]
      (defaultWith_sees _).1 (defaultWith_sees _).2 (by simp [C83_logger_watches]) w
    obtain ⟨e', he, _, h2⟩ := h (s "X A", s "1") (by simp) (by decide +kernel)
    simp only [List.mem_singleton] at he; subst he; exact h2

/-- A static directory and a scope with another one, in a default application. -/
def defaultDirs : List (Reg (Middleware demoU Files) (Handler demoU Files)) :=
  [.useService logger, .useStatic readFiles (s "pub"), .scope (s "api") [.useStaticTo readFiles (s "/files") (s "dir")]]

theorem defaultDirs_ok : (build defaultDirs).2 = none := by decide +kernel

theorem defaultDirs_chain : chainFor (appOf defaultDirs_ok).router (s "/pub/a.txt") = some [logger] ∧
    chainFor (appOf defaultDirs_ok).router (s "/api/files/a.txt") = some [logger] := by
  have h := fun path => (C82_renamed (fun _ : Nat => (logger : Middleware demoU Files))
    (fun n : Nat => (if n = 0 then staticDirFileHandler readFiles else staticVirtualFileHandler readFiles (s "/files") (s "dir") : Handler demoU Files))
    [.useService 0, .get (s "pub/*") 0, .scope (s "api") [.get (s "/files/*") 1]]).2 path
  have e : mapCalls (fun _ : Nat => (logger : Middleware demoU Files))
      (fun n : Nat => (if n = 0 then staticDirFileHandler readFiles else staticVirtualFileHandler readFiles (s "/files") (s "dir") : Handler demoU Files))
      [.useService 0, .get (s "pub/*") 0, .scope (s "api") [.get (s "/files/*") 1]] = defaultDirs := rfl
  rw [appOf_router, ← e]
  have h1 := (h (s "/pub/a.txt")).2.2.1
  have h2 := (h (s "/api/files/a.txt")).2.2.1
  rw [show chainFor (build ([.useService 0, .get (s "pub/*") 0, .scope (s "api") [.get (s "/files/*") 1]] : List (Reg Nat Nat))).1
    (s "/pub/a.txt") = some [0] by decide +kernel] at h1
  rw [show chainFor (build ([.useService 0, .get (s "pub/*") 0, .scope (s "api") [.get (s "/files/*") 1]] : List (Reg Nat Nat))).1
    (s "/api/files/a.txt") = some [0] by decide +kernel] at h2
  exact ⟨h1, h2⟩

theorem defaultDirs_log : logOf defaultDirs = [⟨[], .middleware logger⟩, ⟨[s "pub", s "*"], .route .get (staticDirFileHandler readFiles)⟩,
    ⟨[s "api"], .nothing⟩, ⟨[s "api", s "files", s "*"], .route .get (staticVirtualFileHandler readFiles (s "/files") (s "dir"))⟩] := by
  have e0 : segments (s "pub" ++ "/*".toList) = [s "pub", s "*"] := by decide +kernel
  have e1 : segments (s "/files" ++ "/*".toList) = [s "files", s "*"] := by decide +kernel
  have e2 : segments (s "api") = [s "api"] := by decide +kernel
  simp only [defaultDirs, Reg.useStaticTo, Reg.useStatic, logOf, logRegs, logReg, mountLog, e0, e1, e2, List.nil_append,
    List.map_cons, List.map_nil, Entry.under, List.cons_append]
  rfl

theorem defaultDirs_clean : CleanRegs defaultDirs := by
  simp only [defaultDirs, Reg.useStaticTo, Reg.useStatic, CleanRegs, CleanReg, and_true, true_and]; decide +kernel

theorem defaultDirs_stars : NoStarMount (logOf defaultDirs) := by
  rw [defaultDirs_log]; intro e he pre post hs
  simp only [List.mem_cons, List.not_mem_nil, or_false] at he
  rcases he with rfl | rfl | rfl | rfl
  · simp at hs
  · refine ⟨?_, by simp⟩
    rcases pre with _ | ⟨a, _ | ⟨b, pre⟩⟩ <;> simp [s] at hs
    exact hs.2
  · rcases pre with _ | ⟨a, pre⟩ <;> simp [s] at hs
  · refine ⟨?_, by simp⟩
    rcases pre with _ | ⟨a, _ | ⟨b, _ | ⟨c, pre⟩⟩⟩ <;> simp [s] at hs
    exact hs.2.2

example (content : Str) : ∃ sent pr, ((appOf defaultDirs_ok).serve (fileReq "/pub/a.txt")).run [(s "pub/a.txt", utf8 content)] =
      ⟨.ok sent, [(s "pub/a.txt", utf8 content)], pr⟩ ∧ sent.status = 200 ∧ sent.body.bytes = utf8 content := by
  have hf : readFiles [(s "pub/a.txt", utf8 content)] (pathOf (segments (s "pub") ++ s "a.txt" :: [])) = .ok (utf8 content) := by
    rw [show pathOf (segments (s "pub") ++ s "a.txt" :: []) = s "pub/a.txt" by decide +kernel, readFiles]; simp
  rcases C42_dir_behind_watchers defaultDirs_clean (build_eq defaultDirs_ok) defaultDirs_stars readFiles (s "pub")
      (by simp [defaultDirs]) (by simp [NoRootMount, defaultDirs, Reg.useStatic]; decide +kernel) (by decide +kernel)
      (req := fileReq "/pub/a.txt") rfl (x := s "a.txt") (xs := []) (by decide +kernel) defaultDirs_chain.1 (by simp [C83_logger_watches])
      [(s "pub/a.txt", utf8 content)] (by rw [hf]; intro b hb; injection hb with hb; exact ⟨_, hb⟩) with
    ⟨sent, pr, h1, h2⟩ | ⟨e, he, _, hpre, _⟩
  · rw [hf] at h2; exact ⟨sent, pr, h1, h2.2.2⟩
  · rw [defaultDirs_log] at he
    simp only [List.mem_cons, List.not_mem_nil, or_false] at he
    rcases he with rfl | rfl | rfl | rfl <;> exact absurd hpre (by decide +kernel)

/-- In the scope the wrong file is served (C44), also with a logger. -/
example (content : Str) : ∃ sent pr, ((appOf defaultDirs_ok).serve (fileReq "/api/files/a.txt")).run [(s "dir/files/a.txt", utf8 content)] =
      ⟨.ok sent, [(s "dir/files/a.txt", utf8 content)], pr⟩ ∧ sent.status = 200 ∧ sent.body.bytes = utf8 content := by
  have hf : readFiles [(s "dir/files/a.txt", utf8 content)]
      (pathOf (segments (s "dir") ++ ([s "api", s "files"] ++ s "a.txt" :: []).drop (segments (s "/files")).length)) = .ok (utf8 content) := by
    rw [show pathOf (segments (s "dir") ++ ([s "api", s "files"] ++ s "a.txt" :: []).drop (segments (s "/files")).length) =
      s "dir/files/a.txt" by decide +kernel, readFiles]; simp
  rcases C44_behind_watchers defaultDirs_clean (build_eq defaultDirs_ok) defaultDirs_stars readFiles (s "/files") (s "dir")
      (pre := [s "api"]) (by
        rw [defaultDirs_log, show segments (s "/files") = [s "files"] by decide +kernel]
        exact List.mem_cons_of_mem _ (List.mem_cons_of_mem _ (List.mem_cons_of_mem _ List.mem_cons_self))) (by decide +kernel)
      (req := fileReq "/api/files/a.txt") rfl (r0 := [s "api", s "files"]) (x := s "a.txt") (xs := []) (b := [])
      (by
        rw [show [s "api"] ++ segments (s "/files") = [s "api", s "files"] by decide +kernel]
        exact matches_static (by decide +kernel))
      (by decide +kernel) defaultDirs_chain.2 (by simp [C83_logger_watches]) [(s "dir/files/a.txt", utf8 content)] with
    ⟨sent, pr, h1, h2⟩ | ⟨e, he, _, hpre, _⟩
  · have h2 := h2 (by rw [hf]; intro b hb; injection hb with hb; exact ⟨_, hb⟩)
    rw [hf] at h2; exact ⟨sent, pr, h1, h2.2.2⟩
  · rw [defaultDirs_log] at he
    simp only [List.mem_cons, List.not_mem_nil, or_false] at he
    rcases he with rfl | rfl | rfl | rfl <;> exact absurd hpre (by decide +kernel)

end Obsidian.Props
