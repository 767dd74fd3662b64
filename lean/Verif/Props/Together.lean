import Verif.Props.Whole
import Verif.Props.Fair
import Verif.Spec.Together

/-
C90: requests that are served at the same time and share the world.
-/
namespace Obsidian.Props
open Obsidian Spec
variable {U : Univ} {σ α β : Type}

/-! ### Steps of one task among those of others -/

theorem worldAfter_append (w : σ) (h h' : Steps σ) : worldAfter w (h ++ h') = worldAfter (worldAfter w h) h' := by
  simp [worldAfter]

theorem stepsOf_append (i : Nat) (w : σ) (h h' : Steps σ) :
    stepsOf i w (h ++ h') = stepsOf i w h ++ stepsOf i (worldAfter w h) h' := by
  induction h generalizing w with
  | nil => rfl
  | cons e h ih =>
    obtain ⟨j, f⟩ := e
    simp only [List.cons_append, stepsOf, ih, worldAfter, List.foldl_cons]
    split <;> rfl

theorem stepsOf_unknown {n : Nat} {h : Steps σ} (w : σ) (hk : ∀ e ∈ h, e.1 < n) : stepsOf n w h = [] := by
  induction h generalizing w with
  | nil => rfl
  | cons e h ih =>
    obtain ⟨j, f⟩ := e
    have : j ≠ n := Nat.ne_of_lt (hk (j, f) (by simp))
    simp only [stepsOf, this, if_false]
    exact ih _ fun e he => hk e (by simp [he])

theorem printedBy_append (i : Nat) (xs ys : List (Nat × Line)) :
    printedBy i (xs ++ ys) = printedBy i xs ++ printedBy i ys := by simp [printedBy]

theorem printedBy_unknown {n : Nat} {ls : List (Nat × Line)} (h : ∀ e ∈ ls, e.1 < n) : printedBy n ls = [] := by
  rw [printedBy, List.map_eq_nil_iff, List.filter_eq_nil_iff]
  intro e he
  have := h e he
  simp; omega

/-- The end of a computation that goes on after another one. -/
theorem goes_bind {x : Act σ α} {g : α → Except Crash β} {ps : List (σ × (σ → σ))} {out : Except Crash β} {ls : List Line}
    (h : Goes (x.bind fun a => .ofPure (g a)) ps out ls) :
    ∃ out', Goes x ps out' ls ∧ (∀ k, out' = .error k → out = .error k) ∧ ∀ a, out' = .ok a → out = g a := by
  induction x generalizing ps ls with
  | ret a =>
    simp only [Act.ret_bind] at h
    cases hg : g a with
    | ok b =>
      rw [hg] at h
      cases h
      exact ⟨.ok a, .ret, nofun, fun a' ha => by injection ha with ha; rw [← ha, hg]⟩
    | error k =>
      rw [hg] at h
      cases h
      exact ⟨.ok a, .ret, nofun, fun a' ha => by injection ha with ha; rw [← ha, hg]⟩
  | panic k => cases h; exact ⟨.error k, .panic, fun k' hk => by injection hk with hk; rw [hk], nofun⟩
  | step f k ih =>
    cases h with
    | step h =>
      obtain ⟨out', h1, h2⟩ := ih _ h
      exact ⟨out', .step h1, h2⟩
  | print l k ih =>
    cases h with
    | print h =>
      obtain ⟨out', h1, h2⟩ := ih h
      exact ⟨out', .print h1, h2⟩

/-! ### The server -/

/-- The invariant: the steps and lines so far, each with its task. -/
structure SharedOK (a : App U σ) (w0 : σ) (s : Server U σ σ) (h : Steps σ) (ls : List (Nat × Line)) : Prop where
  app : s.app = a
  world : s.world = worldAfter w0 h
  printed : s.printed = ls.map (·.2)
  steps : ∀ e ∈ h, e.1 < s.tasks.length
  lines : ∀ e ∈ ls, e.1 < s.tasks.length
  tasks : ∀ i t, s.tasks[i]? = some t → ∀ ps out ls', Goes t.todo ps out ls' →
    Goes (a.serve t.req) (stepsOf i w0 h ++ ps) out (printedBy i ls ++ ls')

theorem shared_arrive {a : App U σ} {w0 : σ} {s : Server U σ σ} {h : Steps σ} {ls : List (Nat × Line)}
    (ok : SharedOK a w0 s h ls) (req : Request U) : SharedOK a w0 (s.step shared (.arrive req)) h ls := by
  refine ⟨ok.app, ok.world, ok.printed, fun e he => ?_, fun e he => ?_, fun i t ht => ?_⟩
  · simp only [Server.step, List.length_append]; have := ok.steps e he; omega
  · simp only [Server.step, List.length_append]; have := ok.lines e he; omega
  · simp only [Server.step, shared] at ht
    by_cases hi : i < s.tasks.length
    · rw [List.getElem?_append_left hi] at ht
      exact ok.tasks i t ht
    · rw [List.getElem?_append_right (by omega)] at ht
      obtain ⟨rfl, rfl⟩ : i = s.tasks.length ∧ ⟨req, s.app.serve req⟩ = t := by
        cases hd : i - s.tasks.length with
        | zero => rw [hd] at ht; exact ⟨by omega, by simpa using ht⟩
        | succ n => rw [hd] at ht; simp at ht
      intro ps out ls' hg
      rw [stepsOf_unknown _ ok.steps, printedBy_unknown ok.lines, ← ok.app]
      exact hg

theorem shared_step {a : App U σ} {w0 : σ} {s : Server U σ σ} {h : Steps σ} {ls : List (Nat × Line)}
    (ok : SharedOK a w0 s h ls) (i : Nat) : ∃ h' ls', SharedOK a w0 (s.step shared (.step i)) h' ls' := by
  cases ht : s.tasks[i]? with
  | none => exact ⟨h, ls, by simpa only [Server.step, ht] using ok⟩
  | some t =>
    have hlt : i < s.tasks.length := by rw [List.getElem?_eq_some_iff] at ht; exact ht.1
    have get : ∀ {j t' x}, (s.tasks.set i { t with todo := x })[j]? = some t' →
        (j = i ∧ t' = { t with todo := x }) ∨ (j ≠ i ∧ s.tasks[j]? = some t') := by
      intro j t' x hj
      rw [List.getElem?_set] at hj
      split at hj
      · next he => subst he; exact .inl ⟨rfl, (Option.some.inj hj).symm⟩
      · next he => exact .inr ⟨fun e => he e.symm, hj⟩
    cases htodo : t.todo with
    | ret x =>
      rw [show s.step shared (.step i) = { s with tasks := s.tasks.set i { t with todo := .ret x }, printed := s.printed ++ [] } by
        simp only [Server.step, ht, htodo, Act.stepOnce]]
      refine ⟨h, ls, ok.app, ?_, ?_, ?_, ?_, fun j t' hj => ?_⟩ <;>
        try simp only [List.length_set, List.append_nil]
      · exact ok.world
      · exact ok.printed
      · exact ok.steps
      · exact ok.lines
      · rcases get hj with ⟨rfl, rfl⟩ | ⟨_, hj⟩
        · have := ok.tasks j t ht; rw [htodo] at this; exact this
        · exact ok.tasks j t' hj
    | panic x =>
      rw [show s.step shared (.step i) = { s with tasks := s.tasks.set i { t with todo := .panic x }, printed := s.printed ++ [] } by
        simp only [Server.step, ht, htodo, Act.stepOnce]]
      refine ⟨h, ls, ok.app, ?_, ?_, ?_, ?_, fun j t' hj => ?_⟩ <;>
        try simp only [List.length_set, List.append_nil]
      · exact ok.world
      · exact ok.printed
      · exact ok.steps
      · exact ok.lines
      · rcases get hj with ⟨rfl, rfl⟩ | ⟨_, hj⟩
        · have := ok.tasks j t ht; rw [htodo] at this; exact this
        · exact ok.tasks j t' hj
    | step f k =>
      rw [show s.step shared (.step i) = { s with tasks := s.tasks.set i { t with todo := k s.world }, world := f s.world, printed := s.printed ++ [] } by
        simp only [Server.step, ht, htodo, Act.stepOnce]]
      refine ⟨h ++ [(i, f)], ls, ok.app, ?_, ?_, ?_, ?_, fun j t' hj => ?_⟩ <;>
        try simp only [List.length_set, List.append_nil]
      · rw [worldAfter_append, ← ok.world]; rfl
      · exact ok.printed
      · intro e he
        rcases List.mem_append.1 he with he | he
        · exact ok.steps e he
        · simp only [List.mem_singleton] at he; rw [he]; exact hlt
      · exact ok.lines
      · intro ps out ls' hg
        rw [stepsOf_append, ← ok.world]
        rcases get hj with ⟨rfl, rfl⟩ | ⟨hne, hj⟩
        · have := ok.tasks j t ht ((s.world, f) :: ps) out ls' (by rw [htodo]; exact .step hg)
          simpa [stepsOf] using this
        · have := ok.tasks j t' hj ps out ls' hg
          have hij : i ≠ j := fun e => hne e.symm
          simpa [stepsOf, hij] using this
    | print l k =>
      rw [show s.step shared (.step i) = { s with tasks := s.tasks.set i { t with todo := k }, printed := s.printed ++ [l] } by
        simp only [Server.step, ht, htodo, Act.stepOnce]]
      refine ⟨h, ls ++ [(i, l)], ok.app, ?_, ?_, ?_, ?_, fun j t' hj => ?_⟩ <;>
        try simp only [List.length_set]
      · exact ok.world
      · rw [ok.printed]; simp
      · exact ok.steps
      · intro e he
        rcases List.mem_append.1 he with he | he
        · exact ok.lines e he
        · simp only [List.mem_singleton] at he; rw [he]; exact hlt
      · intro ps out ls' hg
        rw [printedBy_append]
        rcases get hj with ⟨rfl, rfl⟩ | ⟨hne, hj⟩
        · have := ok.tasks j t ht ps out (l :: ls') (by rw [htodo]; exact .print hg)
          simpa [printedBy] using this
        · have := ok.tasks j t' hj ps out ls' hg
          have hij : i ≠ j := fun e => hne e.symm
          simpa [printedBy, hij] using this

theorem shared_run {a : App U σ} {w0 : σ} (es : List (Event U)) {s : Server U σ σ} {h : Steps σ} {ls : List (Nat × Line)}
    (ok : SharedOK a w0 s h ls) : ∃ h' ls', SharedOK a w0 (s.run shared es) h' ls' := by
  induction es generalizing s h ls with
  | nil => exact ⟨h, ls, ok⟩
  | cons e es ih =>
    cases e with
    | arrive req => exact ih (shared_arrive ok req)
    | step i =>
      obtain ⟨h', ls', ok'⟩ := shared_step ok i
      exact ih ok'

theorem shared_requests (es : List (Event U)) (s : Server U σ σ) :
    (s.run shared es).tasks.map (·.req) = s.tasks.map (·.req) ++ arrivals es := by
  induction es generalizing s with
  | nil => simp [Server.run, arrivals]
  | cons e es ih =>
    have := ih (s.step shared e)
    simp only [Server.run, List.foldl_cons] at this ⊢
    rw [this]
    cases e with
    | arrive req => simp [Server.step, arrivals]
    | step i =>
      simp only [arrivals]
      congr 1
      simp only [Server.step]
      cases ht : s.tasks[i]? with
      | none => rfl
      | some t =>
        apply List.ext_getElem?
        intro j
        simp only [List.getElem?_map, List.getElem?_set]
        by_cases hij : i = j
        · subst hij
          have hlt : i < s.tasks.length := by
            rw [List.getElem?_eq_some_iff] at ht; exact ht.1
          rw [if_pos rfl, if_pos hlt, ht]; rfl
        · simp [hij]

theorem sent_for {out : Except Crash (ContextResult U)} {out' : Except Crash Sent} (h1 : ∀ k, out = .error k → out' = .error k)
    (h2 : ∀ r, out = .ok r → out' = finish r) : SentFor out out' := by
  refine ⟨h1, fun result hr => ?_⟩
  rw [h2 result hr]
  exact finish_sends result

/-- **C90**: whatever requests arrive and however their steps are interleaved, all on the same world: the world
is the result of single steps of the requests, one after the other; every request that is finished was served
by its handler inside its middlewares, or answered with 404, as if it were alone but for the worlds that its
steps found; and every printed line was printed by one of them, in order. -/
theorem C90_together {prog : List (Reg (Middleware U σ) (Handler U σ))} {a : App U σ} (hb : build prog = (a.router, none))
    (hc : CleanRegs prog) (hsm : NoStarMount (logOf prog)) (w0 : σ) (es : List (Event U)) :
    let L := logOf prog
    let s := (startUp a w0).run shared es
    s.tasks.map (·.req) = arrivals es ∧
    ∃ (steps : Steps σ) (lines : List (Nat × Line)), s.world = worldAfter w0 steps ∧ s.printed = lines.map (·.2) ∧
      (∀ e ∈ steps, e.1 < s.tasks.length) ∧ (∀ e ∈ lines, e.1 < s.tasks.length) ∧
      ∀ i t out, s.tasks[i]? = some t → Outcome t.todo out →
        ((¬ ∃ e ∈ L, ∃ h b, e.what = .route t.req.method h ∧ LeadsTo L e.segs (segments t.req.path) b) →
          stepsOf i w0 steps = [] ∧ printedBy i lines = [] ∧ ∃ sent, out = .ok sent ∧ sent.status = 404 ∧
            sent.body.bytes = utf8 "404 Not Found".toList ∧ ∀ k, sent.headers.get k = none) ∧
        ∀ e ∈ L, ∀ h b, e.what = .route t.req.method h → LeadsTo L e.segs (segments t.req.path) b →
          ∃ c, Given a.appState t.req b c ∧
            ∃ out', Goes (nest h (middlewaresOf L e.segs) c) (stepsOf i w0 steps) out' (printedBy i lines) ∧
              SentFor out' out := by
  intro L s
  obtain ⟨steps, lines, ok⟩ := shared_run es (s := startUp a w0) (a := a) (w0 := w0) (h := []) (ls := [])
    ⟨rfl, rfl, rfl, nofun, nofun, fun i t ht => by simp [startUp] at ht⟩
  refine ⟨by rw [shared_requests]; rfl, steps, lines, ok.world, ok.printed, ok.steps, ok.lines, fun i t out ht ho => ?_⟩
  have goes : Goes (a.serve t.req) (stepsOf i w0 steps) out (printedBy i lines) := by
    have := ok.tasks i t ht [] out []
    rw [List.append_nil, List.append_nil] at this
    rcases ho with ⟨x, h1, rfl⟩ | ⟨x, h1, rfl⟩
    · exact this (by rw [h1]; exact .ret)
    · exact this (by rw [h1]; exact .panic)
  obtain ⟨h1, h2⟩ := serving_eq hb hc hsm t.req
  constructor
  · intro hno
    have hq : a.serve t.req = .ret pageNotFound := serve_none (h1 hno)
    rw [hq] at goes
    generalize stepsOf i w0 steps = x at goes
    generalize printedBy i lines = y at goes
    cases goes
    exact ⟨rfl, rfl, pageNotFound, rfl, rfl, (bytes_ofStr _).1, fun k => rfl⟩
  · intro e he h b hw hl
    obtain ⟨c, h3, h4⟩ := h2 e he h b hw hl
    rw [h4] at goes
    obtain ⟨out', g1, g2, g3⟩ := goes_bind goes
    exact ⟨c, h3, out', g1, sent_for g2 g3⟩

/-! ### Shared counters -/

theorem adds_bind {count : σ → Int} {x : Act σ α} {g : α → Except Crash β} {n : Int} (h : Adds count x n) :
    Adds count (x.bind fun a => .ofPure (g a)) n := by
  induction h with
  | @ret a => rw [Act.ret_bind]; cases g a <;> constructor
  | panic => exact .panic
  | step h1 _ ih => exact .step h1 ih
  | print _ ih => exact .print ih

theorem sum_set {l : List Int} {i : Nat} {x : Int} (h : l[i]? = some x) (y : Int) : (l.set i y).sum = l.sum - x + y := by
  induction l generalizing i with
  | nil => simp at h
  | cons z l ih =>
    cases i with
    | zero => simp at h; subst h; simp; omega
    | succ i => simp at h; simp [ih h]; omega

/-- The invariant: what the tasks still have to add. -/
structure CountOK (count : σ → Int) (n : Request U → Int) (a : App U σ) (w0 : σ) (s : Server U σ σ) (rest : List Int) : Prop where
  app : s.app = a
  length : rest.length = s.tasks.length
  tasks : ∀ (i : Nat) (t : Task U σ) (r : Int), s.tasks[i]? = some t → rest[i]? = some r → Adds count t.todo r
  sum : count s.world + rest.sum = count w0 + (s.tasks.map fun t => n t.req).sum

theorem sum_append_one (l : List Int) (x : Int) : (l ++ [x]).sum = l.sum + x := by simp

theorem map_req_set {s : Server U σ σ} {n : Request U → Int} {i : Nat} {t : Task U σ} (ht : s.tasks[i]? = some t) (x : Act σ Sent) :
    (s.tasks.set i { t with todo := x }).map (fun t => n t.req) = s.tasks.map (fun t => n t.req) := by
  apply List.ext_getElem?
  intro j
  simp only [List.getElem?_map, List.getElem?_set]
  by_cases hij : i = j
  · subst hij
    have hlt : i < s.tasks.length := by rw [List.getElem?_eq_some_iff] at ht; exact ht.1
    rw [if_pos rfl, if_pos hlt, ht]; rfl
  · simp [hij]

theorem count_run {count : σ → Int} {n : Request U → Int} {a : App U σ} (ha : ∀ req, Adds count (a.serve req) (n req)) {w0 : σ}
    (es : List (Event U)) {s : Server U σ σ} {rest : List Int} (ok : CountOK count n a w0 s rest) :
    ∃ rest', CountOK count n a w0 (s.run shared es) rest' := by
  induction es generalizing s rest with
  | nil => exact ⟨rest, ok⟩
  | cons e es ih =>
    cases e with
    | arrive req =>
      refine ih (rest := rest ++ [n req]) ⟨ok.app, by simp [Server.step, ok.length], fun i t r ht hr => ?_, ?_⟩
      · simp only [Server.step, shared] at ht
        by_cases hi : i < s.tasks.length
        · rw [List.getElem?_append_left hi] at ht
          rw [List.getElem?_append_left (by rw [ok.length]; exact hi)] at hr
          exact ok.tasks i t r ht hr
        · rw [List.getElem?_append_right (by omega)] at ht
          rw [List.getElem?_append_right (by rw [ok.length]; omega), ok.length] at hr
          cases hd : i - s.tasks.length with
          | zero =>
            rw [hd] at ht hr
            simp at ht hr
            subst ht; subst hr
            rw [ok.app]; exact ha req
          | succ k => rw [hd] at ht; simp at ht
      · simp only [Server.step, List.map_append, List.map_cons, List.map_nil, sum_append_one]
        have := ok.sum; omega
    | step i =>
      cases ht : s.tasks[i]? with
      | none =>
        have : s.step shared (.step i) = s := by simp only [Server.step, ht]
        have h := ih ok
        rw [← this] at h
        exact h
      | some t =>
        have hlt : i < s.tasks.length := by rw [List.getElem?_eq_some_iff] at ht; exact ht.1
        obtain ⟨r, hr⟩ : ∃ r, rest[i]? = some r := ⟨_, List.getElem?_eq_getElem (by rw [ok.length]; exact hlt)⟩
        have had := ok.tasks i t r ht hr
        have key : ∀ (x : Act σ Sent) r, Adds count x r → ∃ r', Adds count (x.stepOnce s.world).1 r' ∧
            count (x.stepOnce s.world).2.1 + r' = count s.world + r := by
          intro x r hx
          cases hx with
          | ret => exact ⟨0, .ret, rfl⟩
          | panic => exact ⟨0, .panic, rfl⟩
          | step h1 h2 => refine ⟨_, h2 s.world, ?_⟩; simp only [Act.stepOnce, h1]; omega
          | print h1 => exact ⟨_, h1, rfl⟩
        obtain ⟨r', k1, k2⟩ := key _ _ had
        refine ih (s := s.step shared (.step i)) (rest := rest.set i r') ?_
        simp only [Server.step, ht]
        refine ⟨ok.app, by simp [ok.length], fun j t' r'' hj hr' => ?_, ?_⟩
        · simp only [List.getElem?_set] at hj hr'
          by_cases hij : i = j
          · subst hij
            rw [if_pos rfl, if_pos hlt] at hj
            rw [if_pos rfl, if_pos (by rw [ok.length]; exact hlt)] at hr'
            injection hj with hj; injection hr' with hr'
            subst hj; subst hr'; exact k1
          · rw [if_neg hij] at hj hr'
            exact ok.tasks j t' r'' hj hr'
        · simp only [map_req_set ht, sum_set hr]
          have := ok.sum
          show count (t.todo.stepOnce s.world).2.1 + (rest.sum - r + r') = count w0 + (s.tasks.map fun t => n t.req).sum
          omega

open Classical in
/-- **C90**, shared counters: if every handler, inside of its middlewares, adds one to a counter, in whatever
steps, then after any requests, in any interleaving, once all of them are finished, the counter has gone up by the
number of requests that lead to a handler.  No update is lost. -/
theorem C90_counter {prog : List (Reg (Middleware U σ) (Handler U σ))} {a : App U σ} (hb : build prog = (a.router, none))
    (hc : CleanRegs prog) (hsm : NoStarMount (logOf prog)) (count : σ → Int)
    (ha : ∀ e ∈ logOf prog, ∀ m h, e.what = .route m h → ∀ c, Adds count (nest h (middlewaresOf (logOf prog) e.segs) c) 1)
    (w0 : σ) (es : List (Event U)) (hf : ∀ t ∈ ((startUp a w0).run shared es).tasks, ∃ out, Outcome t.todo out) :
    count ((startUp a w0).run shared es).world = count w0 + (arrivals es).countP fun req =>
      ∃ e ∈ logOf prog, ∃ h b, e.what = .route req.method h ∧ LeadsTo (logOf prog) e.segs (segments req.path) b := by
  generalize hL : logOf prog = L at *
  let n : Request U → Int := fun req =>
    if ∃ e ∈ L, ∃ h b, e.what = .route req.method h ∧ LeadsTo L e.segs (segments req.path) b then 1 else 0
  have hserve : ∀ req, Adds count (a.serve req) (n req) := by
    intro req
    obtain ⟨h1, h2⟩ := serving_eq hb hc (by rw [hL]; exact hsm) req
    rw [hL] at h1 h2
    by_cases hl : ∃ e ∈ L, ∃ h b, e.what = .route req.method h ∧ LeadsTo L e.segs (segments req.path) b
    · obtain ⟨e, he, h, b, hw, hl'⟩ := hl
      obtain ⟨c, _, hs⟩ := h2 e he h b hw hl'
      rw [hs, show n req = 1 from if_pos ⟨e, he, h, b, hw, hl'⟩]
      exact adds_bind (ha e he _ h hw c)
    · rw [serve_none (h1 hl), show n req = 0 from if_neg hl]
      exact .ret
  obtain ⟨rest, ok⟩ := count_run hserve (w0 := w0) es (s := startUp a w0) (rest := [])
    ⟨rfl, rfl, fun i t r ht => by simp [startUp] at ht, by simp [startUp]⟩
  have zero : rest.sum = 0 := by
    have : ∀ r ∈ rest, r = 0 := by
      intro r hr
      obtain ⟨i, hi, rfl⟩ := List.mem_iff_getElem.1 hr
      have hi' := ok.length ▸ hi
      have had := ok.tasks i _ _ (List.getElem?_eq_getElem hi') (List.getElem?_eq_getElem hi)
      obtain ⟨out, hout⟩ := hf _ (List.getElem_mem hi')
      generalize rest[i] = r at had
      rcases hout with ⟨x, h1, _⟩ | ⟨x, h1, _⟩ <;> rw [h1] at had <;> cases had <;> rfl
    clear ok
    induction rest with
    | nil => rfl
    | cons r rest ih =>
      rw [List.sum_cons, this r (by simp), ih fun r hr => this r (by simp [hr])]; rfl
  have hsum : ∀ reqs : List (Request U), (reqs.map n).sum = (reqs.countP fun req =>
      ∃ e ∈ L, ∃ h b, e.what = .route req.method h ∧ LeadsTo L e.segs (segments req.path) b : Nat) := by
    intro reqs
    induction reqs with
    | nil => rfl
    | cons r reqs ih =>
      rw [List.map_cons, List.sum_cons, ih, List.countP_cons]
      by_cases hl : ∃ e ∈ L, ∃ h b, e.what = .route r.method h ∧ LeadsTo L e.segs (segments r.path) b
      · rw [show n r = 1 from if_pos hl]; simp only [hl, decide_true, if_true]; omega
      · rw [show n r = 0 from if_neg hl]; simp only [hl, decide_false]; simp
  have := ok.sum
  rw [zero, show (fun t : Task U σ => n t.req) = n ∘ (fun t => t.req) from rfl, ← List.map_map, shared_requests,
    show (startUp a w0).tasks.map (fun t => t.req) ++ arrivals es = arrivals es from rfl, hsum] at this
  simpa [startUp] using this

/-! ### An example -/

/-- A handler that counts, in one step, and answers with the number that it found. -/
def hitHandler : Handler demoU W := fun c => .step (· + 1) fun n => .ret (c.build (.str (Nat.repr n).toList)).ok

/-- A handler that reads the counter and writes it in another step. -/
def slowHandler : Handler demoU W := fun c =>
  .step id fun n => .step (fun _ => n + 1) fun _ => .ret (c.build (.str [])).ok

def hitProg (h : Handler demoU W) : List (Reg (Middleware demoU W) (Handler demoU W)) := [.get (s "/hit") h]

theorem hitProg_log (h : Handler demoU W) : logOf (hitProg h) = [⟨[s "hit"], .route .get h⟩] := by
  have h1 : segments (s "/hit") = [s "hit"] := by decide +kernel
  simp only [hitProg, logOf, logRegs, logReg, h1, List.nil_append]

open Classical in
/-- Whatever requests arrive, the counter goes up by the number of those for `/hit`. -/
example (w0 : W) (es : List (Event demoU)) (hf : ∀ t ∈ ((startUp ⟨(build (hitProg hitHandler)).1, none⟩ w0).run shared es).tasks,
    ∃ out, Outcome t.todo out) :
    (((startUp ⟨(build (hitProg hitHandler)).1, none⟩ w0).run shared es).world : Int) = (w0 : Int) + (arrivals es).countP fun req =>
      ∃ e ∈ logOf (hitProg hitHandler), ∃ h b, e.what = .route req.method h ∧
        LeadsTo (logOf (hitProg hitHandler)) e.segs (segments req.path) b := by
  refine C90_counter (a := ⟨(build (hitProg hitHandler)).1, none⟩) (build_eq (by decide +kernel))
    (by simp only [hitProg, CleanRegs, CleanReg, and_true]; decide +kernel) (noStarMount_of_noStar fun e he => .inl ?_)
    (fun w : W => (w : Int)) ?_ w0 es hf
  · rw [hitProg_log] at he
    simp only [List.mem_singleton] at he
    subst he; decide +kernel
  · intro e he m h hw c
    rw [hitProg_log] at he ⊢
    simp only [List.mem_singleton] at he
    subst he
    injection hw with _ hw
    subst hw
    rw [show nest hitHandler (middlewaresOf [⟨[s "hit"], .route .get hitHandler⟩] [s "hit"]) c = hitHandler c by
      rw [show middlewaresOf (M := Middleware demoU W) (H := Handler demoU W) [⟨[s "hit"], .route .get hitHandler⟩] [s "hit"] = [] from rfl]; rfl]
    exact .step (d := 1) (n := 0) (fun w => rfl) (fun _ => .ret)

/-- Two requests, interleaved: both are counted, and get different answers. -/
example : let s := (startUp ⟨(build (hitProg hitHandler)).1, none⟩ 7).run shared [.arrive (demoReq .get "/hit"), .arrive (demoReq .get "/hit"), .step 1, .step 0]
    s.world = 9 ∧ (s.tasks.map fun t => match t.todo with | .ret sent => sent.body.bytes | _ => []) = [[56], [55]] := by
  decide +kernel

/-- With a handler that reads and writes in two steps, an update can be lost: `Adds` cannot be left out. -/
example : ((startUp ⟨(build (hitProg slowHandler)).1, none⟩ 7).run shared
      [.arrive (demoReq .get "/hit"), .arrive (demoReq .get "/hit"), .step 0, .step 1, .step 0, .step 1]).world = 8 := by
  decide +kernel

end Obsidian.Props
