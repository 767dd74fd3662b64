import Verif.Spec.OneByOne
import Verif.Props.Together
import Verif.Props.AnyPath
import Verif.Props.AtMost

/-
C103: requests that are served at the same time, and requests that are served one after the other.
-/
namespace Obsidian.Props
open Obsidian Spec
variable {U : Univ} {σ α β : Type}

/-! ### Computations with at most one step -/

theorem still_bind {x : Act σ α} {g : α → Act σ β} (h : Still x) (hg : ∀ a, Still (g a)) : Still (x.bind g) := by
  induction h with
  | ret => exact hg _
  | panic => exact .panic
  | print _ ih => exact .print ih

theorem once_bind {x : Act σ α} {g : α → Act σ β} (h : Once x) (hg : ∀ a, Still (g a)) : Once (x.bind g) := by
  induction h with
  | still h => exact .still (still_bind h hg)
  | step h => exact .step fun w => still_bind (h w) hg
  | print _ ih => exact .print ih

theorem still_bind_once {x : Act σ α} {g : α → Act σ β} (h : Still x) (hg : ∀ a, Once (g a)) : Once (x.bind g) := by
  induction h with
  | ret => exact hg _
  | panic => exact .still .panic
  | print _ ih => exact .print ih

theorem still_ofPure (x : Except Crash α) : Still (Act.ofPure x : Act σ α) := by
  cases x <;> constructor

theorem once_chain {h : Handler U σ} (hh : ∀ c, Once (h c)) : ∀ (ms : List (Middleware U σ)), (∀ m ∈ ms, KeepsOnce m) →
    ∀ c, Once (execNext h ms c)
  | [], _, c => hh c
  | m :: ms, hm, c => hm m (List.mem_cons_self ..) _ c (once_chain hh ms fun x hx => hm x (List.mem_cons_of_mem _ hx))

theorem still_run {x : Act σ α} (h : Still x) (w : σ) : (x.run w).world = w := by
  induction h with
  | ret => rfl
  | panic => rfl
  | print _ ih => exact ih

theorem still_out {x : Act σ α} (h : Still x) (w w' : σ) : (x.run w).out = (x.run w').out := by
  induction h with
  | ret => rfl
  | panic => rfl
  | print _ ih => exact ih

theorem outcome_run {x : Act σ Sent} {out : Except Crash Sent} (h : Outcome x out) (w : σ) : Still x ∧ (x.run w).out = out := by
  rcases h with ⟨_, rfl, rfl⟩ | ⟨_, rfl, rfl⟩
  · exact ⟨.ret, rfl⟩
  · exact ⟨.panic, rfl⟩

/-- Still before the step of the computation. -/
inductive Waits : Act σ α → Prop
  | step {f k} : (∀ w, Still (k w)) → Waits (.step f k)
  | print {l k} : Waits k → Waits (.print l k)

theorem once_cases {x : Act σ α} (h : Once x) : Still x ∨ Waits x := by
  induction h with
  | still h => exact .inl h
  | step h => exact .inr (.step h)
  | print _ ih => exact ih.imp .print .print

theorem waits_not_still {x : Act σ α} (h : Waits x) (h' : Still x) : False := by
  induction h with
  | step => cases h'
  | print _ ih => cases h' with | print h' => exact ih h'

/-! ### The server -/

theorem afterServing_append (a : App U σ) (w : σ) (xs ys : List (Request U)) :
    afterServing a w (xs ++ ys) = afterServing a (afterServing a w xs) ys := by
  induction xs generalizing w with
  | nil => rfl
  | cons x xs ih => exact ih _

/-- The invariant: which requests have had their step, in order. -/
structure OrderOK (a : App U σ) (w0 : σ) (s : Server U σ σ) (o : Order U) : Prop where
  app : s.app = a
  world : s.world = afterServing a w0 (o.map (·.2))
  nodup : (o.map (·.1)).Nodup
  reqs : ∀ e ∈ o, ∃ t, s.tasks[e.1]? = some t ∧ t.req = e.2
  waiting : ∀ i t, s.tasks[i]? = some t → i ∉ o.map (·.1) → Waits t.todo ∧
    ∀ w, (t.todo.run w).out = ((a.serve t.req).run w).out ∧ (t.todo.run w).world = ((a.serve t.req).run w).world
  served : ∀ pre i r post t, o = pre ++ (i, r) :: post → s.tasks[i]? = some t → Still t.todo ∧
    ∀ w, (t.todo.run w).out = answerAfter a w0 (pre.map (·.2)) t.req

/-- Where in a longer order an element stands. -/
theorem split_last {γ : Type} {o pre post : List γ} {x y : γ} (h : o ++ [y] = pre ++ x :: post) :
    (∃ post', post = post' ++ [y] ∧ o = pre ++ x :: post') ∨ (post = [] ∧ x = y ∧ pre = o) := by
  rcases List.eq_nil_or_concat post with rfl | ⟨post', z, rfl⟩
  · right
    have := List.append_inj' h rfl
    exact ⟨rfl, by simpa using this.2.symm, this.1.symm⟩
  · left
    rw [List.concat_eq_append, show pre ++ x :: (post' ++ [z]) = (pre ++ x :: post') ++ [z] by simp] at h
    have := List.append_inj' h rfl
    refine ⟨post', ?_, this.1⟩
    rw [List.concat_eq_append]
    simpa using this.2.symm

theorem order_arrive {a : App U σ} (ha : ∀ req, Once (a.serve req)) {w0 : σ} {s : Server U σ σ} {o : Order U}
    (ok : OrderOK a w0 s o) (req : Request U) :
    ∃ o', OrderOK a w0 (s.step shared (.arrive req)) (o ++ o') := by
  have hs : s.step shared (.arrive req) = { s with tasks := s.tasks ++ [⟨req, a.serve req⟩] } := by
    simp only [Server.step, shared, ok.app]
  have get : ∀ {i t}, (s.tasks ++ [⟨req, a.serve req⟩])[i]? = some t →
      s.tasks[i]? = some t ∨ (i = s.tasks.length ∧ t = ⟨req, a.serve req⟩) := by
    intro i t ht
    by_cases hi : i < s.tasks.length
    · rw [List.getElem?_append_left hi] at ht; exact .inl ht
    · rw [List.getElem?_append_right (by omega)] at ht
      cases hd : i - s.tasks.length with
      | zero => rw [hd] at ht; exact .inr ⟨by omega, by simpa using ht.symm⟩
      | succ n => rw [hd] at ht; simp at ht
  have lt : ∀ {i t}, s.tasks[i]? = some t → i < s.tasks.length := fun h => (List.getElem?_eq_some_iff.1 h).1
  have notin : s.tasks.length ∉ o.map (·.1) := by
    intro h
    obtain ⟨e, he, h⟩ := List.mem_map.1 h
    obtain ⟨t, h1, _⟩ := ok.reqs e he
    have := lt h1
    omega
  rw [hs]
  rcases once_cases (ha req) with hst | hw
  · refine ⟨[(s.tasks.length, req)], ok.app, ?_, ?_, ?_, ?_, ?_⟩
    · simp only [List.map_append, List.map_cons, List.map_nil]
      rw [afterServing_append, ← ok.world]
      exact (still_run hst _).symm
    · rw [List.map_append, List.nodup_append]
      exact ⟨ok.nodup, by simp, fun x hx y hy => by
        simp only [List.map_cons, List.map_nil, List.mem_singleton] at hy
        subst hy; intro e; subst e; exact notin hx⟩
    · intro e he
      rcases List.mem_append.1 he with he | he
      · obtain ⟨t, h1, h2⟩ := ok.reqs e he
        exact ⟨t, by rw [List.getElem?_append_left (lt h1)]; exact h1, h2⟩
      · simp only [List.mem_singleton] at he
        subst he
        exact ⟨⟨req, a.serve req⟩, by simp, rfl⟩
    · intro i t ht hi
      simp only [List.map_append, List.mem_append, List.map_cons, List.map_nil, List.mem_singleton, not_or] at hi
      rcases get ht with ht | ⟨rfl, rfl⟩
      · exact ok.waiting i t ht hi.1
      · exact absurd rfl hi.2
    · intro pre i r post t he ht
      rcases split_last he with ⟨post', _, he'⟩ | ⟨_, he', hpre⟩
      · rcases get ht with ht | ⟨rfl, rfl⟩
        · exact ok.served pre i r post' t he' ht
        · exact absurd (by rw [he']; simp) notin
      · injection he' with h1 h2
        subst h1; subst h2
        rcases get ht with ht | ⟨_, rfl⟩
        · have := lt ht; omega
        · exact ⟨hst, fun w => still_out hst _ _⟩
  · refine ⟨[], ?_⟩
    rw [List.append_nil]
    refine ⟨ok.app, ok.world, ok.nodup, ?_, ?_, ?_⟩
    · intro e he
      obtain ⟨t, h1, h2⟩ := ok.reqs e he
      exact ⟨t, by rw [List.getElem?_append_left (lt h1)]; exact h1, h2⟩
    · intro i t ht hi
      rcases get ht with ht | ⟨rfl, rfl⟩
      · exact ok.waiting i t ht hi
      · exact ⟨hw, fun w => ⟨rfl, rfl⟩⟩
    · intro pre i r post t he ht
      rcases get ht with ht | ⟨rfl, rfl⟩
      · exact ok.served pre i r post t he ht
      · exact absurd (by rw [he]; simp) notin

theorem order_step {a : App U σ} {w0 : σ} {s : Server U σ σ} {o : Order U} (ok : OrderOK a w0 s o) (i : Nat) :
    ∃ o', OrderOK a w0 (s.step shared (.step i)) (o ++ o') := by
  cases ht : s.tasks[i]? with
  | none => exact ⟨[], by rw [List.append_nil]; simpa only [Server.step, ht] using ok⟩
  | some t =>
    have hlt : i < s.tasks.length := (List.getElem?_eq_some_iff.1 ht).1
    have get : ∀ {j t' x}, (s.tasks.set i { t with todo := x })[j]? = some t' →
        (j = i ∧ t' = { t with todo := x }) ∨ (j ≠ i ∧ s.tasks[j]? = some t') := by
      intro j t' x hj
      rw [List.getElem?_set] at hj
      split at hj
      · next he => subst he; exact .inl ⟨rfl, (Option.some.inj hj).symm⟩
      · next he => exact .inr ⟨fun e => he e.symm, hj⟩
    have reqs : ∀ (x : Act σ Sent), ∀ e ∈ o, ∃ t', (s.tasks.set i { t with todo := x })[e.1]? = some t' ∧ t'.req = e.2 := by
      intro x e he
      obtain ⟨t', h1, h2⟩ := ok.reqs e he
      by_cases h : i = e.1
      · subst h
        rw [ht] at h1; injection h1 with h1; subst h1
        exact ⟨{ t with todo := x }, by rw [List.getElem?_set]; simp [hlt], h2⟩
      · exact ⟨t', by rw [List.getElem?_set]; simp [h, h1], h2⟩
    -- a step that does not change the world and keeps the result
    have quiet : ∀ (x : Act σ Sent) (ls : List Line), (Still t.todo → Still x) → (Waits t.todo → Waits x) →
        (∀ w, (x.run w).out = (t.todo.run w).out ∧ (x.run w).world = (t.todo.run w).world) →
        OrderOK a w0 { s with tasks := s.tasks.set i { t with todo := x }, printed := s.printed ++ ls } o := by
      intro x ls h1 h2 h3
      refine ⟨ok.app, ok.world, ok.nodup, reqs x, ?_, ?_⟩
      · intro j t' hj hi
        rcases get hj with ⟨rfl, rfl⟩ | ⟨_, hj⟩
        · obtain ⟨k1, k2⟩ := ok.waiting j t ht hi
          exact ⟨h2 k1, fun w => ⟨(h3 w).1.trans (k2 w).1, (h3 w).2.trans (k2 w).2⟩⟩
        · exact ok.waiting j t' hj hi
      · intro pre j r post t' he hj
        rcases get hj with ⟨rfl, rfl⟩ | ⟨_, hj⟩
        · obtain ⟨k1, k2⟩ := ok.served pre j r post t he ht
          exact ⟨h1 k1, fun w => (h3 w).1.trans (k2 w)⟩
        · exact ok.served pre j r post t' he hj
    cases htodo : t.todo with
    | ret x =>
      refine ⟨[], ?_⟩
      rw [List.append_nil, show s.step shared (.step i) = { s with tasks := s.tasks.set i { t with todo := .ret x }, printed := s.printed ++ [] } by
        simp only [Server.step, ht, htodo, Act.stepOnce]]
      exact quiet _ _ (by rw [htodo]; exact id) (by rw [htodo]; exact id) (by rw [htodo]; exact fun w => ⟨rfl, rfl⟩)
    | panic x =>
      refine ⟨[], ?_⟩
      rw [List.append_nil, show s.step shared (.step i) = { s with tasks := s.tasks.set i { t with todo := .panic x }, printed := s.printed ++ [] } by
        simp only [Server.step, ht, htodo, Act.stepOnce]]
      exact quiet _ _ (by rw [htodo]; exact id) (by rw [htodo]; exact id) (by rw [htodo]; exact fun w => ⟨rfl, rfl⟩)
    | print l k =>
      refine ⟨[], ?_⟩
      rw [List.append_nil, show s.step shared (.step i) = { s with tasks := s.tasks.set i { t with todo := k }, printed := s.printed ++ [l] } by
        simp only [Server.step, ht, htodo, Act.stepOnce]]
      exact quiet _ _ (by rw [htodo]; intro h; cases h; assumption) (by rw [htodo]; intro h; cases h; assumption)
        (by rw [htodo]; exact fun w => ⟨rfl, rfl⟩)
    | step f k =>
      refine ⟨[(i, t.req)], ?_⟩
      rw [show s.step shared (.step i) = { s with tasks := s.tasks.set i { t with todo := k s.world }, world := f s.world, printed := s.printed ++ [] } by
        simp only [Server.step, ht, htodo, Act.stepOnce]]
      have notin : i ∉ o.map (·.1) := by
        intro h
        obtain ⟨e, he, rfl⟩ := List.mem_map.1 h
        obtain ⟨pre, post, h⟩ := List.append_of_mem he
        have := (ok.served pre e.1 e.2 post t h ht).1
        rw [htodo] at this
        cases this
      obtain ⟨k1, k2⟩ := ok.waiting i t ht notin
      rw [htodo] at k1 k2
      have hst : ∀ w, Still (k w) := by cases k1; assumption
      refine ⟨ok.app, ?_, ?_, ?_, ?_, ?_⟩
      · simp only [List.map_append, List.map_cons, List.map_nil]
        rw [afterServing_append, ← ok.world]
        show f s.world = ((a.serve t.req).run s.world).world
        rw [← (k2 s.world).2]
        exact (still_run (hst _) _).symm
      · rw [List.map_append, List.nodup_append]
        exact ⟨ok.nodup, by simp, fun x hx y hy => by
          simp only [List.map_cons, List.map_nil, List.mem_singleton] at hy
          subst hy; intro e; subst e; exact notin hx⟩
      · intro e he
        rcases List.mem_append.1 he with he | he
        · exact reqs _ e he
        · simp only [List.mem_singleton] at he
          subst he
          exact ⟨{ t with todo := k s.world }, by rw [List.getElem?_set]; simp [hlt], rfl⟩
      · intro j t' hj hi
        simp only [List.map_append, List.mem_append, List.map_cons, List.map_nil, List.mem_singleton, not_or] at hi
        rcases get hj with ⟨rfl, rfl⟩ | ⟨_, hj⟩
        · exact absurd rfl hi.2
        · exact ok.waiting j t' hj hi.1
      · intro pre j r post t' he hj
        rcases split_last he with ⟨post', _, he'⟩ | ⟨_, he', hpre⟩
        · rcases get hj with ⟨rfl, rfl⟩ | ⟨_, hj⟩
          · exact absurd (by rw [he']; simp) notin
          · exact ok.served pre j r post' t' he' hj
        · injection he' with h1 h2
          subst h1; subst h2
          rcases get hj with ⟨_, rfl⟩ | ⟨hne, _⟩
          · refine ⟨hst _, fun w => ?_⟩
            rw [answerAfter, hpre, ← ok.world, ← (k2 s.world).1]
            exact still_out (hst _) _ _
          · exact absurd rfl hne

theorem order_run {a : App U σ} (ha : ∀ req, Once (a.serve req)) {w0 : σ} (es : List (Event U)) {s : Server U σ σ} {o : Order U}
    (ok : OrderOK a w0 s o) : ∃ o', OrderOK a w0 (s.run shared es) (o ++ o') ∧
      ∀ es1 es2, es = es1 ++ es2 → ∃ o1 o2, o' = o1 ++ o2 ∧ OrderOK a w0 (s.run shared es1) (o ++ o1) := by
  induction es generalizing s o with
  | nil =>
    refine ⟨[], by rw [List.append_nil]; exact ok, fun es1 es2 he => ⟨[], [], rfl, ?_⟩⟩
    rw [(List.append_eq_nil_iff.1 he.symm).1, List.append_nil]
    exact ok
  | cons e es ih =>
    obtain ⟨o1, ok1⟩ : ∃ o1, OrderOK a w0 (s.step shared e) (o ++ o1) := by
      cases e with
      | arrive req => exact order_arrive ha ok req
      | step i => exact order_step ok i
    obtain ⟨o2, ok2, hs⟩ := ih ok1
    refine ⟨o1 ++ o2, by rw [← List.append_assoc]; exact ok2, fun es1 es2 he => ?_⟩
    cases es1 with
    | nil => exact ⟨[], o1 ++ o2, rfl, by rw [List.append_nil]; exact ok⟩
    | cons e' es1 =>
      injection he with h1 h2
      subst h1
      obtain ⟨o3, o4, h3, ok3⟩ := hs es1 es2 h2
      exact ⟨o1 ++ o3, o4, by rw [h3, List.append_assoc], by rw [← List.append_assoc]; exact ok3⟩

/-- Serving touches the world at most once. -/
theorem once_serve {a : App U σ} {cs : List (Reg (Middleware U σ) (Handler U σ))} (ha : a.router = runCaught cs Router.new)
    (hh : ∀ x ∈ cs, ∀ ss m h, ⟨ss, .route m h⟩ ∈ callLog x → ∀ c, Once (h c))
    (hm : ∀ x ∈ cs, ∀ ss mw, ⟨ss, .middleware mw⟩ ∈ callLog x → KeepsOnce mw) (req : Request U) : Once (a.serve req) := by
  cases hf : handlerFor a.router req.method req.path with
  | none => rw [serve_none hf]; exact .still .ret
  | some h =>
    obtain ⟨chain, c, h1, _, h3⟩ := serve_some hf
    rw [ha] at h1 hf
    obtain ⟨k1, k2⟩ := C65_reading_partial cs req.path
    obtain ⟨x, hx, ss, _, hin, _⟩ := k1 _ _ hf
    rw [h3]
    refine once_bind (once_chain (hh x hx ss _ h hin) chain (fun m hmc => ?_) c) fun r => still_ofPure _
    obtain ⟨x, hx, ss, _, hin, _⟩ := k2 _ h1 m hmc
    exact hm x hx ss m hin

theorem tasks_length (a : App U σ) (w0 : σ) (es : List (Event U)) :
    ((startUp a w0).run shared es).tasks.length = (arrivals es).length := by
  have := congrArg List.length (shared_requests es (startUp a w0))
  simpa [startUp] using this

theorem task_req {a : App U σ} {w0 : σ} {es : List (Event U)} {i : Nat} {t : Task U σ}
    (h : ((startUp a w0).run shared es).tasks[i]? = some t) : (arrivals es)[i]? = some t.req := by
  have := congrArg (fun l => l[i]?) (shared_requests es (startUp a w0))
  simp only [List.getElem?_map, h] at this
  simpa [startUp] using this.symm

/-- **C103**: if serving a request touches the shared world at most once, then whatever requests arrive and however
their steps are interleaved, everything is as if some of the requests, among them all that are finished, had been
served one after the other, each from start to end: the world is the one that this leaves, and each finished request
has the answer that it gets there.  In this order a request that was finished before another one was received comes
before it.

The full claim, without the assumption, is false (`C103_false`). -/
theorem C103_one_after_another_partial {a : App U σ} (ha : ∀ req, Once (a.serve req)) (w0 : σ) (es : List (Event U)) :
    let s := (startUp a w0).run shared es
    ∃ o : Order U, o.Of (arrivals es) ∧
      s.world = afterServing a w0 (o.map (·.2)) ∧
      (∀ i t out, s.tasks[i]? = some t → Outcome t.todo out → (i, t.req) ∈ o) ∧
      (∀ pre i req post, o = pre ++ (i, req) :: post → ∀ t out, s.tasks[i]? = some t → Outcome t.todo out →
        out = answerAfter a w0 (pre.map (·.2)) req) ∧
      ∀ es1 es2, es = es1 ++ es2 → ∀ i t out, ((startUp a w0).run shared es1).tasks[i]? = some t → Outcome t.todo out →
        ∀ j req, (j, req) ∈ o → (arrivals es1).length ≤ j → o.Before i j := by
  intro s
  obtain ⟨o, ok, hs⟩ := order_run ha es (s := startUp a w0) (o := []) (w0 := w0)
    ⟨rfl, rfl, by simp, nofun, fun i t ht => by simp [startUp] at ht, fun pre i r post t he => by simp at he⟩
  rw [List.nil_append] at ok
  have inOrder : ∀ {es1 : List (Event U)} {o1 : Order U}, OrderOK a w0 ((startUp a w0).run shared es1) o1 →
      ∀ i t out, ((startUp a w0).run shared es1).tasks[i]? = some t → Outcome t.todo out → (i, t.req) ∈ o1 := by
    intro es1 o1 ok1 i t out ht ho
    have hst := (outcome_run ho w0).1
    cases hin : decide (i ∈ o1.map (·.1)) with
    | false => exact (waits_not_still (ok1.waiting i t ht (of_decide_eq_false hin)).1 hst).elim
    | true =>
      obtain ⟨e, he, rfl⟩ := List.mem_map.1 (of_decide_eq_true hin)
      obtain ⟨t', h1, h2⟩ := ok1.reqs e he
      rw [ht] at h1; injection h1 with h1; subst h1
      rw [h2]; exact he
  refine ⟨o, ⟨ok.nodup, fun e he => ?_⟩, ok.world, inOrder ok, ?_, ?_⟩
  · obtain ⟨t, h1, h2⟩ := ok.reqs e he
    rw [task_req h1, h2]
  · intro pre i req post he t out ht ho
    obtain ⟨_, h2⟩ := ok.served pre i req post t he ht
    obtain ⟨t', h3, h4⟩ := ok.reqs (i, req) (by rw [he]; simp)
    rw [show ((i, req) : Nat × Request U).1 = i from rfl, ht] at h3
    injection h3 with h3
    subst h3
    rw [← (outcome_run ho w0).2, h2 w0, h4]
  · intro es1 es2 he i t out ht ho j req hj hle
    obtain ⟨o1, o2, ho12, ok1⟩ := hs es1 es2 he
    rw [List.nil_append] at ok1
    have hi := inOrder ok1 i t out ht ho
    have hj2 : (j, req) ∈ o2 := by
      rw [ho12] at hj
      rcases List.mem_append.1 hj with hj | hj
      · obtain ⟨t', h1, _⟩ := ok1.reqs _ hj
        have := (List.getElem?_eq_some_iff.1 h1).1
        rw [tasks_length] at this
        simp only at this
        omega
      · exact hj
    obtain ⟨x, y, h1⟩ := List.append_of_mem hi
    obtain ⟨x', y', h2⟩ := List.append_of_mem hj2
    exact ⟨x, y ++ x', y', t.req, req, by rw [ho12, h1, h2]; simp⟩

/-- **C103**, for registrations: it is enough that every registered handler touches the world at most once and that no
middleware touches it.  The registrations are made by any calls, with paths of any form, nested to any depth, and may
panic and be caught. -/
theorem C103_registrations_partial {a : App U σ} {cs : List (Reg (Middleware U σ) (Handler U σ))}
    (ha : a.router = runCaught cs Router.new)
    (hh : ∀ x ∈ cs, ∀ ss m h, ⟨ss, .route m h⟩ ∈ callLog x → ∀ c, Once (h c))
    (hm : ∀ x ∈ cs, ∀ ss mw, ⟨ss, .middleware mw⟩ ∈ callLog x → KeepsOnce mw) (w0 : σ) (es : List (Event U)) :
    let s := (startUp a w0).run shared es
    ∃ o : Order U, o.Of (arrivals es) ∧
      s.world = afterServing a w0 (o.map (·.2)) ∧
      (∀ i t out, s.tasks[i]? = some t → Outcome t.todo out → (i, t.req) ∈ o) ∧
      (∀ pre i req post, o = pre ++ (i, req) :: post → ∀ t out, s.tasks[i]? = some t → Outcome t.todo out →
        out = answerAfter a w0 (pre.map (·.2)) req) ∧
      ∀ es1 es2, es = es1 ++ es2 → ∀ i t out, ((startUp a w0).run shared es1).tasks[i]? = some t → Outcome t.todo out →
        ∀ j req, (j, req) ∈ o → (arrivals es1).length ≤ j → o.Before i j :=
  C103_one_after_another_partial (once_serve ha hh hm) w0 es

/-- The logger of the library keeps it so. -/
theorem logger_keeps : KeepsOnce (logger : Middleware U σ) := by
  intro next c h
  refine .print (.print (once_bind (h _) fun r => ?_))
  cases r with
  | error e => exact .print .ret
  | ok after =>
    dsimp only
    cases after.response with
    | none => exact .panic
    | some r => exact .print .ret

/-! ### Requests that touch the world twice -/

/-- Two requests for the handler that reads the counter and writes it in another step. -/
def twoSlow : List (Event demoU) :=
  [.arrive (demoReq .get "/hit"), .arrive (demoReq .get "/hit"), .step 0, .step 1, .step 0, .step 1]

/-- **C103** is false in general: two requests are served, each by a handler that reads a counter and then sets it, both
are finished, and served one after the other, in whatever order, they would leave another world. -/
theorem C103_false : ∃ (prog : List (Reg (Middleware demoU W) (Handler demoU W))) (a : App demoU W) (w0 : W) (es : List (Event demoU)),
    build prog = (a.router, none) ∧ CleanRegs prog ∧ (arrivals es).length = 2 ∧
    (∀ t ∈ ((startUp a w0).run shared es).tasks, ∃ sent, t.todo = .ret sent ∧ sent.status = 200) ∧
    ∀ reqs, reqs.Perm (arrivals es) → ((startUp a w0).run shared es).world ≠ afterServing a w0 reqs := by
  refine ⟨hitProg slowHandler, ⟨(build (hitProg slowHandler)).1, none⟩, 7, twoSlow, build_eq (by decide +kernel),
    by simp only [hitProg, CleanRegs, CleanReg, and_true]; decide +kernel, rfl, ?_, ?_⟩
  · have h : (((startUp ⟨(build (hitProg slowHandler)).1, none⟩ 7).run shared twoSlow).tasks.map fun t =>
        match t.todo with | .ret sent => some sent.status | _ => none) = [some 200, some 200] := by decide +kernel
    intro t ht
    have := List.mem_map_of_mem (f := fun t : Task demoU W => match t.todo with | .ret sent => some sent.status | _ => none) ht
    rw [h] at this
    cases hd : t.todo with
    | ret sent => rw [hd] at this; exact ⟨sent, rfl, by simpa using this⟩
    | _ => rw [hd] at this; simp at this
  · intro reqs hp
    have h1 : reqs = [demoReq .get "/hit", demoReq .get "/hit"] :=
      (List.perm_replicate (n := 2) (a := demoReq .get "/hit")).1 hp
    rw [h1]
    have h2 : ((startUp ⟨(build (hitProg slowHandler)).1, none⟩ 7).run shared twoSlow).world = 8 := by decide +kernel
    have h3 : afterServing (⟨(build (hitProg slowHandler)).1, none⟩ : App demoU W) 7
        [demoReq .get "/hit", demoReq .get "/hit"] = 9 := by decide +kernel
    rw [h2, h3]
    decide

/-! ### Examples -/

/-- Tickets: the logger, and a page that counts and answers with the number that it found. -/
def ticketCalls : List (Reg (Middleware demoU W) (Handler demoU W)) := [.useService logger, .get (s "/hit") hitHandler]

/-- The application of these calls. -/
def ticketApp : App demoU W := ⟨runCaught ticketCalls Router.new, none⟩

theorem ticket_handlers : ∀ x ∈ ticketCalls, ∀ ss m h, ⟨ss, .route m h⟩ ∈ callLog x → ∀ c, Once (h c) := by
  intro x hx ss m h he c
  simp only [ticketCalls, List.mem_cons, List.not_mem_nil, or_false] at hx
  rcases hx with rfl | rfl
  · simp [callLog, logReg] at he
  · simp [callLog, logReg] at he
    rw [he.2.2]
    exact .step fun w => .ret

theorem ticket_middlewares : ∀ x ∈ ticketCalls, ∀ ss mw, ⟨ss, .middleware mw⟩ ∈ callLog x → KeepsOnce mw := by
  intro x hx ss mw he
  simp only [ticketCalls, List.mem_cons, List.not_mem_nil, or_false] at hx
  rcases hx with rfl | rfl
  · simp [callLog, logReg] at he
    rw [he.2]
    exact logger_keeps
  · simp [callLog, logReg] at he

/-- Whatever requests arrive, in whatever interleaving, the counter is as after some of them, one after the other. -/
example (es : List (Event demoU)) : ∃ o : Order demoU, o.Of (arrivals es) ∧
    ((startUp ticketApp 7).run shared es).world = afterServing ticketApp 7 (o.map (·.2)) := by
  obtain ⟨o, h1, h2, _⟩ := C103_registrations_partial (a := ticketApp) rfl ticket_handlers ticket_middlewares 7 es
  exact ⟨o, h1, h2⟩

/-- The second request overtakes the first one: it gets the first number. -/
example : let es : List (Event demoU) := [.arrive (demoReq .get "/hit"), .step 0, .step 0, .arrive (demoReq .get "/hit"),
      .step 1, .step 1, .step 1, .step 1, .step 0, .step 0]
    let s := (startUp ticketApp 7).run shared es
    s.world = 9 ∧ (s.tasks.map fun t => match t.todo with | .ret sent => sent.body.bytes | _ => []) = [[56], [55]] := by
  decide +kernel

example : afterServing ticketApp 7 [demoReq .get "/hit", demoReq .get "/nope", demoReq .get "/hit"] = 9 := by decide +kernel

end Obsidian.Props
