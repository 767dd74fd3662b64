import Verif.Spec.Apart
import Verif.Props.OneByOne

/-
C107: requests that use different parts of the world.
-/
namespace Obsidian.Props
open Obsidian Spec
variable {U : Univ} {α β : Type} {κ : Type} {V : κ → Type}

/-- What a computation does depends only on the cells that it uses, and it changes no others. -/
theorem uses_run {R T : κ → Prop} {x : Act (Cells V) α} (h : Uses R T x) :
    (∀ w y, ¬ T y → (x.run w).world y = w y) ∧
    ∀ w w', SameIn (fun y => R y ∨ T y) w w' → (x.run w).out = (x.run w').out ∧
      SameIn (fun y => R y ∨ T y) (x.run w).world (x.run w').world := by
  induction h with
  | ret => exact ⟨fun _ _ _ => rfl, fun _ _ h => ⟨rfl, h⟩⟩
  | panic => exact ⟨fun _ _ _ => rfl, fun _ _ h => ⟨rfl, h⟩⟩
  | @step f k h1 h2 _ ih =>
    refine ⟨fun w y hy => ((ih w).1 _ y hy).trans (h1 w y hy), fun w w' hs => ?_⟩
    obtain ⟨h3, h4⟩ := h2 w w' fun y hy => hs y (.inl hy)
    have h5 : SameIn (fun y => R y ∨ T y) (f w) (f w') := by
      intro y hy
      by_cases ht : T y
      · exact h3 y ht
      · rw [h1 w y ht, h1 w' y ht]; exact hs y hy
    have h6 := (ih w).2 (f w) (f w') h5
    simp only [Act.run]
    rw [← h4]
    exact h6
  | print _ ih => exact ih

/-- How far the server is: each request ends as if it were alone. -/
structure Alone (a : App U (Cells V)) (w0 : Cells V) (R T : Nat → κ → Prop) (s : Server U (Cells V) (Cells V)) : Prop where
  app : s.app = a
  uses : ∀ i t, s.tasks[i]? = some t → Uses (R i) (T i) t.todo
  ends : ∀ i t, s.tasks[i]? = some t → (t.todo.run s.world).out = ((a.serve t.req).run w0).out ∧
    SameIn (fun y => R i y ∨ T i y) (t.todo.run s.world).world ((a.serve t.req).run w0).world
  rest : ∀ x, (∀ i, i < s.tasks.length → ¬ T i x) → s.world x = w0 x

/-- One step of a computation. -/
theorem uses_stepOnce {R T : κ → Prop} {x : Act (Cells V) α} (h : Uses R T x) (w : Cells V) :
    Uses R T (x.stepOnce w).1 ∧ (∀ y, ¬ T y → (x.stepOnce w).2.1 y = w y) ∧
    ((x.stepOnce w).1.run (x.stepOnce w).2.1).out = (x.run w).out ∧
    ((x.stepOnce w).1.run (x.stepOnce w).2.1).world = (x.run w).world := by
  cases h with
  | ret => exact ⟨.ret, fun _ _ => rfl, rfl, rfl⟩
  | panic => exact ⟨.panic, fun _ _ => rfl, rfl, rfl⟩
  | step h1 _ h3 => exact ⟨h3 w, h1 w, rfl, rfl⟩
  | print h => exact ⟨h, fun _ _ => rfl, rfl, rfl⟩

theorem alone_step {a : App U (Cells V)} {w0 : Cells V} {R T : Nat → κ → Prop} (hap : Separate R T)
    {s : Server U (Cells V) (Cells V)} (ok : Alone a w0 R T s) (i : Nat) : Alone a w0 R T (s.step shared (.step i)) := by
  simp only [Server.step]
  cases ht : s.tasks[i]? with
  | none => exact ok
  | some t =>
    have hi : i < s.tasks.length := (List.getElem?_eq_some_iff.1 ht).1
    obtain ⟨h1, h2, h3, h4⟩ := uses_stepOnce (ok.uses i t ht) s.world
    have hget : ∀ j t', (s.tasks.set i { t with todo := (t.todo.stepOnce s.world).1 })[j]? = some t' →
        (j = i ∧ t' = { t with todo := (t.todo.stepOnce s.world).1 }) ∨ (j ≠ i ∧ s.tasks[j]? = some t') := by
      intro j t' hj
      rw [List.getElem?_set] at hj
      split at hj
      · next hij =>
        injection hj with hj
        exact .inl ⟨hij.symm, hj.symm⟩
      · next hij => exact .inr ⟨fun e => hij e.symm, hj⟩
    refine ⟨ok.app, fun j t' hj => ?_, fun j t' hj => ?_, fun x hx => ?_⟩
    · rcases hget j t' hj with ⟨rfl, rfl⟩ | ⟨_, hj⟩
      · exact h1
      · exact ok.uses j t' hj
    · rcases hget j t' hj with ⟨rfl, rfl⟩ | ⟨hne, hj⟩
      · dsimp only
        rw [h3, h4]
        exact ok.ends j t ht
      · dsimp only
        have hs : SameIn (fun y => R j y ∨ T j y) (t.todo.stepOnce s.world).2.1 s.world := by
          intro y hy
          refine h2 y fun hti => ?_
          obtain ⟨n1, n2⟩ := hap i j (fun e => hne e.symm) y hti
          exact hy.elim n1 n2
        obtain ⟨e1, e2⟩ := (uses_run (ok.uses j t' hj)).2 _ _ hs
        obtain ⟨e3, e4⟩ := ok.ends j t' hj
        exact ⟨e1.trans e3, fun y hy => (e2 y hy).trans (e4 y hy)⟩
    · simp only [List.length_set] at hx
      dsimp only
      rw [h2 x (hx i hi)]
      exact ok.rest x hx

theorem alone_arrive {a : App U (Cells V)} {w0 : Cells V} {R T : Nat → κ → Prop} (hap : Separate R T)
    {s : Server U (Cells V) (Cells V)} (ok : Alone a w0 R T s) {req : Request U}
    (hu : Uses (R s.tasks.length) (T s.tasks.length) (a.serve req)) :
    Alone a w0 R T (s.step shared (.arrive req)) := by
  simp only [Server.step, shared, ok.app]
  have hget : ∀ j t, (s.tasks ++ [⟨req, a.serve req⟩])[j]? = some t →
      s.tasks[j]? = some t ∨ (j = s.tasks.length ∧ t = ⟨req, a.serve req⟩) := by
    intro j t hj
    rw [List.getElem?_append] at hj
    split at hj
    · exact .inl hj
    · next h =>
      obtain ⟨h1, h2⟩ := List.getElem?_eq_some_iff.1 hj
      simp only [List.length_cons, List.length_nil] at h1
      have h3 : j - s.tasks.length = 0 := by omega
      simp only [h3, List.getElem_cons_zero] at h2
      exact .inr ⟨by omega, h2.symm⟩
  refine ⟨rfl, fun j t hj => ?_, fun j t hj => ?_, fun x hx => ok.rest x fun i hi => hx i ?_⟩
  · rcases hget j t hj with hj | ⟨rfl, rfl⟩
    · exact ok.uses j t hj
    · exact hu
  · rcases hget j t hj with hj | ⟨rfl, rfl⟩
    · exact ok.ends j t hj
    · dsimp only
      refine (uses_run hu).2 _ _ fun y hy => ok.rest y fun i hi hti => ?_
      obtain ⟨n1, n2⟩ := hap i s.tasks.length (Nat.ne_of_lt hi) y hti
      exact hy.elim n1 n2
  · simp only [List.length_append, List.length_cons, List.length_nil]; omega

theorem alone_run {a : App U (Cells V)} {w0 : Cells V} {R T : Nat → κ → Prop} (hap : Separate R T) (es : List (Event U))
    {s : Server U (Cells V) (Cells V)} (ok : Alone a w0 R T s)
    (hu : ∀ i req, (arrivals es)[i]? = some req → Uses (R (s.tasks.length + i)) (T (s.tasks.length + i)) (a.serve req)) :
    Alone a w0 R T (s.run shared es) := by
  induction es generalizing s with
  | nil => exact ok
  | cons e es ih =>
    simp only [Server.run, List.foldl_cons]
    cases e with
    | arrive req =>
      refine ih (alone_arrive hap ok (hu 0 req rfl)) fun i req' hi => ?_
      have := hu (i + 1) req' hi
      simp only [Server.step, List.length_append, List.length_cons, List.length_nil]
      rw [show s.tasks.length + (0 + 1) + i = s.tasks.length + (i + 1) by omega]
      exact this
    | step i =>
      refine ih (alone_step hap ok i) fun j req' hj => ?_
      have hl : (s.step shared (.step i)).tasks.length = s.tasks.length := by
        simp only [Server.step]
        cases s.tasks[i]? with
        | none => rfl
        | some t => simp
      rw [hl]
      exact hu j req' hj

/-- **C107**: if no request changes a part of the world that another one reads or changes, then whatever requests arrive
and however their steps are interleaved: every request that is finished has the answer that it gets when it is the only
one; it has left its parts of the world as it does then; and what none of the requests changes is as it was. -/
theorem C107_apart {a : App U (Cells V)} (w0 : Cells V) (es : List (Event U)) {reads writes : Nat → κ → Prop}
    (hap : Separate reads writes)
    (hu : ∀ i req, (arrivals es)[i]? = some req → Uses (reads i) (writes i) (a.serve req)) :
    let s := (startUp a w0).run shared es
    (∀ i t out, s.tasks[i]? = some t → Outcome t.todo out → (arrivals es)[i]? = some t.req ∧
      out = ((a.serve t.req).run w0).out ∧ ∀ x, writes i x → s.world x = ((a.serve t.req).run w0).world x) ∧
    ∀ x, (∀ i, i < (arrivals es).length → ¬ writes i x) → s.world x = w0 x := by
  intro s
  have ok : Alone a w0 reads writes s := alone_run hap es
    ⟨rfl, fun i t ht => by simp [startUp] at ht, fun i t ht => by simp [startUp] at ht, fun _ _ => rfl⟩
    (by simpa [startUp] using hu)
  refine ⟨fun i t out ht ho => ⟨task_req ht, ?_⟩, fun x hx => ok.rest x ?_⟩
  · obtain ⟨h1, h2⟩ := ok.ends i t ht
    rcases ho with ⟨sent, h3, rfl⟩ | ⟨k, h3, rfl⟩
    · rw [h3] at h1 h2
      exact ⟨h1, fun x hx => h2 x (.inr hx)⟩
    · rw [h3] at h1 h2
      exact ⟨h1, fun x hx => h2 x (.inr hx)⟩
  · rw [tasks_length]; exact hx

/-- The same for serving one after the other. -/
theorem apart_serial {a : App U (Cells V)} {w0 : Cells V} {reads writes : Nat → κ → Prop} (hap : Separate reads writes) :
    ∀ (o : Order U) (w : Cells V), (o.map (·.1)).Nodup →
    (∀ e ∈ o, Uses (reads e.1) (writes e.1) (a.serve e.2)) →
    (∀ e ∈ o, SameIn (fun y => reads e.1 y ∨ writes e.1 y) w w0) →
    (∀ e ∈ o, ∀ x, writes e.1 x → afterServing a w (o.map (·.2)) x = ((a.serve e.2).run w0).world x) ∧
    (∀ x, (∀ e ∈ o, ¬ writes e.1 x) → afterServing a w (o.map (·.2)) x = w x) ∧
    ∀ pre e post, o = pre ++ e :: post → answerAfter a w (pre.map (·.2)) e.2 = ((a.serve e.2).run w0).out
  | [], w, _, _, _ => ⟨by simp, fun _ _ => rfl, by intro pre e post h; simp at h⟩
  | d :: o, w, hnd, hu, hs => by
    rw [List.map_cons, List.nodup_cons] at hnd
    have hd := uses_run (hu d (by simp))
    have hne : ∀ e ∈ o, d.1 ≠ e.1 := fun e he h => hnd.1 (h ▸ List.mem_map_of_mem (f := (·.1)) he)
    have hs' : ∀ e ∈ o, SameIn (fun y => reads e.1 y ∨ writes e.1 y) ((a.serve d.2).run w).world w0 := by
      intro e he y hy
      rw [hd.1 w y fun hw => ?_]
      · exact hs e (by simp [he]) y hy
      · obtain ⟨n1, n2⟩ := hap d.1 e.1 (hne e he) y hw
        exact hy.elim n1 n2
    obtain ⟨h1, h2, h3⟩ := apart_serial hap o ((a.serve d.2).run w).world hnd.2 (fun e he => hu e (by simp [he])) hs'
    have hd0 := hd.2 w w0 (hs d (by simp))
    refine ⟨fun e he x hx => ?_, fun x hx => ?_, fun pre e post hp => ?_⟩
    · rcases List.mem_cons.1 he with rfl | he
      · rw [List.map_cons, afterServing, h2 x fun e' he' => (hap e.1 e'.1 (hne e' he') x hx).2]
        exact hd0.2 x (.inr hx)
      · rw [List.map_cons, afterServing, h1 e he x hx]
    · rw [List.map_cons, afterServing, h2 x fun e he => hx e (by simp [he]), hd.1 w x (hx d (by simp))]
    · cases pre with
      | nil =>
        rw [List.nil_append] at hp
        injection hp with hp _
        subst hp
        exact hd0.1
      | cons p pre =>
        rw [List.cons_append] at hp
        injection hp with hp hp'
        subst hp
        exact h3 pre e post hp'

/-- **C107**: such requests can just as well be served one after the other, in whatever order: when all are finished, the
world is the one that this leaves, and the answers are the ones that they get there. -/
theorem C107_any_order {a : App U (Cells V)} (w0 : Cells V) (es : List (Event U)) {reads writes : Nat → κ → Prop}
    (hap : Separate reads writes)
    (hu : ∀ i req, (arrivals es)[i]? = some req → Uses (reads i) (writes i) (a.serve req))
    (hf : ∀ t ∈ ((startUp a w0).run shared es).tasks, ∃ out, Outcome t.todo out)
    {o : Order U} (ho : o.All (arrivals es)) :
    ((startUp a w0).run shared es).world = afterServing a w0 (o.map (·.2)) ∧
    ∀ pre i req post, o = pre ++ (i, req) :: post → ∃ t, ((startUp a w0).run shared es).tasks[i]? = some t ∧
      Outcome t.todo (answerAfter a w0 (pre.map (·.2)) req) := by
  obtain ⟨h1, h2⟩ := C107_apart w0 es hap hu
  obtain ⟨k1, k2, k3⟩ := apart_serial (a := a) (w0 := w0) hap o w0 ho.1.1 (fun e he => hu _ _ (ho.1.2 e he))
    (fun _ _ _ _ => rfl)
  have task : ∀ i, i < (arrivals es).length → ∃ t out, ((startUp a w0).run shared es).tasks[i]? = some t ∧
      Outcome t.todo out := by
    intro i hi
    rw [← tasks_length a w0] at hi
    obtain ⟨out, hout⟩ := hf _ (List.getElem_mem hi)
    exact ⟨_, out, List.getElem?_eq_getElem hi, hout⟩
  constructor
  · funext x
    by_cases hx : ∃ i, i < (arrivals es).length ∧ writes i x
    · obtain ⟨i, hi, hw⟩ := hx
      obtain ⟨e, he, rfl⟩ := ho.2 i hi
      obtain ⟨t, out, ht, hout⟩ := task _ hi
      obtain ⟨e1, _, e3⟩ := h1 _ t out ht hout
      rw [e3 x hw, k1 e he x hw]
      have := (ho.1.2 e he).symm.trans e1
      injection this with this
      rw [this]
    · have hno : ∀ i, i < (arrivals es).length → ¬ writes i x := fun i hi hw => hx ⟨i, hi, hw⟩
      rw [h2 x hno, k2 x]
      intro e he
      exact hno e.1 (List.getElem?_eq_some_iff.1 (ho.1.2 e he)).1
  · intro pre i req post hp
    have hin : (i, req) ∈ o := by rw [hp]; simp
    have hreq := ho.1.2 _ hin
    obtain ⟨t, out, ht, hout⟩ := task i (List.getElem?_eq_some_iff.1 hreq).1
    obtain ⟨e1, e2, _⟩ := h1 _ t out ht hout
    have := hreq.symm.trans e1
    injection this with this
    refine ⟨t, ht, ?_⟩
    rw [k3 pre (i, req) post hp]
    dsimp only at this ⊢
    rw [this, ← e2]
    exact hout

/-! ### Which cells serving uses -/

theorem uses_bind {R T : κ → Prop} {x : Act (Cells V) α} {g : α → Act (Cells V) β} (h : Uses R T x)
    (hg : ∀ a, Uses R T (g a)) : Uses R T (x.bind g) := by
  induction h with
  | ret => exact hg _
  | panic => exact .panic
  | step h1 h2 _ ih => exact .step h1 (fun w w' hs => ⟨(h2 w w' hs).1, by rw [(h2 w w' hs).2]⟩) ih
  | print _ ih => exact .print ih

theorem uses_ofPure {R T : κ → Prop} (x : Except Crash α) : Uses R T (Act.ofPure x : Act (Cells V) α) := by
  cases x <;> constructor

theorem uses_chain {R T : κ → Prop} {D : Context U → Prop} {h : Handler U (Cells V)} (hh : ∀ c, D c → Uses R T (h c)) :
    ∀ (ms : List (Middleware U (Cells V))), (∀ m ∈ ms, KeepsTo R T D m) → ∀ c, D c → Uses R T (execNext h ms c)
  | [], _, c, hc => hh c hc
  | m :: ms, hm, c, hc =>
    hm m (List.mem_cons_self ..) _ c hc (uses_chain hh ms fun x hx => hm x (List.mem_cons_of_mem _ hx))

/-- **C107**: which parts of the world serving a request uses follows from what its handler and its middlewares use for
contexts of the kind `D` that the request begins with (for example those with its user). -/
theorem C107_serving_uses {a : App U (Cells V)} {req : Request U} {R T : κ → Prop} {D : Context U → Prop}
    (hD : ∀ c, Starts a req c → D c)
    (hh : ∀ h, handlerFor a.router req.method req.path = some h → ∀ c, D c → Uses R T (h c))
    (hm : ∀ ch, chainFor a.router req.path = some ch → ∀ m ∈ ch, KeepsTo R T D m) : Uses R T (a.serve req) := by
  cases hf : handlerFor a.router req.method req.path with
  | none => rw [serve_none hf]; exact .ret
  | some h =>
    obtain ⟨chain, c, h1, h2, h3⟩ := serve_some hf
    rw [h3]
    exact uses_bind (uses_chain (hh h hf) chain (hm chain h1) c (hD c h2)) fun r => uses_ofPure _

/-- **C107**, for registrations that are made by any calls, with paths of any form, nested to any depth, also when some of
them panic and this is caught: it is enough to know which parts the registered handlers and middlewares use. -/
theorem C107_registrations {a : App U (Cells V)} {cs : List (Reg (Middleware U (Cells V)) (Handler U (Cells V)))}
    (ha : a.router = runCaught cs Router.new) {req : Request U} {R T : κ → Prop} {D : Context U → Prop}
    (hD : ∀ c, Starts a req c → D c)
    (hh : ∀ x ∈ cs, ∀ ss m h, ⟨ss, .route m h⟩ ∈ callLog x → ∀ c, D c → Uses R T (h c))
    (hm : ∀ x ∈ cs, ∀ ss mw, ⟨ss, .middleware mw⟩ ∈ callLog x → KeepsTo R T D mw) : Uses R T (a.serve req) := by
  obtain ⟨k1, k2⟩ := C65_reading_partial cs req.path
  refine C107_serving_uses hD (fun h hf => ?_) fun ch hc m hmc => ?_
  · rw [ha] at hf
    obtain ⟨x, hx, ss, _, hin, _⟩ := k1 _ _ hf
    exact hh x hx ss _ h hin
  · rw [ha] at hc
    obtain ⟨x, hx, ss, _, hin, _⟩ := k2 _ hc m hmc
    exact hm x hx ss m hin

/-- The logger of the library uses no cells of its own. -/
theorem logger_keepsTo (R T : κ → Prop) {D : Context U → Prop} :
    KeepsTo R T D (logger : Middleware U (Cells V)) := by
  intro next c hc h
  refine .print (.print (uses_bind (h _ hc) fun r => ?_))
  cases r with
  | error e => exact .print .ret
  | ok after =>
    dsimp only
    cases after.response with
    | none => exact .panic
    | some r => exact .print .ret

/-! ### Examples -/

/-- A counter for every user. -/
abbrev Visits : Type := Cells fun _ : Str => Nat

/-- A handler that reads the counter of the user in the path and sets it in another step. -/
def visitHandler : Handler demoU Visits := fun c =>
  match c.param some (s "id") with
  | .error e => .ret (.error e)
  | .ok u => .step id fun w => .step (fun w' x => if x = u then w u + 1 else w' x) fun _ =>
      .ret (c.build (.str (Nat.repr (w u)).toList)).ok

/-- The registrations. -/
def visitProg : List (Reg (Middleware demoU Visits) (Handler demoU Visits)) :=
  [.useService logger, .get (s "/users/:id") visitHandler]

/-- The application of these registrations. -/
def visitApp : App demoU Visits := ⟨runCaught visitProg Router.new, none⟩

/-- The handler uses only the counter of its user. -/
theorem visit_uses (S : Str → Prop) (c : Context demoU) (hc : ∀ u, c.paramsData (s "id") = some u → S u) :
    Uses S S (visitHandler c) := by
  simp only [visitHandler, Context.param]
  cases hu : c.paramsData (s "id") with
  | none => exact .ret
  | some u =>
    refine .step (fun _ _ _ => rfl) (fun w w' hs => ⟨hs, by rw [hs u (hc u hu)]⟩) fun w =>
      .step (fun w' x hx => if_neg fun (e : x = u) => hx (e ▸ hc u hu)) (fun w1 w2 hs => ⟨fun x hx => ?_, rfl⟩) fun _ => .ret
    dsimp only
    split
    · rfl
    · exact hs x hx

/-- The counter of request number `i`. -/
def counterOf (es : List (Event demoU)) (i : Nat) (u : Str) : Prop :=
  ∃ req, (arrivals es)[i]? = some req ∧ paramFor visitApp.router req.path (s "id") = some u

theorem visit_serve (es : List (Event demoU)) (i : Nat) (req : Request demoU) (h : (arrivals es)[i]? = some req) :
    Uses (counterOf es i) (counterOf es i) (visitApp.serve req) := by
  refine C107_registrations (D := fun c => ∀ u, c.paramsData (s "id") = some u → counterOf es i u) rfl
    (fun c hc u hu => ⟨req, h, (hc.params _).symm.trans hu⟩) (fun x hx ss m k he => ?_) (fun x hx ss mw he => ?_)
  all_goals
    simp only [visitProg, List.mem_cons, List.not_mem_nil, or_false] at hx
    rcases hx with rfl | rfl
  · simp [callLog, logReg] at he
  · simp [callLog, logReg] at he
    rw [he.2.2]
    exact visit_uses _
  · simp [callLog, logReg] at he
    rw [he.2]
    exact logger_keepsTo _ _
  · simp [callLog, logReg] at he

/-- Whatever requests for different users arrive, and however their steps are interleaved, every one of them that is finished
has been answered as if it were alone. -/
theorem visits_alone (w0 : Visits) (es : List (Event demoU))
    (hd : ∀ i j u, i ≠ j → counterOf es i u → ¬ counterOf es j u) (i : Nat) (t : Task demoU Visits)
    (out : Except Crash Sent) (ht : ((startUp visitApp w0).run shared es).tasks[i]? = some t) (ho : Outcome t.todo out) :
    out = ((visitApp.serve t.req).run w0).out :=
  ((C107_apart w0 es (fun i j h u hu => ⟨hd i j u h hu, hd i j u h hu⟩) (visit_serve es)).1 i t out ht ho).2.1

/-- Two users at the same time. -/
def twoUsers : List (Event demoU) :=
  [.arrive (demoReq .get "/users/ann"), .arrive (demoReq .get "/users/bob")] ++
    (List.replicate 6 [.step 0, .step 1]).flatten

/-- Both counters go up by one, and the others stay: compare `C103_false`, where both use the same counter. -/
example : let s' := (startUp visitApp (fun _ => 7)).run shared twoUsers
    s'.world (s "ann") = 8 ∧ s'.world (s "bob") = 8 ∧ s'.world (s "eve") = 7 ∧
    (s'.tasks.map fun t => match t.todo with | .ret sent => sent.body.bytes | _ => []) = [[55], [55]] := by decide +kernel

/-- For one and the same user, one of the two is lost. -/
example : ((startUp visitApp (fun _ => 7)).run shared ([.arrive (demoReq .get "/users/ann"), .arrive (demoReq .get "/users/ann")] ++
    (List.replicate 6 [.step 0, .step 1]).flatten)).world (s "ann") = 8 := by decide +kernel

example : counterOf twoUsers 0 (s "ann") ∧ counterOf twoUsers 1 (s "bob") :=
  ⟨⟨_, rfl, by decide +kernel⟩, _, rfl, by decide +kernel⟩

/-- They use different counters. -/
theorem twoUsers_apart : ∀ i j u, i ≠ j → counterOf twoUsers i u → ¬ counterOf twoUsers j u := by
  have h0 : paramFor visitApp.router (demoReq .get "/users/ann").path (s "id") = some (s "ann") := by decide +kernel
  have h1 : paramFor visitApp.router (demoReq .get "/users/bob").path (s "id") = some (s "bob") := by decide +kernel
  have ha : arrivals twoUsers = [demoReq .get "/users/ann", demoReq .get "/users/bob"] := rfl
  have key : ∀ i u, counterOf twoUsers i u → (i = 0 ∧ u = s "ann") ∨ (i = 1 ∧ u = s "bob") := by
    rintro i u ⟨r, hr, hu⟩
    rw [ha] at hr
    rcases i with _ | _ | i
    · rw [List.getElem?_cons_zero] at hr
      injection hr with hr
      rw [← hr, h0] at hu
      injection hu with hu
      exact .inl ⟨rfl, hu.symm⟩
    · rw [List.getElem?_cons_succ, List.getElem?_cons_zero] at hr
      injection hr with hr
      rw [← hr, h1] at hu
      injection hu with hu
      exact .inr ⟨rfl, hu.symm⟩
    · simp at hr
  intro i j u hij hi hj
  have hne : s "ann" ≠ s "bob" := by decide
  rcases key i u hi with ⟨h, e⟩ | ⟨h, e⟩ <;> rcases key j u hj with ⟨h', e'⟩ | ⟨h', e'⟩
  · exact hij (h.trans h'.symm)
  · exact hne (e.symm.trans e')
  · exact hne (e'.symm.trans e)
  · exact hij (h.trans h'.symm)

/-- One after the other, in both orders, it is the same. -/
example : let s' := (startUp visitApp (fun _ => 7)).run shared twoUsers
    s'.world = afterServing visitApp (fun _ => 7) [demoReq .get "/users/bob", demoReq .get "/users/ann"] := by
  intro s'
  refine (C107_any_order (o := [(1, demoReq .get "/users/bob"), (0, demoReq .get "/users/ann")]) _ twoUsers
    (fun i j h u hu => ⟨twoUsers_apart i j u h hu, twoUsers_apart i j u h hu⟩) (visit_serve _) ?_ ⟨⟨by decide, ?_⟩, ?_⟩).1
  · have h : (((startUp visitApp (fun _ => 7)).run shared twoUsers).tasks.map fun t =>
        match t.todo with | .ret sent => some sent.status | _ => none) = [some 200, some 200] := by decide +kernel
    intro t ht
    have := List.mem_map_of_mem (f := fun t : Task demoU Visits => match t.todo with | .ret sent => some sent.status | _ => none) ht
    rw [h] at this
    cases hd : t.todo with
    | ret sent => exact ⟨_, .inl ⟨sent, rfl, rfl⟩⟩
    | _ => rw [hd] at this; simp at this
  · intro e he
    simp only [List.mem_cons, List.not_mem_nil, or_false] at he
    rcases he with rfl | rfl <;> rfl
  · intro i hi
    have hi : i < 2 := hi
    match i with
    | 0 => exact ⟨(0, demoReq .get "/users/ann"), by simp, rfl⟩
    | 1 => exact ⟨(1, demoReq .get "/users/bob"), by simp, rfl⟩

end Obsidian.Props
