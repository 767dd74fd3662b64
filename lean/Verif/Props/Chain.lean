import Verif.Props.Dispatch
import Verif.Spec.Chain

/-
Running chains: C26 (order), C27 (short circuits), C53 (how often the handler runs).
-/
namespace Obsidian.Props
open Obsidian Spec
variable {U : Univ} {σ : Type}

/-- **C26**: if all middlewares forward, the first parts run in the order of the chain, each on the
context the one before left; then the handler, once; then the second parts in reverse order, each on
the result of the one before. -/
theorem C26_forwarding_chain (h : Handler U σ) (ls : List (Wrap U σ)) (c : Context U) :
    execNext h (ls.map Wrap.mw) c = (do
      let c ← ls.foldlM (fun c l => l.before c) c
      let r ← h c
      ls.reverse.foldlM (fun r l => l.after r) r) := by
  induction ls generalizing c with
  | nil => simp [execNext, Act.bind_ret]
  | cons l ls ih =>
    simp only [List.map_cons, execNext]
    simp only [Wrap.mw, List.foldlM_cons, List.reverse_cons, List.foldlM_append, bind_assoc]
    congr 1; funext c'
    rw [ih]
    simp [Act.bind_assoc, Act.bind_ret]

/-- **C26** for requests: what serving a request runs, if the middlewares of its path all forward. -/
theorem C26_requests (a : App U σ) (req : Request U) {h : Handler U σ} {ls : List (Wrap U σ)}
    (hh : handlerFor a.router req.method req.path = some h)
    (hc : chainFor a.router req.path = some (ls.map Wrap.mw)) :
    ∃ c, Starts a req c ∧ a.serve req = (do
      let c ← ls.foldlM (fun c l => l.before c) c
      let r ← h c
      let r ← ls.reverse.foldlM (fun r l => l.after r) r
      .ofPure (finish r)) := by
  obtain ⟨ch, c, h1, h2, h3⟩ := serve_some hh
  rw [hc] at h1
  injection h1 with h1
  refine ⟨c, h2, ?_⟩
  rw [h3, ← h1, C26_forwarding_chain]
  simp [Act.bind_assoc]

/-- A middleware that appends a letter to a record in the world, before and after. -/
def noteWrap (b e : Char) : Wrap demoU Str :=
  ⟨fun c => .step (· ++ [b]) fun _ => .ret c, fun r => .step (· ++ [e]) fun _ => .ret r⟩

example (c : Context demoU) :
    (((execNext (fun c => .step (· ++ ['h']) fun _ => .ret (.ok c))
      ([noteWrap 'a' 'A', noteWrap 'b' 'B', noteWrap 'c' 'C'].map Wrap.mw) c).run []).world) =
    s "abchCBA" := by
  rw [C26_forwarding_chain]; rfl

theorem execNext_descend (h : Handler U σ) (ls : List (Link U σ)) (c : Context U)
    (todo : List (ContextResult U → Act σ (ContextResult U))) :
    ((execNext h (ls.map Link.mw) c).bind fun r => todo.foldlM (fun r after => after r) r) =
    (descend ls c todo).bind fun x =>
      (match x.1 with
       | .inl r => pure r
       | .inr c => h c : Act σ (ContextResult U)).bind fun r =>
        x.2.foldlM (fun r after => after r) r := by
  induction ls generalizing c todo with
  | nil => simp [execNext, descend]
  | cons l ls ih =>
    simp only [List.map_cons, execNext, descend, Link.mw, Act.bind_eq, Act.bind_assoc]
    congr 1; funext d
    cases d with
    | answer r => simp
    | forward c' after =>
      simp only
      rw [← ih]
      simp [Act.bind_assoc]

/-- **C26/C27**: any chain of middlewares that use the rest of the chain at most once runs as follows:
down until somebody answers or the handler is reached, then back through those that have forwarded,
innermost first. -/
theorem C27_chain (h : Handler U σ) (ls : List (Link U σ)) (c : Context U) :
    execNext h (ls.map Link.mw) c = runChain h ls c := by
  have := execNext_descend h ls c []
  simp only [List.foldlM_nil] at this
  rw [show (fun r => pure r : ContextResult U → Act σ (ContextResult U)) = Act.ret from rfl,
    Act.bind_ret] at this
  rw [this, runChain]
  simp only [Act.bind_eq]
  congr 1; funext x
  obtain ⟨x, todo⟩ := x
  cases x <;> rfl

theorem execNext_append (h : Handler U σ) (ls : List (Middleware U σ)) (rest : List (Middleware U σ)) :
    execNext h (ls ++ rest) = execNext (execNext h rest) ls := by
  induction ls with
  | nil => rfl
  | cons l ls ih => funext c; simp only [List.cons_append, execNext, ih]

/-- **C27**: if a middleware answers without using the rest of the chain, then neither the rest of the
chain (whatever it is) nor the handler has any effect, and its answer is what the second parts of the
middlewares before it get. -/
theorem C27_short_circuit (h : Handler U σ) (ls : List (Wrap U σ))
    (answer : Context U → Act σ (ContextResult U)) (rest : List (Middleware U σ)) (c : Context U) :
    execNext h (ls.map Wrap.mw ++ (fun c _ => answer c) :: rest) c = (do
      let c ← ls.foldlM (fun c l => l.before c) c
      let r ← answer c
      ls.reverse.foldlM (fun r l => l.after r) r) := by
  rw [execNext_append, ← C26_forwarding_chain]
  rfl

example (h : Handler demoU Str) (rest : List (Middleware demoU Str)) (c : Context demoU) :
    (((execNext h ([noteWrap 'a' 'A', noteWrap 'b' 'B'].map Wrap.mw ++
      (fun _ _ => .step (· ++ ['!']) fun _ => .ret (.error .noneError)) :: rest) c).run []).world) =
    s "ab!BA" := by
  rw [C27_short_circuit]; rfl

/-- **C27**, dynamically: whether a middleware answers may depend on the context and the world; when it
does, the result does not depend on the handler and on the rest of the chain. -/
theorem C27_rest_irrelevant (h h' : Handler U σ) (ls : List (Link U σ))
    (rest rest' : List (Link U σ)) (c : Context U) (w : σ)
    (ha : ∃ r todo, ((descend ls c []).run w).out = .ok (.inl r, todo)) :
    (execNext h ((ls ++ rest).map Link.mw) c).run w =
      (execNext h' ((ls ++ rest').map Link.mw) c).run w := by
  have key : ∀ (ls : List (Link U σ)) (c : Context U) todo (rest : List (Link U σ)),
      descend (ls ++ rest) c todo = (descend ls c todo).bind fun x =>
        match x.1 with
        | .inl r => .ret (.inl r, x.2)
        | .inr c => descend rest c x.2 := by
    intro ls
    induction ls with
    | nil => intro c todo rest; simp [descend]
    | cons l ls ih =>
      intro c todo rest
      simp only [List.cons_append, descend, Act.bind_eq, Act.bind_assoc]
      congr 1; funext d
      cases d with
      | answer r => simp
      | forward c' after => simp only [ih]
  obtain ⟨r, todo, hd⟩ := ha
  rw [C27_chain, C27_chain, runChain, runChain]
  simp only [key, Act.bind_eq, Act.bind_assoc]
  rw [Act.run_bind_ok hd, Act.run_bind_ok hd]
  simp

/-! ### Counting the runs of the handler -/

theorem withCounter_bind {α β : Type} (x : Act σ α) (f : α → Act σ β) :
    withCounter (x.bind f) = (withCounter x).bind fun a => withCounter (f a) := by
  induction x with
  | ret a => rfl
  | panic c => rfl
  | step g k ih => simp [withCounter, ih]
  | print l k ih => simp [withCounter, ih]

theorem withCounter_run {α : Type} (x : Act σ α) (w : σ) (n : Nat) :
    (withCounter x).run (w, n) = ⟨(x.run w).out, ((x.run w).world, n), (x.run w).printed⟩ := by
  induction x generalizing w with
  | ret a => rfl
  | panic c => rfl
  | step g k ih => simp only [withCounter, Act.run_step, ih]
  | print l k ih => simp only [withCounter, Act.run_print, ih]

theorem mw_uncounted (l : Link U σ) (c : Context U) (next : Context U → Act (σ × Nat) (ContextResult U)) :
    l.uncounted.mw c next = (withCounter (l.decide c)).bind fun
      | .answer r => .ret r
      | .forward c' after => (next c').bind fun r => withCounter (after r) := by
  simp only [Link.mw, Link.uncounted, Act.bind_eq, Act.bind_assoc]
  congr 1; funext d
  cases d <;> rfl

theorem mw_link (l : Link U σ) (c : Context U) (next : Context U → Act σ (ContextResult U)) :
    l.mw c next = (l.decide c).bind fun
      | .answer r => .ret r
      | .forward c' after => (next c').bind fun r => after r := by
  rfl

/-- **C27**: if every middleware uses the rest of the chain at most once, the handler is started at most
once per request. (The counter does not influence anything: result, world and output are the same as
without it.) -/
theorem C27_handler_at_most_once (h : Handler U σ) (ls : List (Link U σ)) (c : Context U) (w : σ)
    (n : Nat) :
    let d := (execNext (counted h) (ls.map (fun l => l.uncounted.mw)) c).run (w, n)
    let d' := (execNext h (ls.map Link.mw) c).run w
    d.out = d'.out ∧ d.world.1 = d'.world ∧ d.printed = d'.printed ∧
      (d.world.2 = n ∨ d.world.2 = n + 1) := by
  induction ls generalizing c w n with
  | nil =>
    simp only [List.map_nil, execNext, counted, Act.run_step, withCounter_run]
    simp
  | cons l ls ih =>
    simp only [List.map_cons, execNext, mw_uncounted]
    simp only [mw_link]
    rw [Act.run_bind, withCounter_run, Act.run_bind]
    simp only
    cases hd : ((l.decide c).run w).out with
    | error e => simp
    | ok d =>
      cases d with
      | answer r => simp
      | forward c' after =>
        have := ih c' ((l.decide c).run w).world n
        simp only at this ⊢
        generalize execNext (counted h) (ls.map (fun l => l.uncounted.mw)) c' = x at this ⊢
        generalize execNext h (ls.map Link.mw) c' = y at this ⊢
        obtain ⟨h1, h2, h3, h4⟩ := this
        rw [Act.run_bind, Act.run_bind]
        rw [← h1]
        cases ho : (x.run (((l.decide c).run w).world, n)).out with
        | error e => exact ⟨rfl, h2, by simp [h3], h4⟩
        | ok r =>
          have : ((withCounter (after r)).run (x.run (((l.decide c).run w).world, n)).world) =
              ⟨((after r).run (y.run ((l.decide c).run w).world).world).out,
               (((after r).run (y.run ((l.decide c).run w).world).world).world,
                 (x.run (((l.decide c).run w).world, n)).world.2),
               ((after r).run (y.run ((l.decide c).run w).world).world).printed⟩ := by
            rw [← h2]; exact withCounter_run _ _ _
          simp only [this]
          exact ⟨trivial, trivial, by simp [h3], h4⟩

/-- A middleware that tries again on failure of the first attempt, or just runs the rest twice. Rust's
types do not prevent it: the fields of `EndpointExecutor` and its constructor are public (app.rs:289-303),
the references in them can be copied, and the context comes back from the first run. -/
def twice : Middleware U σ := fun c next => do
  match ← next c with
  | .ok c' => next c'
  | .error e => pure (.error e)

/-- **C53 fails**: a middleware can make the handler of a request run twice. -/
theorem C53_false : ∃ (h : Handler demoU W) (m : Middleware demoU (W × Nat)) (c : Context demoU),
    ((execNext (counted h) [m] c).run (0, 0)).world.2 = 2 :=
  ⟨fun c => .ret (.ok c), twice, ⟨⟨.get, [], none, [], Extensions.empty, Body.empty⟩, fun _ => none, none⟩, rfl⟩

/-- **C53, what holds**: if every middleware uses the rest of the chain at most once, the handler is
started at most once. Missing: middlewares that build an executor of their own, where it is false. -/
theorem C53_handler_at_most_once_partial (h : Handler U σ) (ls : List (Link U σ)) (c : Context U)
    (w : σ) (n : Nat) :
    ((execNext (counted h) (ls.map (fun l => l.uncounted.mw)) c).run (w, n)).world.2 ≤ n + 1 := by
  rcases (C27_handler_at_most_once h ls c w n).2.2.2 with h | h
  · rw [h]; exact Nat.le_succ n
  · rw [h]; exact Nat.le_refl _

end Obsidian.Props
