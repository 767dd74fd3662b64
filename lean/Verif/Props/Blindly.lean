import Verif.Spec.Blindly
import Verif.Props.OneByOne

/-
C103 for requests with several steps: changes of the world that commute.
-/
namespace Obsidian.Props
open Obsidian Spec
variable {U : Univ} {σ α β : Type} {S : (σ → σ) → Prop}

theorem blindly_out {x : Act σ α} (h : Blindly S x) (w w' : σ) : (x.run w).out = (x.run w').out := by
  induction h generalizing w w' with
  | ret => rfl
  | panic => rfl
  | step _ _ ih => exact ih _ _
  | print _ ih => exact ih _ _

theorem blindly_past (hS : Commuting S) {x : Act σ α} (h : Blindly S x) {f : σ → σ} (hf : S f) (w : σ) :
    (x.run (f w)).world = f (x.run w).world := by
  induction h generalizing w with
  | ret => rfl
  | panic => rfl
  | @step g k hg _ ih => exact (congrArg (fun v => (Act.run k v).world) (hS g f hg hf w)).trans (ih (g w))
  | print _ ih => exact ih w

theorem blindly_swap (hS : Commuting S) {x : Act σ α} {y : Act σ β} (hx : Blindly S x) (hy : Blindly S y) (w : σ) :
    (y.run (x.run w).world).world = (x.run (y.run w).world).world := by
  induction hx generalizing w with
  | ret => rfl
  | panic => rfl
  | @step g k hg _ ih =>
    have h1 := ih (g w)
    rw [blindly_past hS hy hg] at h1
    exact h1
  | print _ ih => exact ih w

theorem blindly_bind {x : Act σ α} {g : α → Act σ β} (h : Blindly S x) (hg : ∀ a, Blindly S (g a)) : Blindly S (x.bind g) := by
  induction h with
  | ret => exact hg _
  | panic => exact .panic
  | step hf _ ih => exact .step hf ih
  | print _ ih => exact .print ih

theorem blindly_ofPure (x : Except Crash α) : Blindly S (Act.ofPure x : Act σ α) := by
  cases x <;> constructor

theorem blindly_chain {h : Handler U σ} (hh : ∀ c, Blindly S (h c)) : ∀ (ms : List (Middleware U σ)), (∀ m ∈ ms, KeepsBlindly S m) →
    ∀ c, Blindly S (execNext h ms c)
  | [], _, c => hh c
  | m :: ms, hm, c => hm m (List.mem_cons_self ..) _ c (blindly_chain hh ms fun x hx => hm x (List.mem_cons_of_mem _ hx))

/-- Serving changes the world only in ways of `S`. -/
theorem blindly_serve {a : App U σ} {cs : List (Reg (Middleware U σ) (Handler U σ))} (ha : a.router = runCaught cs Router.new)
    (hh : ∀ x ∈ cs, ∀ ss m h, ⟨ss, .route m h⟩ ∈ callLog x → ∀ c, Blindly S (h c))
    (hm : ∀ x ∈ cs, ∀ ss mw, ⟨ss, .middleware mw⟩ ∈ callLog x → KeepsBlindly S mw) (req : Request U) : Blindly S (a.serve req) := by
  cases hf : handlerFor a.router req.method req.path with
  | none => rw [serve_none hf]; exact .ret
  | some h =>
    obtain ⟨chain, c, h1, _, h3⟩ := serve_some hf
    rw [ha] at h1 hf
    obtain ⟨k1, k2⟩ := C65_reading_partial cs req.path
    obtain ⟨x, hx, ss, _, hin, _⟩ := k1 _ _ hf
    rw [h3]
    refine blindly_bind (blindly_chain (hh x hx ss _ h hin) chain (fun m hmc => ?_) c) fun r => blindly_ofPure _
    obtain ⟨x, hx, ss, _, hin, _⟩ := k2 _ h1 m hmc
    exact hm x hx ss m hin

/-! ### The server -/

/-- The world after all that is still to be done, one task after the other. -/
def restDone (w : σ) : List (Task U σ) → σ
  | [] => w
  | t :: ts => restDone (t.todo.run w).world ts

theorem restDone_append (w : σ) (xs ys : List (Task U σ)) : restDone w (xs ++ ys) = restDone (restDone w xs) ys := by
  induction xs generalizing w with
  | nil => rfl
  | cons x xs ih => exact ih _

/-- The invariant: finishing what has been begun leads to the world after serving the requests one by one. -/
structure BlindOK (S : (σ → σ) → Prop) (a : App U σ) (w0 : σ) (s : Server U σ σ) : Prop where
  app : s.app = a
  blind : ∀ t ∈ s.tasks, Blindly S t.todo
  out : ∀ t ∈ s.tasks, ∀ w, (t.todo.run w).out = ((a.serve t.req).run w).out
  world : restDone s.world s.tasks = afterServing a w0 (s.tasks.map (·.req))

theorem restDone_set {x' : Act σ Sent} {g : σ → σ} : ∀ {ts : List (Task U σ)} {i : Nat} {t : Task U σ}, ts[i]? = some t →
    (∀ w, (x'.run (g w)).world = (t.todo.run w).world) →
    (∀ u ∈ ts, ∀ w, (u.todo.run (g w)).world = g (u.todo.run w).world) → ∀ w,
    restDone (g w) (ts.set i { t with todo := x' }) = restDone w ts
  | [], i, t, h, _, _, w => by simp at h
  | u :: ts, 0, t, h, hx, _, w => by
    simp only [List.getElem?_cons_zero, Option.some.injEq] at h; subst h
    simp only [List.set_cons_zero, restDone, hx]
  | u :: ts, i + 1, t, h, hx, hg, w => by
    rw [List.getElem?_cons_succ] at h
    simp only [List.set_cons_succ, restDone, hg u (List.mem_cons_self ..)]
    exact restDone_set h hx (fun u hu => hg u (List.mem_cons_of_mem _ hu)) _

theorem blind_step (hS : Commuting S) {a : App U σ} (ha : ∀ req, Blindly S (a.serve req)) {w0 : σ} {s : Server U σ σ}
    (ok : BlindOK S a w0 s) (e : Event U) : BlindOK S a w0 (s.step shared e) := by
  cases e with
  | arrive req =>
    have hs : s.step shared (.arrive req) = { s with tasks := s.tasks ++ [⟨req, a.serve req⟩] } := by
      simp only [Server.step, shared, ok.app]
    rw [hs]
    refine ⟨ok.app, fun t ht => ?_, fun t ht w => ?_, ?_⟩
    · rcases List.mem_append.1 ht with ht | ht
      · exact ok.blind t ht
      · rw [List.mem_singleton.1 ht]; exact ha req
    · rcases List.mem_append.1 ht with ht | ht
      · exact ok.out t ht w
      · rw [List.mem_singleton.1 ht]
    · show restDone s.world (s.tasks ++ [⟨req, a.serve req⟩]) = _
      rw [restDone_append, ok.world, List.map_append, afterServing_append]
      rfl
  | step i =>
    cases ht : s.tasks[i]? with
    | none => rw [show s.step shared (.step i) = s by simp only [Server.step, ht]]; exact ok
    | some t =>
      have hmem : t ∈ s.tasks := List.mem_of_getElem? ht
      -- the step, as a change of the world
      have key : ∃ (x' : Act σ Sent) (g : σ → σ), t.todo.stepOnce s.world = (x', g s.world, (t.todo.stepOnce s.world).2.2) ∧
          Blindly S x' ∧ (∀ w w', (x'.run w).out = (t.todo.run w').out) ∧ (∀ w, (x'.run (g w)).world = (t.todo.run w).world) ∧
          ∀ u ∈ s.tasks, ∀ w, (u.todo.run (g w)).world = g (u.todo.run w).world := by
        have hb := ok.blind t hmem
        generalize t.todo = x at hb
        cases hb with
        | ret => exact ⟨.ret _, id, rfl, .ret, fun _ _ => rfl, fun _ => rfl, fun _ _ _ => rfl⟩
        | panic => exact ⟨.panic _, id, rfl, .panic, fun _ _ => rfl, fun _ => rfl, fun _ _ _ => rfl⟩
        | @step f k hf hk =>
          exact ⟨k, f, rfl, hk, fun w w' => blindly_out hk _ _, fun _ => rfl, fun u hu w => blindly_past hS (ok.blind u hu) hf w⟩
        | @print l k hk => exact ⟨k, id, rfl, hk, fun w w' => blindly_out hk _ _, fun _ => rfl, fun _ _ _ => rfl⟩
      obtain ⟨x', g, e1, hb, ho, hw, hg⟩ := key
      have hs : s.step shared (.step i) =
          { s with tasks := s.tasks.set i { t with todo := x' }, world := g s.world, printed := s.printed ++ (t.todo.stepOnce s.world).2.2 } := by
        simp only [Server.step, ht]; rw [e1]
      rw [hs]
      have mem : ∀ {u}, u ∈ s.tasks.set i { t with todo := x' } → u ∈ s.tasks ∨ u = { t with todo := x' } :=
        fun hu => List.mem_or_eq_of_mem_set hu
      refine ⟨ok.app, fun u hu => ?_, fun u hu w => ?_, ?_⟩
      · rcases mem hu with hu | rfl
        · exact ok.blind u hu
        · exact hb
      · rcases mem hu with hu | rfl
        · exact ok.out u hu w
        · exact (ho w w).trans (ok.out t hmem w)
      · show restDone (g s.world) (s.tasks.set i { t with todo := x' }) = afterServing a w0 ((s.tasks.set i { t with todo := x' }).map (·.req))
        rw [restDone_set ht hw hg, ok.world, List.map_set]
        congr 1
        have : (s.tasks.map (·.req))[i]? = some t.req := by rw [List.getElem?_map, ht]; rfl
        refine List.ext_getElem? fun j => ?_
        rw [List.getElem?_set]
        split
        · rename_i hij; subst hij; split
          · exact this
          · rename_i hl; rw [List.getElem?_eq_none (Nat.le_of_not_lt hl)]
        · rfl

theorem afterServing_perm (hS : Commuting S) {a : App U σ} (ha : ∀ req, Blindly S (a.serve req)) {xs ys : List (Request U)}
    (h : xs.Perm ys) (w : σ) : afterServing a w xs = afterServing a w ys := by
  induction h generalizing w with
  | nil => rfl
  | cons x _ ih => exact ih _
  | swap x y l => simp only [afterServing]; rw [blindly_swap hS (ha y) (ha x)]
  | trans _ _ h1 h2 => exact (h1 w).trans (h2 w)

/-- **C103** for requests with any number of steps, if the changes of the world commute and nobody looks at it (counters,
sets of visitors, …): whatever requests arrive and however their steps are interleaved, a finished request has the answer that
it gets after any others, and when all are finished, the world is the one that serving the requests one after the other
leaves, in whatever order.

The full claim, without the assumptions, is false (`C103_false`). -/
theorem C103_commuting_partial (hS : Commuting S) {a : App U σ} (ha : ∀ req, Blindly S (a.serve req)) (w0 : σ) (es : List (Event U)) :
    let s := (startUp a w0).run shared es
    (∀ t ∈ s.tasks, ∀ out, Outcome t.todo out → ∀ before, out = answerAfter a w0 before t.req) ∧
    ((∀ t ∈ s.tasks, ∃ out, Outcome t.todo out) →
      ∀ reqs, reqs.Perm (arrivals es) → s.world = afterServing a w0 reqs) := by
  intro s
  have run : ∀ (es : List (Event U)) (s : Server U σ σ), BlindOK S a w0 s → BlindOK S a w0 (s.run shared es) := by
    intro es
    induction es with
    | nil => exact fun s h => h
    | cons e es ih => exact fun s h => ih _ (blind_step hS ha h e)
  have ok : BlindOK S a w0 s := run es _ ⟨rfl, nofun, nofun, rfl⟩
  refine ⟨fun t ht out ho before => ?_, fun hall reqs hp => ?_⟩
  · rw [answerAfter, blindly_out (ha t.req) _ w0, ← ok.out t ht w0]
    exact (outcome_run ho w0).2.symm
  · have done : ∀ (ts : List (Task U σ)) (w : σ), (∀ t ∈ ts, ∃ out, Outcome t.todo out) → restDone w ts = w := by
      intro ts
      induction ts with
      | nil => exact fun _ _ => rfl
      | cons t ts ih =>
        intro w h
        obtain ⟨out, ho⟩ := h t (List.mem_cons_self ..)
        rw [restDone, still_run (outcome_run ho w).1, ih w fun t ht => h t (List.mem_cons_of_mem _ ht)]
    have hr : s.tasks.map (·.req) = arrivals es := by
      have := shared_requests es (startUp a w0)
      exact this.trans (List.nil_append _)
    have hw := ok.world
    rw [done _ _ hall, hr] at hw
    rw [hw]; exact (afterServing_perm hS ha hp w0).symm

/-- **C103**, for registrations: it is enough that every handler and every middleware changes the world only in ways that
commute and does not look at it.  The registrations are made by any calls, with paths of any form, nested to any depth, and may
panic and be caught. -/
theorem C103_commuting_registrations_partial (hS : Commuting S) {a : App U σ} {cs : List (Reg (Middleware U σ) (Handler U σ))}
    (ha : a.router = runCaught cs Router.new)
    (hh : ∀ x ∈ cs, ∀ ss m h, ⟨ss, .route m h⟩ ∈ callLog x → ∀ c, Blindly S (h c))
    (hm : ∀ x ∈ cs, ∀ ss mw, ⟨ss, .middleware mw⟩ ∈ callLog x → KeepsBlindly S mw) (w0 : σ) (es : List (Event U)) :
    let s := (startUp a w0).run shared es
    (∀ t ∈ s.tasks, ∀ out, Outcome t.todo out → ∀ before, out = answerAfter a w0 before t.req) ∧
    ((∀ t ∈ s.tasks, ∃ out, Outcome t.todo out) →
      ∀ reqs, reqs.Perm (arrivals es) → s.world = afterServing a w0 reqs) :=
  C103_commuting_partial hS (blindly_serve ha hh hm) w0 es

/-! ### Examples -/

/-- Additions commute. -/
def Adding (f : W → W) : Prop := ∃ n, ∀ w, f w = w + n

theorem adding_commutes : Commuting Adding := by
  rintro f g ⟨m, hf⟩ ⟨n, hg⟩ w
  rw [hf, hg, hg, hf]; exact Nat.add_right_comm ..

/-- A middleware that counts before and after. -/
def tally : Middleware demoU W := fun c next =>
  .step (· + 1) fun _ => (next c).bind fun r => .step (· + 10) fun _ => .ret r

theorem tally_keeps : KeepsBlindly Adding tally := fun _ c h =>
  .step ⟨1, fun _ => rfl⟩ (blindly_bind (h c) fun _ => .step ⟨10, fun _ => rfl⟩ .ret)

/-- The logger keeps it so, whatever the changes. -/
theorem logger_keepsBlindly (S : (σ → σ) → Prop) : KeepsBlindly S (logger : Middleware U σ) := by
  intro next c h
  refine .print (.print (blindly_bind (h _) fun r => ?_))
  cases r with
  | error e => exact .print .ret
  | ok after =>
    dsimp only
    cases after.response with
    | none => exact .panic
    | some r => exact .print .ret

/-- A page that adds 100 and says so. -/
def addPage : Handler demoU W := fun c => .step (· + 100) fun _ => .ret (c.build (.str (s "counted"))).ok

/-- The logger, the tally and the page. -/
def tallyCalls : List (Reg (Middleware demoU W) (Handler demoU W)) := [.useService logger, .useService tally, .get (s "/hit") addPage]

/-- The application of these calls. -/
def tallyApp : App demoU W := ⟨runCaught tallyCalls Router.new, none⟩

theorem tallyApp_commutes (w0 : W) (es : List (Event demoU)) :
    (∀ t ∈ ((startUp tallyApp w0).run shared es).tasks, ∀ out, Outcome t.todo out → ∀ before, out = answerAfter tallyApp w0 before t.req) ∧
    ((∀ t ∈ ((startUp tallyApp w0).run shared es).tasks, ∃ out, Outcome t.todo out) →
      ∀ reqs, reqs.Perm (arrivals es) → ((startUp tallyApp w0).run shared es).world = afterServing tallyApp w0 reqs) := by
  refine C103_commuting_registrations_partial adding_commutes (a := tallyApp) rfl ?_ ?_ w0 es
  · intro x hx ss m h he c
    simp only [tallyCalls, List.mem_cons, List.not_mem_nil, or_false] at hx
    rcases hx with rfl | rfl | rfl
    · simp [callLog, logReg] at he
    · simp [callLog, logReg] at he
    · simp [callLog, logReg] at he
      rw [he.2.2]
      exact .step ⟨100, fun _ => rfl⟩ .ret
  · intro x hx ss mw he
    simp only [tallyCalls, List.mem_cons, List.not_mem_nil, or_false] at hx
    rcases hx with rfl | rfl | rfl
    · simp [callLog, logReg] at he
      rw [he.2]; exact logger_keepsBlindly _
    · simp [callLog, logReg] at he
      rw [he.2]; exact tally_keeps
    · simp [callLog, logReg] at he

/-- Two requests whose steps are interleaved (three steps on the counter each), both finished: the theorem applies, and the
counter is as after both. -/
example : let es : List (Event demoU) := [.arrive (demoReq .get "/hit"), .arrive (demoReq .get "/hit")] ++
      (List.replicate 8 [.step 0, .step 1]).flatten
    let s := (startUp tallyApp 7).run shared es
    s.world = 229 ∧ (s.tasks.map fun t => match t.todo with | .ret sent => sent.status | _ => 0) = [200, 200] ∧
    afterServing tallyApp 7 [demoReq .get "/hit", demoReq .get "/hit"] = 229 := by
  decide +kernel

end Obsidian.Props
