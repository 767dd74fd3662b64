import Verif.Spec.Parts
import Verif.Props.OneByOne
import Verif.Props.Blind

/-
C103 for requests with several steps that work on different parts of the world.
-/
namespace Obsidian.Props
open Obsidian Spec
variable {U : Univ} {σ ρ K α β : Type}

theorem within_bind {P : Part σ ρ} {x : Act σ α} {g : α → Act σ β} (h : Within P x) (hg : ∀ a, Within P (g a)) : Within P (x.bind g) := by
  induction h with
  | ret => exact hg _
  | panic => exact .panic
  | step hf hk _ ih => exact .step hf (fun w w' h => congrArg (Act.bind · g) (hk w w' h)) ih
  | print _ ih => exact .print ih

theorem within_ofPure {P : Part σ ρ} (x : Except Crash α) : Within P (Act.ofPure x : Act σ α) := by
  cases x <;> constructor

theorem within_chain {P : Part σ ρ} {h : Handler U σ} (hh : ∀ c, Within P (h c)) : ∀ (ms : List (Middleware U σ)), (∀ m ∈ ms, KeepsWithin P m) →
    ∀ c, Within P (execNext h ms c)
  | [], _, c => hh c
  | m :: ms, hm, c => hm m (List.mem_cons_self ..) _ c (within_chain hh ms fun x hx => hm x (List.mem_cons_of_mem _ hx))

/-- A step has nothing to do with the computation. -/
def Aside (f : σ → σ) (k : σ → Act σ Sent) (y : Act σ Sent) : Prop :=
  ∀ w, (y.run (f w)).world = f (y.run w).world ∧ (y.run (f w)).out = (y.run w).out ∧ k (y.run w).world = k w

theorem aside_apart {P Q : Part σ ρ} (h : P.Apart Q) {f : σ → σ} (hf : P.changes f) {k : σ → Act σ Sent}
    (hk : ∀ w w', P.look w = P.look w' → k w = k w') {y : Act σ Sent} (hy : Within Q y) : Aside f k y := by
  induction hy with
  | ret => exact fun _ => ⟨rfl, rfl, rfl⟩
  | panic => exact fun _ => ⟨rfl, rfl, rfl⟩
  | print _ ih => exact ih
  | @step g l hg hl _ ih =>
    intro w
    have e : (Act.step g l).run (f w) = (l w).run (f (g w)) := by
      show (l (f w)).run (g (f w)) = _
      rw [hl _ _ (h.right f hf w), h.commute f g hf hg]
    obtain ⟨h1, h2, h3⟩ := ih w (g w)
    rw [e]
    exact ⟨h1, h2, h3.trans (hk _ _ (h.left g hg w))⟩

theorem aside_done {f : σ → σ} {k : σ → Act σ Sent} {y : Act σ Sent} {out : Except Crash Sent} (h : Outcome y out) : Aside f k y := by
  rcases h with ⟨_, rfl, _⟩ | ⟨_, rfl, _⟩ <;> exact fun _ => ⟨rfl, rfl, rfl⟩

/-- The world after all that is still to be done, one task after the other, and how the tasks end. -/
def finishAll : σ → List (Task U σ) → σ × List (Except Crash Sent)
  | w, [] => (w, [])
  | w, t :: ts => ((finishAll (t.todo.run w).world ts).1, (t.todo.run w).out :: (finishAll (t.todo.run w).world ts).2)

/-- The requests served one after the other: the world and how they end. -/
def serveAll (a : App U σ) : σ → List (Request U) → σ × List (Except Crash Sent)
  | w, [] => (w, [])
  | w, r :: rs => ((serveAll a ((a.serve r).run w).world rs).1, ((a.serve r).run w).out :: (serveAll a ((a.serve r).run w).world rs).2)

theorem finishAll_append (w : σ) (xs ys : List (Task U σ)) : finishAll w (xs ++ ys) =
    ((finishAll (finishAll w xs).1 ys).1, (finishAll w xs).2 ++ (finishAll (finishAll w xs).1 ys).2) := by
  induction xs generalizing w with
  | nil => rfl
  | cons x xs ih => simp only [List.cons_append, finishAll, ih]

theorem serveAll_append (a : App U σ) (w : σ) (xs ys : List (Request U)) : serveAll a w (xs ++ ys) =
    ((serveAll a (serveAll a w xs).1 ys).1, (serveAll a w xs).2 ++ (serveAll a (serveAll a w xs).1 ys).2) := by
  induction xs generalizing w with
  | nil => rfl
  | cons x xs ih => simp only [List.cons_append, serveAll, ih]

theorem serveAll_world (a : App U σ) (w : σ) (xs : List (Request U)) : (serveAll a w xs).1 = afterServing a w xs := by
  induction xs generalizing w with
  | nil => rfl
  | cons x xs ih => exact ih _

theorem serveAll_answer {a : App U σ} : ∀ {xs : List (Request U)} {i : Nat} {r : Request U} (w : σ), xs[i]? = some r →
    (serveAll a w xs).2[i]? = some (answerAfter a w (xs.take i) r)
  | [], i, r, w, h => by simp at h
  | x :: xs, 0, r, w, h => by
    simp only [List.getElem?_cons_zero, Option.some.injEq] at h; subst h; rfl
  | x :: xs, i + 1, r, w, h => by
    rw [List.getElem?_cons_succ] at h
    simp only [serveAll, List.getElem?_cons_succ, List.take_succ_cons]
    exact serveAll_answer _ h

theorem finishAll_done : ∀ {ts : List (Task U σ)} {i : Nat} {t : Task U σ} {out : Except Crash Sent} (w : σ), ts[i]? = some t →
    Outcome t.todo out → (finishAll w ts).2[i]? = some out
  | [], i, t, out, w, h, _ => by simp at h
  | u :: ts, 0, t, out, w, h, ho => by
    simp only [List.getElem?_cons_zero, Option.some.injEq] at h; subst h
    exact congrArg some (outcome_run ho w).2
  | u :: ts, i + 1, t, out, w, h, ho => by
    rw [List.getElem?_cons_succ] at h
    simp only [finishAll, List.getElem?_cons_succ]
    exact finishAll_done _ h ho

theorem finishAll_still {ts : List (Task U σ)} (h : ∀ t ∈ ts, ∃ out, Outcome t.todo out) (w : σ) : (finishAll w ts).1 = w := by
  induction ts with
  | nil => rfl
  | cons t ts ih =>
    obtain ⟨out, ho⟩ := h t (List.mem_cons_self ..)
    simp only [finishAll, still_run (outcome_run ho w).1]
    exact ih fun t ht => h t (List.mem_cons_of_mem _ ht)

/-- A step of one task that has nothing to do with the others makes no difference to how all of it ends. -/
theorem finishAll_set {f : σ → σ} {k : σ → Act σ Sent} {x' : Act σ Sent} : ∀ {ts : List (Task U σ)} {i : Nat} {t : Task U σ} (w : σ),
    ts[i]? = some t → (∀ v, k v = x' → (x'.run (f v)).world = (t.todo.run v).world ∧ (x'.run (f v)).out = (t.todo.run v).out) →
    (∀ j u, j ≠ i → ts[j]? = some u → Aside f k u.todo) → k w = x' →
    finishAll (f w) (ts.set i { t with todo := x' }) = finishAll w ts
  | [], i, t, w, h, _, _, _ => by simp at h
  | u :: ts, 0, t, w, h, hx, _, hk => by
    simp only [List.getElem?_cons_zero, Option.some.injEq] at h; subst h
    obtain ⟨h1, h2⟩ := hx w hk
    simp only [List.set_cons_zero, finishAll, h1, h2]
  | u :: ts, i + 1, t, w, h, hx, ha, hk => by
    rw [List.getElem?_cons_succ] at h
    obtain ⟨h1, h2, h3⟩ := ha 0 u (by omega) rfl w
    have := finishAll_set (u.todo.run w).world h hx (fun j u' hj hu => ha (j + 1) u' (by omega) (by rw [List.getElem?_cons_succ]; exact hu)) (h3.trans hk)
    simp only [List.set_cons_succ, finishAll, h1, h2, this]

/-- The invariant. -/
structure ApartOK (part : K → Part σ ρ) (key : Request U → K) (a : App U σ) (w0 : σ) (s : Server U σ σ) : Prop where
  app : s.app = a
  within : ∀ (i : Nat) t, s.tasks[i]? = some t → Within (part (key t.req)) t.todo
  turns : ∀ (i j : Nat) t u, i ≠ j → s.tasks[i]? = some t → s.tasks[j]? = some u → key t.req = key u.req →
    (∃ out, Outcome t.todo out) ∨ ∃ out, Outcome u.todo out
  same : finishAll s.world s.tasks = serveAll a w0 (s.tasks.map (·.req))

theorem apart_arrive {part : K → Part σ ρ} {key : Request U → K} {a : App U σ} (ha : ∀ req, Within (part (key req)) (a.serve req)) {w0 : σ}
    {s : Server U σ σ} (ok : ApartOK part key a w0 s) (req : Request U)
    (free : ∀ t ∈ s.tasks, key t.req = key req → ∃ out, Outcome t.todo out) : ApartOK part key a w0 (s.step shared (.arrive req)) := by
  have hs : s.step shared (.arrive req) = { s with tasks := s.tasks ++ [⟨req, a.serve req⟩] } := by
    simp only [Server.step, shared, ok.app]
  have get : ∀ {i t}, (s.tasks ++ [⟨req, a.serve req⟩])[i]? = some t →
      s.tasks[i]? = some t ∨ (i = s.tasks.length ∧ t = ⟨req, a.serve req⟩) := by
    intro i t ht
    by_cases hi : i < s.tasks.length
    · rw [List.getElem?_append_left hi] at ht; exact .inl ht
    · rw [List.getElem?_append_right (by omega)] at ht
      cases hd : i - s.tasks.length with
      | zero => rw [hd] at ht; exact .inr ⟨by omega, by simpa using ht.symm⟩
      | succ n => rw [hd] at ht; simp at ht
  rw [hs]
  refine ⟨ok.app, fun i t ht => ?_, fun i j t u hij ht hu hkey => ?_, ?_⟩
  · rcases get ht with ht | ⟨_, rfl⟩
    · exact ok.within i t ht
    · exact ha req
  · rcases get ht with ht | ⟨hi, rfl⟩ <;> rcases get hu with hu | ⟨hj, rfl⟩
    · exact ok.turns i j t u hij ht hu hkey
    · exact .inl (free t (List.mem_of_getElem? ht) hkey)
    · exact .inr (free u (List.mem_of_getElem? hu) hkey.symm)
    · omega
  · dsimp only
    rw [finishAll_append, List.map_append, serveAll_append, ok.same]
    rfl

theorem apart_step {part : K → Part σ ρ} (hp : ∀ k k', k ≠ k' → (part k).Apart (part k')) {key : Request U → K} {a : App U σ} {w0 : σ}
    {s : Server U σ σ} (ok : ApartOK part key a w0 s) (i : Nat) : ApartOK part key a w0 (s.step shared (.step i)) := by
  cases ht : s.tasks[i]? with
  | none => rw [show s.step shared (.step i) = s by simp only [Server.step, ht]]; exact ok
  | some t =>
    have hlt : i < s.tasks.length := (List.getElem?_eq_some_iff.1 ht).1
    have get : ∀ {j t' x}, (s.tasks.set i { t with todo := x })[j]? = some t' →
        (j = i ∧ t' = { t with todo := x }) ∨ (j ≠ i ∧ s.tasks[j]? = some t') := by
      intro j t' x hj
      rw [List.getElem?_set] at hj
      split at hj
      · next he => subst he; exact .inl ⟨rfl, by simpa [hlt] using hj.symm⟩
      · next he => exact .inr ⟨fun e => he e.symm, hj⟩
    have key' : ∃ (x' : Act σ Sent) (f : σ → σ) (k : σ → Act σ Sent) (ls : List Line), t.todo.stepOnce s.world = (x', f s.world, ls) ∧
        k s.world = x' ∧ Within (part (key t.req)) x' ∧ ((∃ out, Outcome t.todo out) → x' = t.todo) ∧
        (∀ v, k v = x' → (x'.run (f v)).world = (t.todo.run v).world ∧ (x'.run (f v)).out = (t.todo.run v).out) ∧
        ∀ j u, j ≠ i → s.tasks[j]? = some u → Aside f k u.todo := by
      have hw := ok.within i t ht
      cases htodo : t.todo with
      | ret a =>
        rw [htodo] at hw
        refine ⟨.ret a, id, fun _ => .ret a, [], rfl, rfl, hw, fun _ => rfl, fun _ _ => ⟨rfl, rfl⟩, fun j u _ _ w => ⟨rfl, rfl, rfl⟩⟩
      | panic c =>
        rw [htodo] at hw
        refine ⟨.panic c, id, fun _ => .panic c, [], rfl, rfl, hw, fun _ => rfl, fun _ _ => ⟨rfl, rfl⟩, fun j u _ _ w => ⟨rfl, rfl, rfl⟩⟩
      | print l k =>
        rw [htodo] at hw
        refine ⟨k, id, fun _ => k, [l], rfl, rfl, by cases hw; assumption, ?_, fun _ _ => ⟨rfl, rfl⟩, fun j u _ _ w => ⟨rfl, rfl, rfl⟩⟩
        rintro ⟨out, ⟨_, h, _⟩ | ⟨_, h, _⟩⟩ <;> cases h
      | step f k =>
        rw [htodo] at hw
        cases hw with
        | step hf hk hn =>
          have notDone : ¬ ∃ out, Outcome t.todo out := by
            rw [htodo]; rintro ⟨out, ⟨_, h, _⟩ | ⟨_, h, _⟩⟩ <;> cases h
          refine ⟨k s.world, f, k, [], rfl, rfl, hn _, fun h => absurd (htodo ▸ h) notDone, fun v hv => ?_, fun j u hj hu => ?_⟩
          · rw [← hv]; exact ⟨rfl, rfl⟩
          · by_cases hkey : key t.req = key u.req
            · rcases ok.turns i j t u (fun e => hj e.symm) ht hu hkey with h | ⟨out, h⟩
              · exact absurd h notDone
              · exact aside_done h
            · exact aside_apart (hp _ _ hkey) hf hk (ok.within j u hu)
    obtain ⟨x', f, k, ls, e1, hkw, hw, hd, hx, hothers⟩ := key'
    have hs : s.step shared (.step i) =
        { s with tasks := s.tasks.set i { t with todo := x' }, world := f s.world, printed := s.printed ++ ls } := by
      simp only [Server.step, ht]; rw [e1]
    rw [hs]
    refine ⟨ok.app, fun j u hu => ?_, fun j j' u u' hjj hu hu' hkey => ?_, ?_⟩
    · rcases get hu with ⟨rfl, rfl⟩ | ⟨_, hu⟩
      · exact hw
      · exact ok.within j u hu
    · rcases get hu with ⟨rfl, rfl⟩ | ⟨_, v⟩ <;> rcases get hu' with ⟨rfl, rfl⟩ | ⟨_, v'⟩
      · exact absurd rfl hjj
      · rcases ok.turns j j' t u' hjj ht v' hkey with h | h
        · left; obtain ⟨out, ho⟩ := h; exact ⟨out, by dsimp only; rw [hd ⟨out, ho⟩]; exact ho⟩
        · exact .inr h
      · rcases ok.turns j j' u t hjj v ht hkey with h | h
        · exact .inl h
        · right; obtain ⟨out, ho⟩ := h; exact ⟨out, by dsimp only; rw [hd ⟨out, ho⟩]; exact ho⟩
      · exact ok.turns j j' u u' hjj v v' hkey
    · have hreq : (s.tasks.set i { t with todo := x' }).map (·.req) = s.tasks.map (·.req) := by
        rw [List.map_set]
        refine List.ext_getElem? fun j => ?_
        rw [List.getElem?_set]
        split
        · next hij =>
          subst hij
          rw [if_pos (by rw [List.length_map]; exact hlt), List.getElem?_map, ht]; rfl
        · rfl
      dsimp only
      rw [hreq, finishAll_set s.world ht hx hothers hkw]
      exact ok.same

theorem apart_run {part : K → Part σ ρ} (hp : ∀ k k', k ≠ k' → (part k).Apart (part k')) {key : Request U → K} {a : App U σ}
    (ha : ∀ req, Within (part (key req)) (a.serve req)) {w0 : σ} (es : List (Event U)) {s : Server U σ σ} (ok : ApartOK part key a w0 s)
    (free : ∀ es1 req es2, es = es1 ++ .arrive req :: es2 → ∀ t ∈ (s.run shared es1).tasks, key t.req = key req → ∃ out, Outcome t.todo out) :
    ApartOK part key a w0 (s.run shared es) := by
  induction es generalizing s with
  | nil => exact ok
  | cons e es ih =>
    refine ih (s := s.step shared e) ?_ fun es1 req es2 he => free (e :: es1) req es2 (by rw [he]; rfl)
    cases e with
    | arrive req => exact apart_arrive ha ok req (free [] req es rfl)
    | step i => exact apart_step hp ok i

/-- **C103** for requests with any number of steps, which may read and change the world, if each works on one part of the world
(`key` says which one) and requests for the same part take turns: however the steps of requests for different parts are
interleaved, a finished request has the answer that it gets when the requests are served one after the other in the order in
which they arrived, and when all are finished, the world is the one that this leaves.

The full claim, without the assumptions, is false (`C103_false`: there two requests for the same part overlap). -/
theorem C103_apart_partial {part : K → Part σ ρ} (hp : ∀ k k', k ≠ k' → (part k).Apart (part k')) {key : Request U → K} {a : App U σ}
    (ha : ∀ req, Within (part (key req)) (a.serve req)) (w0 : σ) (es : List (Event U)) (turns : TakingTurns a w0 key es) :
    let s := (startUp a w0).run shared es
    (∀ i t out, s.tasks[i]? = some t → Outcome t.todo out → out = answerAfter a w0 ((arrivals es).take i) t.req) ∧
    ((∀ t ∈ s.tasks, ∃ out, Outcome t.todo out) → s.world = afterServing a w0 (arrivals es)) := by
  intro s
  have ok : ApartOK part key a w0 s := apart_run hp ha es (s := startUp a w0)
    ⟨rfl, fun i t h => by simp [startUp] at h, fun i j t u _ h => by simp [startUp] at h, rfl⟩ turns
  have hr : s.tasks.map (·.req) = arrivals es := (shared_requests es (startUp a w0)).trans (List.nil_append _)
  have same := ok.same
  rw [hr] at same
  refine ⟨fun i t out ht ho => ?_, fun hall => ?_⟩
  · have h1 := finishAll_done s.world ht ho
    rw [same, serveAll_answer w0 (task_req ht)] at h1
    exact (Option.some.inj h1).symm
  · rw [← serveAll_world, ← same]
    exact (finishAll_still hall _).symm

/-- The handler that a request finds, by its name in the program. -/
theorem within_serve {part : Option K → Part σ ρ} {prog : List (Reg (Middleware U σ) K)} {hOf : K → Handler U σ} {a : App U σ}
    (ha : a.router = (build (mapCalls id hOf prog)).1) (hh : ∀ k c, Within (part (some k)) (hOf k c))
    (hm : ∀ path chain, chainFor a.router path = some chain → ∀ m ∈ chain, ∀ k, KeepsWithin (part (some k)) m) (req : Request U) :
    Within (part (handlerFor (build prog).1 req.method req.path)) (a.serve req) := by
  have h82 := ((C82_renamed id hOf prog).2 req.path).2.1 req.method
  rw [← ha] at h82
  cases hf : handlerFor (build prog).1 req.method req.path with
  | none =>
    rw [hf] at h82
    rw [serve_none h82]; exact .ret
  | some k =>
    rw [hf] at h82
    obtain ⟨chain, c, h1, _, h3⟩ := serve_some h82
    rw [h3]
    exact within_bind (within_chain (hh k) chain (fun m hmc => hm req.path chain h1 m hmc k) c) fun r => within_ofPure _

/-- **C103**, for registrations: `prog` are calls with names for the handlers (any calls, with paths of any form, nested to any
depth), and every handler works on a part of the world of its own, with any number of steps; middlewares do not touch the
world or only the part of the handler that they run.  If requests for the same handler take turns, serving requests together is
like serving them in the order in which they arrived. -/
theorem C103_apart_registrations_partial {part : Option K → Part σ ρ} (hp : ∀ k k', k ≠ k' → (part k).Apart (part k'))
    {prog : List (Reg (Middleware U σ) K)} {hOf : K → Handler U σ} {a : App U σ}
    (ha : a.router = (build (mapCalls id hOf prog)).1) (hh : ∀ k c, Within (part (some k)) (hOf k c))
    (hm : ∀ path chain, chainFor a.router path = some chain → ∀ m ∈ chain, ∀ k, KeepsWithin (part (some k)) m) (w0 : σ) (es : List (Event U))
    (turns : TakingTurns a w0 (fun req => handlerFor (build prog).1 req.method req.path) es) :
    let s := (startUp a w0).run shared es
    (∀ i t out, s.tasks[i]? = some t → Outcome t.todo out → out = answerAfter a w0 ((arrivals es).take i) t.req) ∧
    ((∀ t ∈ s.tasks, ∃ out, Outcome t.todo out) → s.world = afterServing a w0 (arrivals es)) :=
  C103_apart_partial hp (within_serve ha hh hm) w0 es turns

/-- The logger works on no part. -/
theorem logger_keepsWithin (P : Part σ ρ) : KeepsWithin P (logger : Middleware U σ) := by
  intro next c h
  refine .print (.print (within_bind (h _) fun r => ?_))
  cases r with
  | error e => exact .print .ret
  | ok after =>
    dsimp only
    cases after.response with
    | none => exact .panic
    | some r => exact .print .ret

/-! ### Examples -/

/-- Shelves: a number for each name. -/
abbrev Shelves := Nat → Nat

/-- A shelf. -/
def shelf : Option Nat → Part Shelves Nat
  | some k => ⟨fun w => w k, fun f => ∃ g : Nat → Nat, ∀ w j, f w j = if j = k then g (w k) else w j⟩
  | none => ⟨fun _ => 0, fun _ => False⟩

theorem shelves_apart (k k' : Option Nat) (h : k ≠ k') : (shelf k).Apart (shelf k') := by
  cases k with
  | none =>
    cases k' with
    | none => exact absurd rfl h
    | some k' => exact ⟨fun _ _ h => h.elim, fun _ _ _ => rfl, fun _ h => h.elim⟩
  | some k =>
    cases k' with
    | none => exact ⟨fun _ _ _ h => h.elim, fun _ h => h.elim, fun _ _ _ => rfl⟩
    | some k' =>
      have hne : k ≠ k' := fun e => h (by rw [e])
      refine ⟨?_, ?_, ?_⟩
      · rintro f g ⟨f', hf⟩ ⟨g', hg⟩ w
        funext j
        simp only [hf, hg, hne, Ne.symm hne, if_false]
        by_cases h1 : j = k
        · subst h1; simp [hne]
        · simp [h1]
      · rintro g ⟨g', hg⟩ w; show g w k = w k; rw [hg, if_neg hne]
      · rintro f ⟨f', hf⟩ w; show f w k' = w k'; rw [hf, if_neg (Ne.symm hne)]

/-- Reads the shelf, and then, in another step, puts there one more than it has read. -/
def restock (k : Nat) : Handler demoU Shelves := fun c => .step id fun w =>
  .step (fun v j => if j = k then w k + 1 else v j) fun _ => .ret (c.build (.str (Nat.repr (w k)).toList)).ok

theorem restock_within (k : Nat) (c : Context demoU) : Within (shelf (some k)) (restock k c) := by
  refine .step ⟨id, fun w j => ?_⟩ (fun w w' h => ?_) fun w => .step ⟨fun _ => w k + 1, fun v j => rfl⟩ (fun _ _ _ => rfl) fun _ => .ret
  · show w j = if j = k then w k else w j
    split
    · next h => rw [h]
    · rfl
  · have h : w k = w' k := h
    simp only [h]

/-- Two shelves. -/
def shelfCalls : List (Reg (Middleware demoU Shelves) Nat) := [.get (s "/a") 0, .get (s "/b") 1]

/-- The application with the two shelves. -/
def shelfApp : App demoU Shelves := ⟨(build (mapCalls id restock shelfCalls)).1, none⟩

/-- A request for each shelf, their steps interleaved. -/
def shelfEvents : List (Event demoU) :=
  [.arrive (demoReq .get "/a"), .step 0, .arrive (demoReq .get "/b"), .step 1, .step 0, .step 1, .step 0, .step 1]

/-- The hypotheses are met by the two requests, whose steps are interleaved. -/
theorem shelfEvents_apart : let sv := (startUp shelfApp (fun _ => 7)).run shared shelfEvents
    (∀ i t out, sv.tasks[i]? = some t → Outcome t.todo out → out = answerAfter shelfApp (fun _ => 7) ((arrivals shelfEvents).take i) t.req) ∧
    ((∀ t ∈ sv.tasks, ∃ out, Outcome t.todo out) → sv.world = afterServing shelfApp (fun _ => 7) (arrivals shelfEvents)) := by
  refine C103_apart_registrations_partial shelves_apart (prog := shelfCalls) (hOf := restock) rfl restock_within ?_ _ _ ?_
  · intro path chain hc m hm k
    obtain ⟨_, k2⟩ := C65_reading_partial (mapCalls id restock shelfCalls) path
    have hr : shelfApp.router = runCaught (mapCalls id restock shelfCalls) Router.new := rfl
    rw [hr] at hc
    obtain ⟨x, hx, ss, _, hin, _⟩ := k2 _ hc m hm
    simp only [shelfCalls, mapCalls, mapCall, List.mem_cons, List.not_mem_nil, or_false] at hx
    rcases hx with rfl | rfl <;> simp [callLog, logReg] at hin
  · intro es1 req es2 he t ht hkey
    exfalso
    match es1, he with
    | [], he => simp [startUp, Server.run] at ht
    | [_, _], he =>
      simp only [shelfEvents, List.cons_append, List.nil_append, List.cons.injEq] at he
      obtain ⟨rfl, rfl, h, _⟩ := he
      injection h with h; subst h
      have hreq : t.req = demoReq .get "/a" := by
        obtain ⟨i, hi⟩ := List.mem_iff_getElem?.1 ht
        have := task_req hi
        simp only [arrivals] at this
        match i, this with
        | 0, h => exact (Option.some.inj h).symm
        | _ + 1, h => simp at h
      rw [hreq] at hkey
      revert hkey; decide +kernel
    | [_], he => simp [shelfEvents] at he
    | [_, _, _], he => simp [shelfEvents] at he
    | [_, _, _, _], he => simp [shelfEvents] at he
    | [_, _, _, _, _], he => simp [shelfEvents] at he
    | [_, _, _, _, _, _], he => simp [shelfEvents] at he
    | [_, _, _, _, _, _, _], he => simp [shelfEvents] at he
    | _ :: _ :: _ :: _ :: _ :: _ :: _ :: _ :: _, he => simp [shelfEvents] at he

/-- They are finished, with the answers; both shelves have been restocked. -/
example : let sv := (startUp shelfApp (fun _ => 7)).run shared shelfEvents
    (sv.tasks.map fun t => match t.todo with | .ret sent => sent.body.bytes | _ => []) = [utf8 "7".toList, utf8 "7".toList] ∧
    (List.range 3).map sv.world = [8, 8, 7] := by
  decide +kernel

/-! Parts may also change something in common that none of them looks at, if these changes commute: shelves and a counter. -/

/-- How often was counted, and the shelves. -/
abbrev Store := Nat × Shelves

/-- A shelf, and the counter, which is not looked at. -/
def countedShelf : Option Nat → Part Store Nat
  | some k => ⟨fun w => w.2 k, fun f => ∃ (n : Nat) (g : Nat → Nat), ∀ w, f w = (w.1 + n, fun j => if j = k then g (w.2 k) else w.2 j)⟩
  | none => ⟨fun _ => 0, fun _ => False⟩

theorem countedShelves_apart (k k' : Option Nat) (h : k ≠ k') : (countedShelf k).Apart (countedShelf k') := by
  cases k with
  | none =>
    cases k' with
    | none => exact absurd rfl h
    | some k' => exact ⟨fun _ _ h => h.elim, fun _ _ _ => rfl, fun _ h => h.elim⟩
  | some k =>
    cases k' with
    | none => exact ⟨fun _ _ _ h => h.elim, fun _ h => h.elim, fun _ _ _ => rfl⟩
    | some k' =>
      have hne : k ≠ k' := fun e => h (by rw [e])
      refine ⟨?_, ?_, ?_⟩
      · rintro f g ⟨m, f', hf⟩ ⟨n, g', hg⟩ w
        rw [hf, hg, hg, hf]
        refine Prod.ext (Nat.add_right_comm ..) (funext fun j => ?_)
        simp only [hne, Ne.symm hne, if_false]
        by_cases h1 : j = k
        · subst h1; simp [hne]
        · simp [h1]
      · rintro g ⟨n, g', hg⟩ w; show (g w).2 k = w.2 k; rw [hg]; exact if_neg hne
      · rintro f ⟨n, f', hf⟩ w; show (f w).2 k' = w.2 k'; rw [hf]; exact if_neg (Ne.symm hne)

/-- A middleware that counts before and after. -/
def countBoth : Middleware demoU Store := fun c next =>
  .step (fun w => (w.1 + 1, w.2)) fun _ => (next c).bind fun r => .step (fun w => (w.1 + 10, w.2)) fun _ => .ret r

theorem counts_on_shelf (k n : Nat) : (countedShelf (some k)).changes fun w => (w.1 + n, w.2) := by
  refine ⟨n, id, fun w => Prod.ext rfl (funext fun j => ?_)⟩
  show w.2 j = if j = k then w.2 k else w.2 j
  split
  · next h => rw [h]
  · rfl

theorem countBoth_keeps (k : Nat) : KeepsWithin (countedShelf (some k)) countBoth := fun _ c h =>
  .step (counts_on_shelf k 1) (fun _ _ _ => rfl) fun _ => within_bind (h c) fun _ =>
    .step (counts_on_shelf k 10) (fun _ _ _ => rfl) fun _ => .ret

/-- Reads the shelf, and then puts there one more than it has read. -/
def restockCounted (k : Nat) : Handler demoU Store := fun c => .step (fun w => (w.1 + 0, w.2)) fun w =>
  .step (fun v => (v.1 + 0, fun j => if j = k then w.2 k + 1 else v.2 j)) fun _ => .ret (c.build (.str (Nat.repr (w.2 k)).toList)).ok

theorem restockCounted_within (k : Nat) (c : Context demoU) : Within (countedShelf (some k)) (restockCounted k c) := by
  refine .step (counts_on_shelf k 0) (fun w w' h => ?_) fun w => .step ⟨0, fun _ => w.2 k + 1, fun v => rfl⟩ (fun _ _ _ => rfl) fun _ => .ret
  have h : w.2 k = w'.2 k := h
  simp only [h]

/-- The logger, the counting middleware and two shelves. -/
def countedCalls : List (Reg (Middleware demoU Store) Nat) := [.useService logger, .useService countBoth, .get (s "/a") 0, .get (s "/b") 1]

/-- The application of these calls. -/
def countedApp : App demoU Store := ⟨(build (mapCalls id restockCounted countedCalls)).1, none⟩

/-- Requests for the two shelves, each of which takes turns: as if they had been served in the order in which they arrived,
the counter included. -/
example (es : List (Event demoU)) (w0 : Store)
    (turns : TakingTurns countedApp w0 (fun req => handlerFor (build countedCalls).1 req.method req.path) es)
    (done : ∀ t ∈ ((startUp countedApp w0).run shared es).tasks, ∃ out, Outcome t.todo out) :
    ((startUp countedApp w0).run shared es).world = afterServing countedApp w0 (arrivals es) := by
  refine (C103_apart_registrations_partial countedShelves_apart (prog := countedCalls) (hOf := restockCounted) rfl restockCounted_within ?_
    w0 es turns).2 done
  intro path chain hc m hm k
  obtain ⟨_, k2⟩ := C65_reading_partial (mapCalls id restockCounted countedCalls) path
  have hr : countedApp.router = runCaught (mapCalls id restockCounted countedCalls) Router.new := rfl
  rw [hr] at hc
  obtain ⟨x, hx, ss, _, hin, _⟩ := k2 _ hc m hm
  simp only [countedCalls, mapCalls, mapCall, List.mem_cons, List.not_mem_nil, or_false] at hx
  rcases hx with rfl | rfl | rfl | rfl <;> simp [callLog, logReg] at hin
  · rw [hin.2]; exact logger_keepsWithin _
  · rw [hin.2]; exact countBoth_keeps k

/-- An interleaving of the two. -/
example : let es : List (Event demoU) := [.arrive (demoReq .get "/a"), .step 0, .step 0, .step 0, .step 0, .arrive (demoReq .get "/b")] ++
      (List.replicate 9 [.step 1, .step 0]).flatten
    let sv := (startUp countedApp (0, fun _ => 7)).run shared es
    sv.world.1 = 22 ∧ (List.range 3).map sv.world.2 = [8, 8, 7] ∧
    (sv.tasks.map fun t => match t.todo with | .ret sent => sent.body.bytes | _ => []) = [utf8 "7".toList, utf8 "7".toList] := by
  decide +kernel

end Obsidian.Props
