import Verif.Spec.Mainly
import Verif.Props.Blindly

/-
C103 for requests with one step that matters, among others that only change what nobody looks at.
-/
namespace Obsidian.Props
open Obsidian Spec
variable {U : Univ} {σ α β : Type} {S : (σ → σ) → Prop}

/-! ### Computations -/

theorem mainly_bind {x : Act σ α} {g : α → Act σ β} (h : Mainly S x) (hg : ∀ a, Blindly S (g a)) : Mainly S (x.bind g) := by
  induction h with
  | blindly h => exact .blindly (blindly_bind h hg)
  | main hf hk => exact .main (fun g' h' w => ⟨(hf g' h' w).1, congrArg (Act.bind · g) (hf g' h' w).2⟩) fun w => blindly_bind (hk w) hg
  | step hf _ ih => exact .step hf ih
  | print _ ih => exact .print ih

theorem mainly_chain {h : Handler U σ} (hh : ∀ c, Mainly S (h c)) : ∀ (ms : List (Middleware U σ)), (∀ m ∈ ms, KeepsMainly S m) →
    ∀ c, Mainly S (execNext h ms c)
  | [], _, c => hh c
  | m :: ms, hm, c => hm m (List.mem_cons_self ..) _ c (mainly_chain hh ms fun x hx => hm x (List.mem_cons_of_mem _ hx))

/-- Serving has at most one main step. -/
theorem mainly_serve {a : App U σ} {cs : List (Reg (Middleware U σ) (Handler U σ))} (ha : a.router = runCaught cs Router.new)
    (hh : ∀ x ∈ cs, ∀ ss m h, ⟨ss, .route m h⟩ ∈ callLog x → ∀ c, Mainly S (h c))
    (hm : ∀ x ∈ cs, ∀ ss mw, ⟨ss, .middleware mw⟩ ∈ callLog x → KeepsMainly S mw) (req : Request U) : Mainly S (a.serve req) := by
  cases hf : handlerFor a.router req.method req.path with
  | none => rw [serve_none hf]; exact .blindly .ret
  | some h =>
    obtain ⟨chain, c, h1, _, h3⟩ := serve_some hf
    rw [ha] at h1 hf
    obtain ⟨k1, k2⟩ := C65_reading_partial cs req.path
    obtain ⟨x, hx, ss, _, hin, _⟩ := k1 _ _ hf
    rw [h3]
    refine mainly_bind (mainly_chain (hh x hx ss _ h hin) chain (fun m hmc => ?_) c) fun r => blindly_ofPure _
    obtain ⟨x, hx, ss, _, hin, _⟩ := k2 _ h1 m hmc
    exact hm x hx ss m hin

/-- The main step is still to come. -/
inductive Awaits (S : (σ → σ) → Prop) : Act σ α → Prop
  | main {f k} : (∀ g, S g → ∀ w, f (g w) = g (f w) ∧ k (g w) = k w) → (∀ w, Blindly S (k w)) → Awaits S (.step f k)
  | step {f k} : S f → Awaits S k → Awaits S (.step f fun _ => k)
  | print {l k} : Awaits S k → Awaits S (.print l k)

theorem mainly_cases {x : Act σ α} (h : Mainly S x) : Blindly S x ∨ Awaits S x := by
  induction h with
  | blindly h => exact .inl h
  | main hf hk => exact .inr (.main hf hk)
  | step hf _ ih => exact ih.imp (.step hf) (.step hf)
  | print _ ih => exact ih.imp .print .print

theorem awaits_not_done {x : Act σ Sent} {out : Except Crash Sent} (h : Awaits S x) (ho : Outcome x out) : False := by
  rcases ho with ⟨_, rfl, _⟩ | ⟨_, rfl, _⟩ <;> cases h

/-! ### Changes in ways of `S`, one after the other -/

/-- Any number of changes. -/
inductive Changes (S : (σ → σ) → Prop) : (σ → σ) → Prop
  | none : Changes S id
  | one {f} : S f → Changes S f
  | two {f g} : Changes S f → Changes S g → Changes S (f ∘ g)

theorem changes_run {x : Act σ α} (h : Blindly S x) : Changes S fun w => (x.run w).world := by
  induction h with
  | ret => exact .none
  | panic => exact .none
  | step hf _ ih => exact .two ih (.one hf)
  | print _ ih => exact ih

theorem changes_past {f : σ → σ} (hf : ∀ g, S g → ∀ w, f (g w) = g (f w)) {g : σ → σ} (hg : Changes S g) (w : σ) :
    f (g w) = g (f w) := by
  induction hg generalizing w with
  | none => rfl
  | one h => exact hf _ h w
  | two _ _ h1 h2 => exact (h1 _).trans (congrArg _ (h2 w))

theorem changes_commute (hS : Commuting S) {f g : σ → σ} (hf : Changes S f) (hg : Changes S g) (w : σ) : f (g w) = g (f w) := by
  refine changes_past (fun h hh w => ?_) hg w
  exact (changes_past (fun k hk w => hS h k hh hk w) hf w).symm

theorem changes_unseen {k : σ → β} (hk : ∀ g, S g → ∀ w, k (g w) = k w) {g : σ → σ} (hg : Changes S g) (w : σ) : k (g w) = k w := by
  induction hg generalizing w with
  | none => rfl
  | one h => exact hk _ h w
  | two _ _ h1 h2 => exact (h1 _).trans (h2 w)

/-- The changes of the first `n`. -/
def allOf (F : Nat → σ → σ) : Nat → σ → σ
  | 0, w => w
  | n + 1, w => F n (allOf F n w)

/-- Another change for one of them. -/
def upd (F : Nat → σ → σ) (i : Nat) (g : σ → σ) : Nat → σ → σ := fun j => if j = i then g else F j

theorem upd_same (F : Nat → σ → σ) (i : Nat) (g : σ → σ) : upd F i g i = g := if_pos rfl
theorem upd_other {F : Nat → σ → σ} {i j : Nat} {g : σ → σ} (h : j ≠ i) : upd F i g j = F j := if_neg h
theorem upd_self (F : Nat → σ → σ) (i : Nat) : upd F i (F i) = F := by
  funext j; unfold upd; split
  · next h => rw [h]
  · rfl

theorem upd_changes {F : Nat → σ → σ} (hF : ∀ i, Changes S (F i)) {g : σ → σ} (hg : Changes S g) (i j : Nat) : Changes S (upd F i g j) := by
  unfold upd; split
  · exact hg
  · exact hF j

theorem allOf_changes {F : Nat → σ → σ} (hF : ∀ i, Changes S (F i)) (n : Nat) : Changes S (allOf F n) := by
  induction n with
  | zero => exact .none
  | succ n ih => exact .two (hF n) ih

theorem allOf_congr {F G : Nat → σ → σ} {n : Nat} (h : ∀ i, i < n → F i = G i) (w : σ) : allOf F n w = allOf G n w := by
  induction n with
  | zero => rfl
  | succ n ih => rw [allOf, allOf, h n (Nat.lt_succ_self n), ih fun i hi => h i (Nat.lt_succ_of_lt hi)]

theorem allOf_upd (hS : Commuting S) {F : Nat → σ → σ} (hF : ∀ i, Changes S (F i)) {g : σ → σ} (hg : Changes S g) {i n : Nat} (hi : i < n)
    (w : σ) : allOf (upd F i g) n w = g (allOf (upd F i id) n w) := by
  induction n with
  | zero => exact absurd hi (Nat.not_lt_zero _)
  | succ n ih =>
    rw [allOf, allOf]
    by_cases h : n = i
    · subst h
      rw [upd_same, upd_same]
      exact congrArg g (allOf_congr (fun j hj => by rw [upd_other (Nat.ne_of_lt hj), upd_other (Nat.ne_of_lt hj)]) w)
    · rw [upd_other h, upd_other h, ih (by omega)]
      exact (changes_commute hS hg (hF n) _).symm

theorem allOf_none {F : Nat → σ → σ} {n : Nat} (h : ∀ i, i < n → ∀ w, F i w = w) (w : σ) : allOf F n w = w := by
  induction n with
  | zero => rfl
  | succ n ih => rw [allOf, h n (Nat.lt_succ_self n), ih fun i hi => h i (Nat.lt_succ_of_lt hi)]

/-! ### The server -/

/-- The invariant: which requests have had their main step (`o`), what the others have changed before it (`past`), and what
these have still to change (`fut`). -/
structure MainOK (S : (σ → σ) → Prop) (a : App U σ) (w0 : σ) (s : Server U σ σ) (o : Order U) (past fut : Nat → σ → σ) : Prop where
  app : s.app = a
  nodup : (o.map (·.1)).Nodup
  reqs : ∀ e ∈ o, ∃ t, s.tasks[e.1]? = some t ∧ t.req = e.2
  pastC : ∀ i, Changes S (past i)
  futC : ∀ i, Changes S (fut i)
  world : allOf fut s.tasks.length s.world = allOf past s.tasks.length (afterServing a w0 (o.map (·.2)))
  waiting : ∀ i t, s.tasks[i]? = some t → i ∉ o.map (·.1) → Awaits S t.todo ∧ fut i = id ∧
    ∀ w, (t.todo.run (past i w)).out = ((a.serve t.req).run w).out ∧ (t.todo.run (past i w)).world = ((a.serve t.req).run w).world
  served : ∀ pre i r post t, o = pre ++ (i, r) :: post → s.tasks[i]? = some t → Blindly S t.todo ∧ past i = id ∧
    (fut i = fun w => (t.todo.run w).world) ∧ ∀ w, (t.todo.run w).out = answerAfter a w0 (pre.map (·.2)) t.req

theorem main_arrive (hS : Commuting S) {a : App U σ} (ha : ∀ req, Mainly S (a.serve req)) {w0 : σ} {s : Server U σ σ} {o : Order U}
    {past fut : Nat → σ → σ} (ok : MainOK S a w0 s o past fut) (req : Request U) :
    ∃ o' past' fut', MainOK S a w0 (s.step shared (.arrive req)) (o ++ o') past' fut' := by
  have hs : s.step shared (.arrive req) = { s with tasks := s.tasks ++ [⟨req, a.serve req⟩] } := by
    simp only [Server.step, shared, ok.app]
  have get : ∀ {i t}, (s.tasks ++ [⟨req, a.serve req⟩])[i]? = some t →
      s.tasks[i]? = some t ∨ (i = s.tasks.length ∧ t = ⟨req, a.serve req⟩) := by
    intro i t ht
    by_cases hi : i < s.tasks.length
    · rw [List.getElem?_append_left hi] at ht; exact .inl ht
    · rw [List.getElem?_append_right (by omega)] at ht
      cases hd : i - s.tasks.length with
      | zero => rw [hd] at ht; exact .inr ⟨by omega, by simpa using ht.symm⟩
      | succ n => rw [hd] at ht; simp at ht
  have lt : ∀ {i t}, s.tasks[i]? = some t → i < s.tasks.length := fun h => (List.getElem?_eq_some_iff.1 h).1
  have notin : s.tasks.length ∉ o.map (·.1) := by
    intro h
    obtain ⟨e, he, h⟩ := List.mem_map.1 h
    obtain ⟨t, h1, _⟩ := ok.reqs e he
    have := lt h1
    omega
  have old : ∀ (F : Nat → σ → σ) (g : σ → σ) {i t}, s.tasks[i]? = some t → upd F s.tasks.length g i = F i :=
    fun F g i t h => upd_other (Nat.ne_of_lt (lt h))
  have below : ∀ (F : Nat → σ → σ) (g : σ → σ) w, allOf (upd F s.tasks.length g) (s.tasks.length + 1) w = g (allOf F s.tasks.length w) := by
    intro F g w
    rw [allOf, upd_same]
    exact congrArg g (allOf_congr (fun j hj => upd_other (Nat.ne_of_lt hj)) w)
  have len : (s.tasks ++ [(⟨req, a.serve req⟩ : Task U σ)]).length = s.tasks.length + 1 := by simp
  rw [hs]
  rcases mainly_cases (ha req) with hb | hw
  · refine ⟨[(s.tasks.length, req)], upd past s.tasks.length id, upd fut s.tasks.length fun w => ((a.serve req).run w).world,
      ok.app, ?_, ?_, fun i => upd_changes ok.pastC .none _ i, fun i => upd_changes ok.futC (changes_run hb) _ i, ?_, ?_, ?_⟩
    · rw [List.map_append, List.nodup_append]
      exact ⟨ok.nodup, by simp, fun x hx y hy => by
        simp only [List.map_cons, List.map_nil, List.mem_singleton] at hy
        subst hy; intro e; subst e; exact notin hx⟩
    · intro e he
      rcases List.mem_append.1 he with he | he
      · obtain ⟨t, h1, h2⟩ := ok.reqs e he
        exact ⟨t, by rw [List.getElem?_append_left (lt h1)]; exact h1, h2⟩
      · simp only [List.mem_singleton] at he
        subst he
        exact ⟨⟨req, a.serve req⟩, by simp, rfl⟩
    · dsimp only
      rw [len, below, below, ok.world, List.map_append, afterServing_append]
      exact changes_commute hS (changes_run hb) (allOf_changes ok.pastC _) _
    · intro i t ht hi
      simp only [List.map_append, List.mem_append, List.map_cons, List.map_nil, List.mem_singleton, not_or] at hi
      rcases get ht with ht | ⟨rfl, rfl⟩
      · rw [old _ _ ht, old _ _ ht]; exact ok.waiting i t ht hi.1
      · exact absurd rfl hi.2
    · intro pre i r post t he ht
      rcases split_last he with ⟨post', _, he'⟩ | ⟨_, he', hpre⟩
      · rcases get ht with ht | ⟨rfl, rfl⟩
        · rw [old _ _ ht, old _ _ ht]; exact ok.served pre i r post' t he' ht
        · exact absurd (by rw [he']; simp) notin
      · injection he' with h1 h2
        subst h1; subst h2
        rcases get ht with ht | ⟨_, rfl⟩
        · have := lt ht; omega
        · exact ⟨hb, upd_same .., upd_same .., fun w => blindly_out hb _ _⟩
  · refine ⟨[], upd past s.tasks.length id, upd fut s.tasks.length id, ?_⟩
    rw [List.append_nil]
    refine ⟨ok.app, ok.nodup, ?_, fun i => upd_changes ok.pastC .none _ i, fun i => upd_changes ok.futC .none _ i, ?_, ?_, ?_⟩
    · intro e he
      obtain ⟨t, h1, h2⟩ := ok.reqs e he
      exact ⟨t, by rw [List.getElem?_append_left (lt h1)]; exact h1, h2⟩
    · dsimp only
      rw [len, below, below, ok.world]
    · intro i t ht hi
      rcases get ht with ht | ⟨rfl, rfl⟩
      · rw [old _ _ ht, old _ _ ht]; exact ok.waiting i t ht hi
      · rw [upd_same, upd_same]; exact ⟨hw, rfl, fun w => ⟨rfl, rfl⟩⟩
    · intro pre i r post t he ht
      rcases get ht with ht | ⟨rfl, rfl⟩
      · rw [old _ _ ht, old _ _ ht]; exact ok.served pre i r post t he ht
      · exact absurd (by rw [he]; simp) notin

theorem main_step (hS : Commuting S) {a : App U σ} {w0 : σ} {s : Server U σ σ} {o : Order U}
    {past fut : Nat → σ → σ} (ok : MainOK S a w0 s o past fut) (i : Nat) :
    ∃ o' past' fut', MainOK S a w0 (s.step shared (.step i)) (o ++ o') past' fut' := by
  cases ht : s.tasks[i]? with
  | none => exact ⟨[], past, fut, by rw [List.append_nil]; simpa only [Server.step, ht] using ok⟩
  | some t =>
    have hlt : i < s.tasks.length := (List.getElem?_eq_some_iff.1 ht).1
    have get : ∀ {j t' x}, (s.tasks.set i { t with todo := x })[j]? = some t' →
        (j = i ∧ t' = { t with todo := x }) ∨ (j ≠ i ∧ s.tasks[j]? = some t') := by
      intro j t' x hj
      rw [List.getElem?_set] at hj
      split at hj
      · next he => subst he; exact .inl ⟨rfl, by simpa [hlt] using hj.symm⟩
      · next he => exact .inr ⟨fun e => he e.symm, hj⟩
    have reqs : ∀ (x : Act σ Sent), ∀ e ∈ o, ∃ t', (s.tasks.set i { t with todo := x })[e.1]? = some t' ∧ t'.req = e.2 := by
      intro x e he
      obtain ⟨t', h1, h2⟩ := ok.reqs e he
      by_cases h : i = e.1
      · subst h
        rw [ht] at h1; injection h1 with h1; subst h1
        exact ⟨{ t with todo := x }, by rw [List.getElem?_set]; simp [hlt], h2⟩
      · exact ⟨t', by rw [List.getElem?_set]; simp [h, h1], h2⟩
    -- the step of the server
    have stepped : ∀ {x : Act σ Sent} {w' : σ} {ls : List Line}, t.todo.stepOnce s.world = (x, w', ls) →
        s.step shared (.step i) = { s with tasks := s.tasks.set i { t with todo := x }, world := w', printed := s.printed ++ ls } := by
      intro x w' ls h
      simp only [Server.step, ht]; rw [h]
    by_cases hin : i ∈ o.map (·.1)
    · -- after the main step
      obtain ⟨e, he, rfl⟩ := List.mem_map.1 hin
      obtain ⟨pre, post, hsplit⟩ := List.append_of_mem he
      obtain ⟨hb, _, hfut, _⟩ := ok.served pre e.1 e.2 post t hsplit ht
      have key : ∃ (x' : Act σ Sent) (g : σ → σ) (ls : List Line), t.todo.stepOnce s.world = (x', g s.world, ls) ∧ Changes S g ∧
          Blindly S x' ∧ (∀ w w', (x'.run w).out = (t.todo.run w').out) ∧ (∀ w, (x'.run (g w)).world = (t.todo.run w).world) := by
        generalize t.todo = x at hb
        cases hb with
        | ret => exact ⟨.ret _, id, [], rfl, .none, .ret, fun _ _ => rfl, fun _ => rfl⟩
        | panic => exact ⟨.panic _, id, [], rfl, .none, .panic, fun _ _ => rfl, fun _ => rfl⟩
        | @step f k hf hk => exact ⟨k, f, [], rfl, .one hf, hk, fun w w' => blindly_out hk _ _, fun _ => rfl⟩
        | @print l k hk => exact ⟨k, id, [l], rfl, .none, hk, fun w w' => blindly_out hk _ _, fun _ => rfl⟩
      obtain ⟨x', g, ls, e1, hg, hb', ho, hw⟩ := key
      refine ⟨[], past, upd fut e.1 fun w => (x'.run w).world, ?_⟩
      rw [List.append_nil, stepped e1]
      refine ⟨ok.app, ok.nodup, reqs x', ok.pastC, fun j => upd_changes ok.futC (changes_run hb') _ j, ?_, ?_, ?_⟩
      · dsimp only
        rw [List.length_set, allOf_upd hS ok.futC (changes_run hb') hlt, ← ok.world,
          ← changes_commute hS hg (allOf_changes (upd_changes ok.futC .none e.1) _), hw]
        have := allOf_upd hS ok.futC (ok.futC e.1) hlt s.world
        rw [upd_self] at this
        rw [this, hfut]
      · intro j t' hj hi
        rcases get hj with ⟨rfl, rfl⟩ | ⟨hne, hj⟩
        · exact absurd hin hi
        · rw [upd_other hne]; exact ok.waiting j t' hj hi
      · intro pre j r post t' he hj
        rcases get hj with ⟨rfl, rfl⟩ | ⟨hne, hj⟩
        · obtain ⟨_, k2, _, k4⟩ := ok.served pre e.1 r post t he ht
          exact ⟨hb', k2, upd_same .., fun w => (ho w w).trans (k4 w)⟩
        · rw [upd_other hne]; exact ok.served pre j r post t' he hj
    · obtain ⟨k1, hfut, k2⟩ := ok.waiting i t ht hin
      -- before the main step
      have early : ∀ (x' : Act σ Sent) (g : σ → σ) (ls : List Line), t.todo.stepOnce s.world = (x', g s.world, ls) → Changes S g →
          Awaits S x' → (∀ w, (x'.run (g w)).out = (t.todo.run w).out ∧ (x'.run (g w)).world = (t.todo.run w).world) →
          ∃ o' past' fut', MainOK S a w0 (s.step shared (.step i)) (o ++ o') past' fut' := by
        intro x' g ls e1 hg hx hr
        refine ⟨[], upd past i (g ∘ past i), fut, ?_⟩
        rw [List.append_nil, stepped e1]
        have hgp : Changes S (g ∘ past i) := .two hg (ok.pastC i)
        refine ⟨ok.app, ok.nodup, reqs x', fun j => upd_changes ok.pastC hgp _ j, ok.futC, ?_, ?_, ?_⟩
        · dsimp only
          rw [List.length_set, allOf_upd hS ok.pastC hgp hlt, ← changes_commute hS hg (allOf_changes ok.futC _), ok.world]
          have := allOf_upd hS ok.pastC (ok.pastC i) hlt (afterServing a w0 (o.map (·.2)))
          rw [upd_self] at this
          rw [this]; rfl
        · intro j t' hj hi
          rcases get hj with ⟨rfl, rfl⟩ | ⟨hne, hj⟩
          · rw [upd_same]
            exact ⟨hx, hfut, fun w => ⟨(hr _).1.trans (k2 w).1, (hr _).2.trans (k2 w).2⟩⟩
          · rw [upd_other hne]; exact ok.waiting j t' hj hi
        · intro pre j r post t' he hj
          rcases get hj with ⟨rfl, rfl⟩ | ⟨hne, hj⟩
          · exact absurd (by rw [he]; simp) hin
          · rw [upd_other hne]; exact ok.served pre j r post t' he hj
      cases htodo : t.todo with
      | ret x => rw [htodo] at k1; cases k1
      | panic x => rw [htodo] at k1; cases k1
      | print l k =>
        refine early k id [l] (by rw [htodo]; rfl) .none (by rw [htodo] at k1; cases k1; assumption) (by rw [htodo]; exact fun w => ⟨rfl, rfl⟩)
      | step f k =>
        rw [htodo] at k1
        cases k1 with
        | @step _ k' hf hk => exact early k' f [] (by rw [htodo]; rfl) (.one hf) hk (by rw [htodo]; exact fun w => ⟨rfl, rfl⟩)
        | main hm hk =>
          rw [htodo] at k2
          have hf : ∀ {g : σ → σ}, Changes S g → ∀ w, f (g w) = g (f w) := fun hg w => changes_past (fun g h w => (hm g h w).1) hg w
          have hks : ∀ {g : σ → σ}, Changes S g → ∀ w, k (g w) = k w := fun hg w => changes_unseen (fun g h w => (hm g h w).2) hg w
          -- the world in which the request is served in the order
          generalize hV : afterServing a w0 (o.map (·.2)) = V at *
          have hworld := ok.world
          rw [hV] at hworld
          have hpast := allOf_upd hS ok.pastC (ok.pastC i) hlt V
          rw [upd_self] at hpast
          have hseen : k s.world = k (past i V) := by
            rw [← hks (allOf_changes ok.futC s.tasks.length) s.world, hworld, hpast, hks (ok.pastC i),
              hks (allOf_changes (upd_changes ok.pastC .none i) _), hks (ok.pastC i)]
          have hserve : ((a.serve t.req).run V).world = ((k s.world).run (f (past i V))).world := by
            rw [← (k2 V).2, hseen]; rfl
          have hout : ((a.serve t.req).run V).out = ((k s.world).run (f (past i V))).out := by
            rw [← (k2 V).1, hseen]; rfl
          have hrun := changes_run (hk s.world)
          refine ⟨[(i, t.req)], upd past i id, upd fut i fun w => ((k s.world).run w).world, ?_⟩
          rw [stepped (x := k s.world) (w' := f s.world) (ls := []) (by rw [htodo]; rfl)]
          refine ⟨ok.app, ?_, ?_, fun j => upd_changes ok.pastC .none _ j, fun j => upd_changes ok.futC hrun _ j, ?_, ?_, ?_⟩
          · rw [List.map_append, List.nodup_append]
            exact ⟨ok.nodup, by simp, fun x hx y hy => by
              simp only [List.map_cons, List.map_nil, List.mem_singleton] at hy
              subst hy; intro e; subst e; exact hin hx⟩
          · intro e he
            rcases List.mem_append.1 he with he | he
            · exact reqs _ e he
            · simp only [List.mem_singleton] at he
              subst he
              exact ⟨{ t with todo := k s.world }, by rw [List.getElem?_set]; simp [hlt], rfl⟩
          · dsimp only
            rw [List.length_set, allOf_upd hS ok.futC hrun hlt]
            have : upd fut i id = fut := by rw [← hfut, upd_self]
            rw [this, ← hf (allOf_changes ok.futC _), hworld, hpast, List.map_append, afterServing_append, hV]
            show _ = allOf (upd past i id) _ ((a.serve t.req).run V).world
            rw [hserve, ← changes_commute hS (allOf_changes (upd_changes ok.pastC .none i) _) (ok.pastC i)]
            rw [hf (allOf_changes (upd_changes ok.pastC .none i) _)]
            exact changes_commute hS hrun (allOf_changes (upd_changes ok.pastC .none i) _) _
          · intro j t' hj hi
            simp only [List.map_append, List.mem_append, List.map_cons, List.map_nil, List.mem_singleton, not_or] at hi
            rcases get hj with ⟨rfl, rfl⟩ | ⟨hne, hj⟩
            · exact absurd rfl hi.2
            · rw [upd_other hne, upd_other hne]; exact ok.waiting j t' hj hi.1
          · intro pre j r post t' he hj
            rcases split_last he with ⟨post', _, he'⟩ | ⟨_, he', hpre⟩
            · rcases get hj with ⟨rfl, rfl⟩ | ⟨hne, hj⟩
              · exact absurd (by rw [he']; simp) hin
              · rw [upd_other hne, upd_other hne]; exact ok.served pre j r post' t' he' hj
            · injection he' with h1 h2
              subst h1; subst h2
              rcases get hj with ⟨_, rfl⟩ | ⟨hne, _⟩
              · refine ⟨hk _, upd_same .., upd_same .., fun w => ?_⟩
                rw [answerAfter, hpre, hV, hout]
                exact blindly_out (hk _) _ _
              · exact absurd rfl hne

theorem main_run (hS : Commuting S) {a : App U σ} (ha : ∀ req, Mainly S (a.serve req)) {w0 : σ} (es : List (Event U)) {s : Server U σ σ}
    {o : Order U} {past fut : Nat → σ → σ} (ok : MainOK S a w0 s o past fut) :
    ∃ o', (∃ past' fut', MainOK S a w0 (s.run shared es) (o ++ o') past' fut') ∧
      ∀ es1 es2, es = es1 ++ es2 → ∃ o1 o2, o' = o1 ++ o2 ∧ ∃ past' fut', MainOK S a w0 (s.run shared es1) (o ++ o1) past' fut' := by
  induction es generalizing s o past fut with
  | nil =>
    refine ⟨[], ⟨past, fut, by rw [List.append_nil]; exact ok⟩, fun es1 es2 he => ⟨[], [], rfl, past, fut, ?_⟩⟩
    rw [(List.append_eq_nil_iff.1 he.symm).1, List.append_nil]
    exact ok
  | cons e es ih =>
    obtain ⟨o1, p1, f1, ok1⟩ : ∃ o1 p1 f1, MainOK S a w0 (s.step shared e) (o ++ o1) p1 f1 := by
      cases e with
      | arrive req => exact main_arrive hS ha ok req
      | step i => exact main_step hS ok i
    obtain ⟨o2, ⟨p2, f2, ok2⟩, hs⟩ := ih ok1
    refine ⟨o1 ++ o2, ⟨p2, f2, by rw [← List.append_assoc]; exact ok2⟩, fun es1 es2 he => ?_⟩
    cases es1 with
    | nil => exact ⟨[], o1 ++ o2, rfl, past, fut, by rw [List.append_nil]; exact ok⟩
    | cons e' es1 =>
      injection he with h1 h2
      subst h1
      obtain ⟨o3, o4, h3, p3, f3, ok3⟩ := hs es1 es2 h2
      exact ⟨o1 ++ o3, o4, by rw [h3, List.append_assoc], p3, f3, by rw [← List.append_assoc]; exact ok3⟩

/-- **C103** for requests with any number of steps of which one matters (`Mainly`: the others change, in ways that commute,
what neither they nor the main steps look at, such as counters of requests and answers): whatever requests arrive and however
their steps are interleaved, there is an order of some of the requests, among them all that are finished, such that each
finished request has the answer that it gets when they are served one after the other in this order, each from start to end;
when all requests are finished, the world is the one that this leaves.  In this order a request that was finished before another
one was received comes before it.

The full claim, without the assumptions, is false (`C103_false`). -/
theorem C103_main_step_partial (hS : Commuting S) {a : App U σ} (ha : ∀ req, Mainly S (a.serve req)) (w0 : σ) (es : List (Event U)) :
    let s := (startUp a w0).run shared es
    ∃ o : Order U, o.Of (arrivals es) ∧
      ((∀ t ∈ s.tasks, ∃ out, Outcome t.todo out) → s.world = afterServing a w0 (o.map (·.2))) ∧
      (∀ i t out, s.tasks[i]? = some t → Outcome t.todo out → (i, t.req) ∈ o) ∧
      (∀ pre i req post, o = pre ++ (i, req) :: post → ∀ t out, s.tasks[i]? = some t → Outcome t.todo out →
        out = answerAfter a w0 (pre.map (·.2)) req) ∧
      ∀ es1 es2, es = es1 ++ es2 → ∀ i t out, ((startUp a w0).run shared es1).tasks[i]? = some t → Outcome t.todo out →
        ∀ j req, (j, req) ∈ o → (arrivals es1).length ≤ j → o.Before i j := by
  intro s
  obtain ⟨o, ⟨past, fut, ok⟩, hs⟩ := main_run hS ha es (s := startUp a w0) (o := []) (w0 := w0) (past := fun _ => id) (fut := fun _ => id)
    ⟨rfl, by simp, nofun, fun _ => .none, fun _ => .none, rfl, fun i t ht => by simp [startUp] at ht, fun pre i r post t he => by simp at he⟩
  rw [List.nil_append] at ok
  have inOrder : ∀ {es1 : List (Event U)} {o1 : Order U} {p1 f1 : Nat → σ → σ}, MainOK S a w0 ((startUp a w0).run shared es1) o1 p1 f1 →
      ∀ i t out, ((startUp a w0).run shared es1).tasks[i]? = some t → Outcome t.todo out → (i, t.req) ∈ o1 := by
    intro es1 o1 p1 f1 ok1 i t out ht ho
    by_cases hin : i ∈ o1.map (·.1)
    · obtain ⟨e, he, rfl⟩ := List.mem_map.1 hin
      obtain ⟨t', h1, h2⟩ := ok1.reqs e he
      rw [ht] at h1; injection h1 with h1; subst h1
      rw [h2]; exact he
    · exact (awaits_not_done (ok1.waiting i t ht hin).1 ho).elim
  refine ⟨o, ⟨ok.nodup, fun e he => ?_⟩, fun hall => ?_, inOrder ok, ?_, ?_⟩
  · obtain ⟨t, h1, h2⟩ := ok.reqs e he
    rw [task_req h1, h2]
  · have none : ∀ i, i < s.tasks.length → (∀ w, fut i w = w) ∧ ∀ w, past i w = w := by
      intro i hi
      have ht : s.tasks[i]? = some s.tasks[i] := List.getElem?_eq_getElem hi
      obtain ⟨out, ho⟩ := hall _ (List.getElem_mem hi)
      obtain ⟨pre, post, hsplit⟩ := List.append_of_mem (inOrder ok i _ out ht ho)
      obtain ⟨_, h2, h3, _⟩ := ok.served pre i _ post _ hsplit ht
      exact ⟨fun w => by rw [h3]; exact still_run (outcome_run ho w).1 w, fun w => by rw [h2]; rfl⟩
    have := ok.world
    rwa [allOf_none fun i hi => (none i hi).1, allOf_none fun i hi => (none i hi).2] at this
  · intro pre i req post he t out ht ho
    obtain ⟨_, _, _, h2⟩ := ok.served pre i req post t he ht
    obtain ⟨t', h3, h4⟩ := ok.reqs (i, req) (by rw [he]; simp)
    rw [show ((i, req) : Nat × Request U).1 = i from rfl, ht] at h3
    injection h3 with h3
    subst h3
    rw [← (outcome_run ho w0).2, h2 w0, h4]
  · intro es1 es2 he i t out ht ho j req hj hle
    obtain ⟨o1, o2, ho12, p1, f1, ok1⟩ := hs es1 es2 he
    rw [List.nil_append] at ok1
    have hi := inOrder ok1 i t out ht ho
    have hj2 : (j, req) ∈ o2 := by
      rw [ho12] at hj
      rcases List.mem_append.1 hj with hj | hj
      · obtain ⟨t', h1, _⟩ := ok1.reqs _ hj
        have := (List.getElem?_eq_some_iff.1 h1).1
        rw [tasks_length] at this
        simp only at this
        omega
      · exact hj
    obtain ⟨x, y, h1⟩ := List.append_of_mem hi
    obtain ⟨x', y', h2⟩ := List.append_of_mem hj2
    exact ⟨x, y ++ x', y', t.req, req, by rw [ho12, h1, h2]; simp⟩

/-- **C103**, for registrations: it is enough that every handler has at most one main step and that this stays so around every
middleware.  The registrations are made by any calls, with paths of any form, nested to any depth, and may panic and be caught. -/
theorem C103_main_step_registrations_partial (hS : Commuting S) {a : App U σ} {cs : List (Reg (Middleware U σ) (Handler U σ))}
    (ha : a.router = runCaught cs Router.new)
    (hh : ∀ x ∈ cs, ∀ ss m h, ⟨ss, .route m h⟩ ∈ callLog x → ∀ c, Mainly S (h c))
    (hm : ∀ x ∈ cs, ∀ ss mw, ⟨ss, .middleware mw⟩ ∈ callLog x → KeepsMainly S mw) (w0 : σ) (es : List (Event U)) :
    let s := (startUp a w0).run shared es
    ∃ o : Order U, o.Of (arrivals es) ∧
      ((∀ t ∈ s.tasks, ∃ out, Outcome t.todo out) → s.world = afterServing a w0 (o.map (·.2))) ∧
      (∀ i t out, s.tasks[i]? = some t → Outcome t.todo out → (i, t.req) ∈ o) ∧
      (∀ pre i req post, o = pre ++ (i, req) :: post → ∀ t out, s.tasks[i]? = some t → Outcome t.todo out →
        out = answerAfter a w0 (pre.map (·.2)) req) ∧
      ∀ es1 es2, es = es1 ++ es2 → ∀ i t out, ((startUp a w0).run shared es1).tasks[i]? = some t → Outcome t.todo out →
        ∀ j req, (j, req) ∈ o → (arrivals es1).length ≤ j → o.Before i j :=
  C103_main_step_partial hS (mainly_serve ha hh hm) w0 es

/-- The logger keeps it so, whatever the changes. -/
theorem logger_keepsMainly (S : (σ → σ) → Prop) : KeepsMainly S (logger : Middleware U σ) := by
  intro next c h
  refine .print (.print (mainly_bind (h _) fun r => ?_))
  cases r with
  | error e => exact .print .ret
  | ok after =>
    dsimp only
    cases after.response with
    | none => exact .panic
    | some r => exact .print .ret

/-! ### Examples -/

/-- The world: how often the middleware has counted, and the number of the next ticket. -/
abbrev Desk := Nat × Nat

/-- The counter of the middleware goes up. -/
def Counting (f : Desk → Desk) : Prop := ∃ n, ∀ w, f w = (w.1 + n, w.2)

theorem counting_commutes : Commuting Counting := by
  rintro f g ⟨m, hf⟩ ⟨n, hg⟩ w
  rw [hf, hg, hg, hf]; exact Prod.ext (Nat.add_right_comm ..) rfl

/-- A middleware that counts before and after. -/
def meter : Middleware demoU Desk := fun c next =>
  .step (fun w => (w.1 + 1, w.2)) fun _ => (next c).bind fun r => .step (fun w => (w.1 + 10, w.2)) fun _ => .ret r

theorem meter_keeps : KeepsMainly Counting meter := fun _ c h =>
  .step ⟨1, fun _ => rfl⟩ (mainly_bind (h c) fun _ => .step ⟨10, fun _ => rfl⟩ .ret)

/-- A page that gives out the tickets, each number once. -/
def ticketDesk : Handler demoU Desk := fun c => .step (fun w => (w.1, w.2 + 1)) fun w => .ret (c.build (.str (Nat.repr w.2).toList)).ok

theorem ticketDesk_mainly (c : Context demoU) : Mainly Counting (ticketDesk c) :=
  .main (by rintro g ⟨n, hg⟩ w; rw [hg, hg]; exact ⟨rfl, rfl⟩) fun _ => .ret

/-- The logger, the counting middleware and the page. -/
def deskCalls : List (Reg (Middleware demoU Desk) (Handler demoU Desk)) := [.useService logger, .useService meter, .get (s "/ticket") ticketDesk]

/-- The application of these calls. -/
def deskApp : App demoU Desk := ⟨runCaught deskCalls Router.new, none⟩

/-- The hypotheses are met by the application, with three steps for each request. -/
theorem deskApp_mainly (req : Request demoU) : Mainly Counting (deskApp.serve req) := by
  refine mainly_serve (a := deskApp) (cs := deskCalls) rfl ?_ ?_ req
  · intro x hx ss m h he c
    simp only [deskCalls, List.mem_cons, List.not_mem_nil, or_false] at hx
    rcases hx with rfl | rfl | rfl
    · simp [callLog, logReg] at he
    · simp [callLog, logReg] at he
    · simp [callLog, logReg] at he
      rw [he.2.2]; exact ticketDesk_mainly c
  · intro x hx ss mw he
    simp only [deskCalls, List.mem_cons, List.not_mem_nil, or_false] at hx
    rcases hx with rfl | rfl | rfl
    · simp [callLog, logReg] at he
      rw [he.2]; exact logger_keepsMainly _
    · simp [callLog, logReg] at he
      rw [he.2]; exact meter_keeps
    · simp [callLog, logReg] at he

/-- However the steps of the requests are interleaved, a finished request has the ticket that it gets in some order. -/
example (es : List (Event demoU)) (i : Nat) (t : Task demoU Desk) (out : Except Crash Sent)
    (ht : ((startUp deskApp (0, 7)).run shared es).tasks[i]? = some t) (ho : Outcome t.todo out) :
    ∃ before : List (Request demoU), out = answerAfter deskApp (0, 7) before t.req := by
  obtain ⟨o, _, _, h3, h4, _⟩ := C103_main_step_partial counting_commutes deskApp_mainly (0, 7) es
  obtain ⟨pre, post, he⟩ := List.append_of_mem (h3 i t out ht ho)
  exact ⟨_, h4 pre i t.req post he t out ht ho⟩

/-- Two requests whose steps are interleaved; the second one gets the first ticket. -/
example : let es : List (Event demoU) := [.arrive (demoReq .get "/ticket"), .arrive (demoReq .get "/ticket")] ++
      List.replicate 4 (.step 1) ++ List.replicate 6 (.step 0) ++ List.replicate 4 (.step 1)
    let s := (startUp deskApp (0, 7)).run shared es
    s.world = (22, 9) ∧ (s.tasks.map fun t => match t.todo with | .ret sent => sent.body.bytes | _ => []) = [utf8 "8".toList, utf8 "7".toList] ∧
    afterServing deskApp (0, 7) [demoReq .get "/ticket", demoReq .get "/ticket"] = (22, 9) := by
  decide +kernel

end Obsidian.Props
