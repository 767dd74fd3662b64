import Verif.Spec.Provide
import Verif.Props.Guard
import Verif.Props.State
import Verif.Props.Chain

/- C110: what a middleware puts into the context. -/
namespace Obsidian.Props
open Obsidian Spec
variable {U : Univ} {σ : Type}

theorem execNext_kept {D : Context U → Prop} {h h' : Handler U σ} (hh : AgreeOn D h h')
    (ch : List (Middleware U σ)) (hch : ∀ m ∈ ch, Preserves D m) : AgreeOn D (execNext h ch) (execNext h' ch) := by
  induction ch with
  | nil => exact hh
  | cons m ch ih =>
    intro c hc
    rw [execNext, execNext]
    exact hch m (by simp) c hc _ _ (ih fun m hm => hch m (by simp [hm]))

theorem execNext_provided {D : Context U → Prop} {h h' : Handler U σ} (hh : AgreeOn D h h') {g : Middleware U σ}
    (hg : Provides D g) (ch : List (Middleware U σ)) (hch : ∀ m ∈ ch, Preserves D m) (hmem : g ∈ ch) (c : Context U) :
    execNext h ch c = execNext h' ch c := by
  induction ch generalizing c with
  | nil => cases hmem
  | cons m ch ih =>
    have hch' : ∀ m ∈ ch, Preserves D m := fun m hm => hch m (by simp [hm])
    rw [execNext, execNext]
    by_cases hm : g ∈ ch
    · rw [show execNext h ch = execNext h' ch from funext (ih hch' hm)]
    · have : g = m := by simpa [hm] using hmem
      subst this
      exact hg c _ _ (execNext_kept hh ch hch')

theorem each_last {α β : Type} {R : α → β → Prop} {xs : List α} {ys : List β} (h : Each R xs ys) {x : α} {y : β}
    (hx : xs.getLast? = some x) (hy : ys.getLast? = some y) : R x y := by
  induction h with
  | nil => cases hx
  | @cons a b as bs h h' ih =>
    cases h' with
    | nil => cases hx; cases hy; exact h
    | cons h1 h2 =>
      rw [List.getLast?_cons_cons] at hx hy
      exact ih hx hy

theorem each_picked {α β : Type} {R : α → α → Prop} {S : β → β → Prop} {f : α → Option β}
    (hf : ∀ a a', R a a' → Both S (f a) (f a')) {xs ys : List α} (h : Each R xs ys) :
    Each S (xs.filterMap f) (ys.filterMap f) := by
  induction h with
  | nil => exact .nil
  | @cons a b as bs h _ ih =>
    rw [List.filterMap_cons, List.filterMap_cons]
    have := hf a b h
    cases h1 : f a <;> cases h2 : f b <;> rw [h1, h2] at this <;> cases this
    · exact ih
    · next h => exact .cons h ih

theorem agree_same {Q : List Str} {D : Context U → Prop} {L L' : Log (Middleware U σ) (Handler U σ)}
    (h : AgreeBelow Q D L L') : SameButBelow Q L L' := by
  induction h with
  | nil => exact .nil
  | cons h _ ih =>
    refine .cons ?_ ih
    rcases h with h | ⟨h0, m, h, h', h1, h2, _⟩
    · exact .inl h
    · exact .inr ⟨h0, m, h, h', h1, h2⟩

theorem agree_route {Q : List Str} {D : Context U → Prop} {L L' : Log (Middleware U σ) (Handler U σ)}
    (h : AgreeBelow Q D L L') {q : Str} {m : Method} {x x' : Handler U σ} (hx : routeAt L q m = some x)
    (hx' : routeAt L' q m = some x') : AgreeOn D x x' := by
  rw [routeAt] at hx hx'
  refine each_last (each_picked (S := AgreeOn D) ?_ h) hx hx'
  rintro e e' (rfl | ⟨_, m', k, k', h1, h2, h3⟩)
  · cases (if e.isAt q = true then _ else none : Option (Handler U σ)) with
    | none => exact .none
    | some k => exact .some fun _ _ => rfl
  · rw [h1, h2]
    by_cases h4 : flat e.segs = q
    · by_cases h5 : m' = m
      · simp only [Entry.isAt, h4, h5, decide_true, if_true]; exact .some h3
      · simp only [Entry.isAt, h4, h5, decide_true, if_true, if_false]; exact .none
    · simp only [Entry.isAt, h4, decide_false]; exact .none

theorem agree_serve {prog prog' : List (Reg (Middleware U σ) (Handler U σ))} {Q : List Str} {D : Context U → Prop}
    (hsame : AgreeBelow Q D (logOf prog) (logOf prog')) (hc : CleanRegs prog) (hc' : CleanRegs prog')
    {a a' : App U σ} (hb : build prog = (a.router, none)) (hb' : build prog' = (a'.router, none))
    (hst : a'.appState = a.appState) {req : Request U}
    (hrun : ∀ q h h', (∃ e ∈ logOf prog, flat e.segs = q ∧ Q <+: e.segs) → AgreeOn D h h' → ∀ c, Starts a req c →
      chainFor a.router req.path = some (Spec.chain (logOf prog) q) →
      execNext h (Spec.chain (logOf prog) q) c = execNext h' (Spec.chain (logOf prog) q) c) :
    a'.serve req = a.serve req := by
  have hr := build_rep hc hb
  have hr' := build_rep hc' hb'
  have hbare := same_bare (agree_same hsame)
  have hlook : lookup (logOf prog') req.path = lookup (logOf prog) req.path := by
    refine lookup_congr (fun p => ?_) (fun p => ?_) (fun p => ?_) _
    · rw [← paramAt_bare, hbare, paramAt_bare]
    · rw [← known_bare, hbare, known_bare]
    · rw [← hasEntry_bare, hbare, hasEntry_bare]
  cases hl : lookup (logOf prog) req.path with
  | none =>
    have hl' := hlook.trans hl
    rw [serve_none ((hr.obs_none hl).2.1 _), serve_none ((hr'.obs_none hl').2.1 _)]
  | some qb =>
    obtain ⟨q, b⟩ := qb
    have hl' := hlook.trans hl
    obtain ⟨_, h2, h3, h4⟩ := hr.obs_some hl
    obtain ⟨_, h2', h3', h4'⟩ := hr'.obs_some hl'
    have hchain : Spec.chain (logOf prog') q = Spec.chain (logOf prog) q :=
      upTo_mws (fun q => by rw [← mwsAt_bare, hbare, mwsAt_bare]) q
    have hpar : ∀ x, paramFor a.router req.path x = paramFor a'.router req.path x := fun x => by rw [h4, h4']
    have hrb : (routeAt (logOf prog') q req.method).map (fun _ => ()) =
        (routeAt (logOf prog) q req.method).map fun _ => () := by
      rw [← routeAt_bare, hbare, routeAt_bare]
    cases hh : routeAt (logOf prog) q req.method with
    | none =>
      rw [hh] at hrb
      have hh' : routeAt (logOf prog') q req.method = none := by simpa using hrb
      rw [serve_none (a := a) (by rw [h2, hh]), serve_none (a := a') (by rw [h2', hh'])]
    | some h =>
      obtain ⟨h', hh'⟩ : ∃ h', routeAt (logOf prog') q req.method = some h' := by
        rw [hh] at hrb
        cases hx : routeAt (logOf prog') q req.method with
        | none => rw [hx] at hrb; cases hrb
        | some h' => exact ⟨h', rfl⟩
      obtain ⟨ch, c, k1, k2, k3⟩ := serve_some (a := a) (req := req) (by rw [h2, hh])
      obtain ⟨ch', c', k1', k2', k3'⟩ := serve_some (a := a') (req := req) (by rw [h2', hh'])
      have hcc : c = c' := (k2.congr hpar hst.symm).unique k2'
      rw [h3] at k1; rw [h3', hchain] at k1'
      injection k1 with k1; injection k1' with k1'
      subst k1 k1' hcc
      rw [k3, k3']
      by_cases hbelow : ∃ e ∈ logOf prog, flat e.segs = q ∧ Q <+: e.segs
      · rw [hrun q h h' hbelow (agree_route hsame hh hh') c k2 h3]
      · have := same_route (agree_same hsame) (fun e he h1 h2 => hbelow ⟨e, he, h1, h2⟩) req.method
        rw [hh, hh'] at this
        cases this; rfl

/-- **C110.** If a middleware for a path sees to it that a condition holds for what comes after it, and no
middleware that can be called after it undoes it, then the handlers registered at the path or below it are only ever called with
contexts for which it holds: with other handlers in their places that do the same there, the application
does the same with every request. -/
theorem C110_provided {prog prog' : List (Reg (Middleware U σ) (Handler U σ))} {Q : List Str}
    {D : Context U → Prop} (hsame : AgreeBelow Q D (logOf prog) (logOf prog')) (hc : CleanRegs prog)
    (hc' : CleanRegs prog') {a a' : App U σ} (hb : build prog = (a.router, none))
    (hb' : build prog' = (a'.router, none)) (hst : a'.appState = a.appState) {g : Middleware U σ}
    (hg : ⟨Q, .middleware g⟩ ∈ logOf prog) (hprov : Provides D g)
    (hkeep : ∀ e ∈ logOf prog, ∀ m, e.what = .middleware m → CanFollow Q e.segs → Preserves D m) (req : Request U) :
    a'.serve req = a.serve req := by
  refine agree_serve hsame hc hc' hb hb' hst fun q h h' hq hh c _ h3 => ?_
  obtain ⟨e, he, rfl, t, hQ⟩ := hq
  have hat : g ∈ mwsAt (logOf prog) (flat Q) := mem_mwsAt.2 ⟨_, hg, rfl, rfl⟩
  by_cases h0 : flat Q = []
  · refine execNext_provided hh hprov _ (fun m hm => ?_) (mem_chain_of hg ⟨t, hQ⟩) c
    obtain ⟨e, he, hwm⟩ := chain_logged hc hb h3 m hm
    exact hkeep e he m hwm (.inl h0)
  · have hsplit : Spec.chain (logOf prog) (flat e.segs) =
        (mwsAt (logOf prog) [] ++ upTo (logOf prog) (flat Q) (flat t)) ++ upTo (logOf prog) [] (flat Q) := by
      rw [Spec.chain, ← hQ, flat_append, upTo_append, List.nil_append, List.append_assoc]
    have hmem : g ∈ upTo (logOf prog) [] (flat Q) := mem_upTo.2 ⟨flat Q, [], by simp, h0, by rw [List.nil_append]; exact hat⟩
    have hfun : execNext h (upTo (logOf prog) [] (flat Q)) = execNext h' (upTo (logOf prog) [] (flat Q)) := by
      funext c
      refine execNext_provided hh hprov _ (fun m hm => ?_) hmem c
      obtain ⟨u, v, h1, h2, h3⟩ := mem_upTo.1 hm
      obtain ⟨e', he', h4, h5⟩ := mem_mwsAt.1 h3
      rw [List.nil_append] at h4
      exact hkeep e' he' m h5 (.inr ⟨h4 ▸ h2, h4 ▸ h1 ▸ List.prefix_append _ _⟩)
    rw [hsplit, execNext_append h, execNext_append h', hfun]

/-- **C110** for what is there from the beginning, like the state of the application: if no middleware
undoes the condition, all handlers are only called with contexts for which it holds. -/
theorem C110_from_the_start {prog prog' : List (Reg (Middleware U σ) (Handler U σ))}
    {D : Context U → Prop} (hsame : AgreeBelow [] D (logOf prog) (logOf prog')) (hc : CleanRegs prog)
    (hc' : CleanRegs prog') {a a' : App U σ} (hb : build prog = (a.router, none))
    (hb' : build prog' = (a'.router, none)) (hst : a'.appState = a.appState)
    (hkeep : ∀ e ∈ logOf prog, ∀ m, e.what = .middleware m → Preserves D m)
    {req : Request U} (hD : ∀ c, Starts a req c → D c) : a'.serve req = a.serve req := by
  refine agree_serve hsame hc hc' hb hb' hst fun q h h' _ hh c hs h3 => ?_
  refine execNext_kept hh _ (fun m hm => ?_) c (hD c hs)
  obtain ⟨e, he, hwm⟩ := chain_logged hc hb h3 m hm
  exact hkeep e he m hwm

/-- **C110** for the state of the application: whoever asks for it finds it, as long as every middleware
leaves what is there alone. -/
theorem C110_app_state {prog prog' : List (Reg (Middleware U σ) (Handler U σ))} {t : U.Ty} {v : U.Val t}
    (hsame : AgreeBelow [] (fun c => c.get t = some v) (logOf prog) (logOf prog')) (hc : CleanRegs prog)
    (hc' : CleanRegs prog') {a a' : App U σ} (hb : build prog = (a.router, none))
    (hb' : build prog' = (a'.router, none)) (ha : a.appState = some ⟨t, v⟩) (ha' : a'.appState = some ⟨t, v⟩)
    (hkeep : ∀ e ∈ logOf prog, ∀ m, e.what = .middleware m → Preserves (fun c => c.get t = some v) m)
    (req : Request U) : a'.serve req = a.serve req :=
  C110_from_the_start hsame hc hc' hb hb' (ha'.trans ha.symm) hkeep fun c hs => by
    rw [Context.get, hs.state t v ha]; exact ext_get_insert _ _ _

theorem has_add (t t' : U.Ty) (v : U.Val t') (c : Context U) (h : t = t' ∨ Has t c) : Has t (c.add t' v) := by
  by_cases ht : t = t'
  · subst ht; exact ⟨v, (C33_get_add c t v).1⟩
  · obtain ⟨w, hw⟩ := h.resolve_left ht
    exact ⟨w, by rw [(C33_get_add c t' v).2 t ht, hw]⟩

/-- Adding a value provides it. -/
theorem C110_adding_provides (t : U.Ty) (value : Context U → U.Val t) :
    Provides (Has t) (adding t value : Middleware U σ) := fun c _ _ h => h _ (has_add t t _ c (.inl rfl))

/-- Adding a value of this or another type takes nothing away. -/
theorem C110_adding_keeps (t t' : U.Ty) (value : Context U → U.Val t') :
    Preserves (Has t) (adding t' value : Middleware U σ) := fun c hc _ _ h => h _ (has_add t t' _ c (.inr hc))

/-- Neither does the logger. -/
theorem C110_logger_keeps (t : U.Ty) : Preserves (Has t) (logger : Middleware U σ) := fun c hc _ _ h => by
  simp only [logger, h c hc]

/-- Handlers that use a value agree where it is there, whatever they do otherwise. -/
theorem C110_needing_agree (t : U.Ty) (h : U.Val t → Handler U σ) (o o' : Handler U σ) :
    AgreeOn (Has t) (needing t h o) (needing t h o') := fun c ⟨v, hv⟩ => by simp only [needing, hv]

/-- A handler that answers with a number from the context. -/
def tellNumber (otherwise : Handler demoU W) : Handler demoU W :=
  needing (U := demoU) true (fun n : Nat => fun c => .ret (c.build (.status (200 + n))).ok) otherwise

/-- An application with middlewares that add data. -/
def addingProg (h : Handler demoU W) : List (Reg (Middleware demoU W) (Handler demoU W)) :=
  [.useService logger, .useServiceTo (s "/admin") (adding (U := demoU) true (fun _ => (7 : Nat))),
   .useServiceTo (s "/admin/users") (adding (U := demoU) true (fun _ => (9 : Nat))), .get (s "/admin/users") h,
   .get (s "/hello") (sayHandler 1 "hi")]

theorem addingProg_log (h : Handler demoU W) : logOf (addingProg h) =
    [⟨[], .middleware logger⟩, ⟨[s "admin"], .middleware (adding (U := demoU) true (fun _ => (7 : Nat)))⟩,
     ⟨[s "admin", s "users"], .middleware (adding (U := demoU) true (fun _ => (9 : Nat)))⟩,
     ⟨[s "admin", s "users"], .route .get h⟩, ⟨[s "hello"], .route .get (sayHandler 1 "hi")⟩] := by
  have h1 : segments (s "/admin") = [s "admin"] := by decide +kernel
  have h2 : segments (s "/admin/users") = [s "admin", s "users"] := by decide +kernel
  have h3 : segments (s "/hello") = [s "hello"] := by decide +kernel
  simp only [addingProg, logOf, logRegs, logReg, h1, h2, h3, List.nil_append, List.cons_append]
  simp

theorem addingProg_ok (h : Handler demoU W) : (build (addingProg h)).2 = none := by
  have h1 := (C82_renamed (M := Unit) (H := Bool) (fun _ => tickMiddleware 5)
    (fun b => if b then h else sayHandler 1 "hi")
    [.useService (), .useServiceTo (s "/admin") (), .useServiceTo (s "/admin/users") (),
     .get (s "/admin/users") true, .get (s "/hello") false]).1
  have h2 := (C82_routing_blind (RM := fun _ _ => True) (RH := fun h h' => h' = h) (prog := addingProg h)
    (prog' := mapCalls (fun _ => tickMiddleware 5) (fun b => if b then h else sayHandler 1 "hi")
      [.useService (), .useServiceTo (s "/admin") (), .useServiceTo (s "/admin/users") (),
       .get (s "/admin/users") true, .get (s "/hello") false])
    (.cons (.useService trivial) (.cons (.useServiceTo trivial) (.cons (.useServiceTo trivial)
      (.cons (.get rfl) (.cons (.get rfl) .nil)))))).1
  rw [← h2, h1]; decide +kernel

theorem addingProg_clean (h : Handler demoU W) : CleanRegs (addingProg h) := by
  simp only [addingProg, CleanRegs, CleanReg, and_true, true_and]; decide +kernel

/-- The application. -/
def addingApp (h : Handler demoU W) : App demoU W := ⟨(build (addingProg h)).1, none⟩

theorem addingApp_build (h : Handler demoU W) : build (addingProg h) = ((addingApp h).router, none) := by
  simp only [addingApp]; exact build_eq (addingProg_ok h)

theorem addingApp_state (h : Handler demoU W) : (addingApp h).appState = none := by rw [addingApp]

/-- C110: what the handler would do without the number makes no difference. -/
example (o o' : Handler demoU W) (req : Request demoU) :
    (addingApp (tellNumber o')).serve req = (addingApp (tellNumber o)).serve req := by
  refine C110_provided (Q := [s "admin"]) (D := Has (U := demoU) true) ?_ (addingProg_clean _) (addingProg_clean _)
    (addingApp_build _) (addingApp_build _) (by rw [addingApp_state, addingApp_state])
    (g := adding (U := demoU) true (fun _ => (7 : Nat))) ?_ (C110_adding_provides _ _) ?_ req
  · rw [addingProg_log, addingProg_log]
    exact .cons (.inl rfl) (.cons (.inl rfl) (.cons (.inl rfl)
      (.cons (.inr ⟨⟨[s "users"], rfl⟩, _, _, _, rfl, rfl, C110_needing_agree _ _ _ _⟩) (.cons (.inl rfl) .nil))))
  · rw [addingProg_log]; simp
  · intro e he m hm _
    rw [addingProg_log] at he
    simp only [List.mem_cons, List.not_mem_nil, or_false] at he
    rcases he with rfl | rfl | rfl | rfl | rfl
    · cases hm; exact C110_logger_keeps _
    · cases hm; exact C110_adding_keeps _ _ _
    · cases hm; exact C110_adding_keeps _ _ _
    · cases hm
    · cases hm

/-- C110: the handler finds the number of the outer path, although a middleware for the inner path adds
another one: whatever it would do with other numbers makes no difference. -/
example (h h' : Handler demoU W) (hh : AgreeOn (fun c => c.get (U := demoU) true = some (7 : Nat)) h h')
    (req : Request demoU) : (addingApp h').serve req = (addingApp h).serve req := by
  refine C110_provided (Q := [s "admin"]) (D := fun c => c.get (U := demoU) true = some (7 : Nat)) ?_
    (addingProg_clean _) (addingProg_clean _)
    (addingApp_build _) (addingApp_build _) (by rw [addingApp_state, addingApp_state])
    (g := adding (U := demoU) true (fun _ => (7 : Nat))) ?_ (fun c _ _ h => h _ (C33_get_add (U := demoU) c true _).1) ?_ req
  · rw [addingProg_log, addingProg_log]
    exact .cons (.inl rfl) (.cons (.inl rfl) (.cons (.inl rfl)
      (.cons (.inr ⟨⟨[s "users"], rfl⟩, _, _, _, rfl, rfl, hh⟩) (.cons (.inl rfl) .nil))))
  · rw [addingProg_log]; simp
  · intro e he m hm hf
    rw [addingProg_log] at he
    simp only [List.mem_cons, List.not_mem_nil, or_false] at he
    rcases he with rfl | rfl | rfl | rfl | rfl
    · exact absurd hf (by simp [CanFollow, flat, s])
    · cases hm; exact fun c _ _ _ h => h _ (C33_get_add (U := demoU) c true _).1
    · exact absurd hf (by simp [CanFollow, flat, s])
    · cases hm
    · cases hm

/-- The number is the one of the outer path. -/
example : (((addingApp (tellNumber fun _ => .panic .noResponse)).serve (demoReq .get "/admin/users")).run 0).out.toOption.map
      (·.status) = some 207 := by decide +kernel

/-- C110: a handler that uses the state never misses it. -/
example (o o' : Handler demoU W) (req : Request demoU) :
    let prog := fun o => [Reg.useService (logger : Middleware demoU W), .get (s "/count") (tellNumber o)]
    (⟨(build (prog o')).1, some ⟨true, (3 : Nat)⟩⟩ : App demoU W).serve req =
    (⟨(build (prog o)).1, some ⟨true, (3 : Nat)⟩⟩ : App demoU W).serve req := by
  intro prog
  have hlog : ∀ o, logOf (prog o) = [⟨[], .middleware logger⟩, ⟨[s "count"], .route .get (tellNumber o)⟩] := by
    intro o
    have h1 : segments (s "/count") = [s "count"] := by decide +kernel
    simp only [prog, logOf, logRegs, logReg, h1, List.nil_append, List.cons_append]
  have hclean : ∀ o, CleanRegs (prog o) := by
    intro o; simp only [prog, CleanRegs, CleanReg, and_true, true_and]; decide +kernel
  have hok : ∀ o, (build (prog o)).2 = none := by
    intro o
    have h1 := (C82_routing_blind (RM := fun _ _ => True) (RH := fun _ _ => True) (prog := prog o)
      (prog' := prog (fun _ => .panic .noResponse)) (.cons (.useService trivial) (.cons (.get trivial) .nil))).1
    rw [← h1]; decide +kernel
  refine C110_app_state (t := true) (v := (3 : Nat)) (prog := prog o) (prog' := prog o') ?_ (hclean _) (hclean _)
    (build_eq (hok o)) (build_eq (hok o')) rfl rfl ?_ req
  · rw [hlog, hlog]
    refine .cons (.inl rfl) (.cons (.inr ⟨⟨_, rfl⟩, _, _, _, rfl, rfl, fun c hc => ?_⟩) .nil)
    exact C110_needing_agree (U := demoU) true _ o o' c ⟨_, hc⟩
  · intro e he m hm
    rw [hlog] at he
    simp only [List.mem_cons, List.not_mem_nil, or_false] at he
    rcases he with rfl | rfl
    · cases hm; intro c hc _ _ h; simp only [logger, h c hc]
    · cases hm

end Obsidian.Props
