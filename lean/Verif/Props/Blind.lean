import Verif.Proofs.Blind
import Verif.Props.AppCommon
import Verif.Props.Logger

/-
C82: routing does not depend on what handlers and middlewares do.
C83: middlewares for the whole application that only watch.
-/
namespace Obsidian.Props
open Obsidian Spec Node
variable {M H M' H' : Type} {RM : M → M' → Prop} {RH : H → H' → Prop}

theorem watched_of_alike {W : M' → Prop} : ∀ {cs : List (Reg M H)} {cs' : List (Reg M' H')}, Alike RM RH cs cs' → Watched RM RH W cs cs' := by
  intro cs
  induction cs with
  | nil => intro cs' h; cases h; exact .nil
  | cons c cs ih => intro cs' h; cases h with | cons h1 h2 => exact .same h1 (ih h2)

/-- **C82.** Programs that make the same calls with other handlers and middlewares are accepted or
rejected alike, and route every request alike: to the handler and the middlewares that stand in the
same places, with the same parameters. For all paths, whatever their form. -/
theorem C82_routing_blind {prog : List (Reg M H)} {prog' : List (Reg M' H')} (h : Alike RM RH prog prog') :
    (build prog').2 = (build prog).2 ∧ ∀ path, AlikeAt RM RH (build prog).1 (build prog').1 path := by
  obtain ⟨h1, h2⟩ := watched_build (watched_of_alike (W := fun _ => False) h)
  refine ⟨h2.symm, fun path => ?_⟩
  have := looked h1 path
  simp only [AlikeAt, isFound, handlerFor, chainFor, paramFor]
  generalize (build prog).1.searchRoute path = a at this
  generalize (build prog').1.searchRoute path = b at this
  cases this with
  | panic => exact ⟨rfl, fun _ => .none, .none, fun _ => rfl⟩
  | unknown => exact ⟨rfl, fun _ => .none, .none, fun _ => rfl⟩
  | empty h => exact h.elim
  | known e1 e2 e3 =>
    next v v' =>
    refine ⟨rfl, fun m => ?_, .some (each_merged (fun _ h => h) e2), fun x => by simp only [RouteValueResult.getParams, e1]⟩
    have := e3 m
    simp only
    generalize v.getRoute m = a at this
    generalize v'.getRoute m = b at this
    cases this with
    | none => exact .none
    | some e => exact .some e.2

mutual
theorem alike_mapCall (f : M → M') (g : H → H') : ∀ c : Reg M H, AlikeCall (fun m m' => m' = f m) (fun h h' => h' = g h) c (mapCall f g c)
  | .get p h => .get rfl
  | .post p h => .post rfl
  | .put p h => .put rfl
  | .patch p h => .patch rfl
  | .delete p h => .delete rfl
  | .useService m => .useService rfl
  | .useServiceTo p m => .useServiceTo rfl
  | .useRouter p sub => .useRouter (alike_mapCalls f g sub)
  | .scope p sub => .scope (alike_mapCalls f g sub)
theorem alike_mapCalls (f : M → M') (g : H → H') : ∀ cs : List (Reg M H), Alike (fun m m' => m' = f m) (fun h h' => h' = g h) cs (mapCalls f g cs)
  | [] => .nil
  | c :: cs => .cons (alike_mapCall f g c) (alike_mapCalls f g cs)
end

theorem each_map {α β : Type} {f : α → β} {as : List α} {bs : List β} (h : Each (fun a b => b = f a) as bs) : bs = as.map f := by
  induction h with
  | nil => rfl
  | cons h _ ih => simp [h, ih]

/-- **C82**, for functions: with other handlers in the program, the handler found is the one that stands
for the handler that was found before. -/
theorem C82_renamed (f : M → M') (g : H → H') (prog : List (Reg M H)) :
    (build (mapCalls f g prog)).2 = (build prog).2 ∧ ∀ path,
      isFound (build (mapCalls f g prog)).1 path = isFound (build prog).1 path ∧
      (∀ m, handlerFor (build (mapCalls f g prog)).1 m path = (handlerFor (build prog).1 m path).map g) ∧
      chainFor (build (mapCalls f g prog)).1 path = (chainFor (build prog).1 path).map (·.map f) ∧
      ∀ x, paramFor (build (mapCalls f g prog)).1 path x = paramFor (build prog).1 path x := by
  obtain ⟨h1, h2⟩ := C82_routing_blind (alike_mapCalls f g prog)
  refine ⟨h1, fun path => ?_⟩
  obtain ⟨e1, e2, e3, e4⟩ := h2 path
  refine ⟨e1.symm, fun m => ?_, ?_, fun x => (e4 x).symm⟩
  · have := e2 m
    generalize handlerFor (build prog).1 m path = a at this
    generalize handlerFor (build (mapCalls f g prog)).1 m path = b at this
    cases this with
    | none => rfl
    | some e => simp [e]
  · generalize chainFor (build prog).1 path = a at e3
    generalize chainFor (build (mapCalls f g prog)).1 path = b at e3
    cases e3 with
    | none => rfl
    | some e => simp [each_map e]

/-! ### Applications -/

variable {U : Univ} {σ τ : Type}

theorem execNext_merged {L : Service U σ → Service U τ → Prop} {h : Handler U σ} {h' : Handler U τ} (hh : L h h')
    {ms : List (Middleware U σ)} {ms' : List (Middleware U τ)} (hm : Merged (Respects L) (Transparent L) ms ms') :
    L (execNext h ms) (execNext h' ms') := by
  induction hm with
  | nil => exact hh
  | both h1 _ ih => exact h1 _ _ ih
  | more h1 _ ih => exact h1 _ _ ih

/-- Requests to applications built by related programs run related services in the same context, or are
answered with 404. -/
theorem served_alike {L : Service U σ → Service U τ → Prop} {prog : List (Reg (Middleware U σ) (Handler U σ))}
    {prog' : List (Reg (Middleware U τ) (Handler U τ))} (hw : Watched (Respects L) L (Transparent L) prog prog')
    {a : App U σ} {a' : App U τ} (hb : build prog = (a.router, none)) (hb' : build prog' = (a'.router, none))
    (hs : a'.appState = a.appState) (req : Request U) :
    (a.serve req = .ret pageNotFound ∧ a'.serve req = .ret pageNotFound) ∨
    ∃ x x' c, L x x' ∧ ServedBy a req (x c) ∧ ServedBy a' req (x' c) ∧
      a.serve req = (x c).bind (fun r => .ofPure (finish r)) ∧ a'.serve req = (x' c).bind (fun r => .ofPure (finish r)) := by
  have hl := looked (watched_build hw).1 req.path
  rw [hb, hb'] at hl
  simp only at hl
  have unk : ∀ {σ : Type} {a : App U σ}, (∀ v, a.router.searchRoute req.path = .ok (some v) → v.getRoute req.method = none) →
      a.serve req = .ret pageNotFound := by
    intro σ a h
    refine serve_none ?_
    rw [handlerFor]
    split
    · next v hv => rw [h v hv]; rfl
    · rfl
  generalize ha : a.router.searchRoute req.path = x at hl
  generalize ha' : a'.router.searchRoute req.path = x' at hl
  cases hl with
  | panic => exact .inl ⟨unk (by rw [ha]; simp), unk (by rw [ha']; simp)⟩
  | unknown => exact .inl ⟨unk (by rw [ha]; simp), unk (by rw [ha']; simp)⟩
  | empty _ e =>
    refine .inl ⟨unk (by rw [ha]; simp), unk ?_⟩
    intro v hv
    rw [ha'] at hv
    simp only [Lookup.ok.injEq, Option.some.injEq] at hv
    rw [← hv]; exact e _
  | known e1 e2 e3 =>
    next v v' =>
    have e3 := e3 req.method
    generalize hr : v.getRoute req.method = y at e3
    generalize hr' : v'.getRoute req.method = y' at e3
    cases e3 with
    | none =>
      refine .inl ⟨unk ?_, unk ?_⟩
      · intro u hu
        rw [ha] at hu
        simp only [Lookup.ok.injEq, Option.some.injEq] at hu
        rw [← hu]; exact hr
      · intro u hu
        rw [ha'] at hu
        simp only [Lookup.ok.injEq, Option.some.injEq] at hu
        rw [← hu]; exact hr'
    | some e =>
      next y y' =>
      have hh : handlerFor a.router req.method req.path = some y.handler := by rw [handlerFor, ha]; simp only [hr]; rfl
      have hh' : handlerFor a'.router req.method req.path = some y'.handler := by rw [handlerFor, ha']; simp only [hr']; rfl
      have hc : chainFor a.router req.path = some v.routeValue.middlewares := by rw [chainFor, ha]; rfl
      have hc' : chainFor a'.router req.path = some v'.routeValue.middlewares := by rw [chainFor, ha']; rfl
      obtain ⟨ch, c, f1, f2, f3⟩ := serve_some hh
      obtain ⟨ch', c', f1', f2', f3'⟩ := serve_some hh'
      rw [hc] at f1; injection f1 with f1; subst f1
      rw [hc'] at f1'; injection f1' with f1'; subst f1'
      have hcc : c' = c := by
        refine Starts.unique (a := a) ?_ f2
        refine ⟨f2'.method, f2'.path, f2'.query, f2'.headers, f2'.body, fun x => ?_, f2'.response, fun t w hw => f2'.state t w (by rw [hs, hw]), fun hn => f2'.noState (by rw [hs, hn])⟩
        rw [f2'.params, paramFor, paramFor, ha, ha']
        simp only [RouteValueResult.getParams, e1]
      subst hcc
      exact .inr ⟨_, _, c', execNext_merged e.2 e2, ⟨_, _, _, hh, hc, f2, rfl⟩, ⟨_, _, _, hh', hc', f2', rfl⟩, f3, f3'⟩

/-- **C82**, for applications: whatever relation `L` between services the handlers of two
programs satisfy and the middlewares respect, each request is either unknown to both applications, or
is handled in the same context by services that satisfy `L`. -/
theorem C82_handled_alike {L : Service U σ → Service U τ → Prop} {prog : List (Reg (Middleware U σ) (Handler U σ))}
    {prog' : List (Reg (Middleware U τ) (Handler U τ))} (h : Alike (Respects L) L prog prog')
    {a : App U σ} {a' : App U τ} (hb : build prog = (a.router, none)) (hb' : build prog' = (a'.router, none))
    (hs : a'.appState = a.appState) (req : Request U) :
    (a.serve req = .ret pageNotFound ∧ a'.serve req = .ret pageNotFound) ∨
    ∃ x x' c, L x x' ∧ ServedBy a req (x c) ∧ ServedBy a' req (x' c) := by
  rcases served_alike (watched_of_alike h) hb hb' hs req with h | ⟨x, x', c, h1, h2, h3, _⟩
  · exact .inl h
  · exact .inr ⟨x, x', c, h1, h2, h3⟩

theorem SameEffect.symm {α : Type} {x y : Act σ α} (h : SameEffect x y) : SameEffect y x :=
  fun w => ⟨(h w).1.symm, (h w).2.symm⟩

/-- **C82**: a handler can be replaced by any handler with the same effect. -/
theorem C82_replaced_handlers {prog prog' : List (Reg (Middleware U σ) (Handler U σ))}
    (h : Alike (fun m m' => ∃ l : Link U σ, m = l.mw ∧ m' = l.mw) (fun h h' => ∀ c, SameEffect (h c) (h' c)) prog prog')
    {a a' : App U σ} (hb : build prog = (a.router, none)) (hb' : build prog' = (a'.router, none))
    (hs : a'.appState = a.appState) (req : Request U) : SameEffect (a.serve req) (a'.serve req) := by
  have hm : ∀ m m' : Middleware U σ, (∃ l : Link U σ, m = l.mw ∧ m' = l.mw) →
      Respects (fun x y => ∀ c, SameEffect (x c) (y c)) m m' := by
    rintro _ _ ⟨l, rfl, rfl⟩ next next' hn c
    simp only [mw_link]
    refine SameEffect.bind (SameEffect.refl _) fun d => ?_
    cases d with
    | answer r => exact SameEffect.refl _
    | forward c after => exact SameEffect.bind (hn c) fun r => SameEffect.refl _
  have hw := Alike.mono hm (fun _ _ h => h) h
  rcases served_alike (watched_of_alike hw) hb hb' hs req with ⟨e1, e2⟩ | ⟨x, x', c, h1, _, _, e1, e2⟩
  · rw [e1, e2]; exact SameEffect.refl _
  · rw [e1, e2]; exact SameEffect.bind (h1 c) fun r => SameEffect.refl _

/-- The routes of the example application, with handlers that do the same in a different way. -/
def demoAppProg2 : List (Reg (Middleware demoU W) (Handler demoU W)) :=
  [.useService (tickMiddleware 5),
   .get (s "/hello") (fun c => .print .debug (.step (· + 1) fun _ => .step id fun _ => .ret (c.build (.str "hi".toList)).ok)),
   .post (s "/items/:id") (sayHandler 2 "made"), .get (s "/fail") (failHandler (.generalError (s "oops"))),
   .get (s "/silent") silentHandler]

theorem tick_link (n : Nat) : tickMiddleware n =
    Link.mw ⟨fun c => .step (· + n) fun _ => .ret (.forward c fun r => .step (· * 2) fun _ => .ret r)⟩ := by
  funext c next; rfl

example : Alike (fun m m' => ∃ l : Link demoU W, m = l.mw ∧ m' = l.mw) (fun h h' => ∀ c, SameEffect (h c) (h' c))
    demoAppProg demoAppProg2 := by
  refine .cons (.useService ⟨_, tick_link 5, tick_link 5⟩) (.cons (.get fun c w => ⟨rfl, rfl⟩) (.cons (.post fun c => SameEffect.refl _)
    (.cons (.get fun c => SameEffect.refl _) (.cons (.get fun c => SameEffect.refl _) .nil))))

example (m : Method) (path : Str) : handlerFor (build (mapCalls (fun _ => ()) (fun _ => ()) demoAppProg)).1 m path = none ↔
    handlerFor demoApp.router m path = none := by
  rw [((C82_renamed (fun _ => ()) (fun _ => ()) demoAppProg).2 path).2.1 m, demoApp_router]
  simp

/-! ### Middlewares that only watch -/

theorem SeenSame.bind {α β : Type} {seen : τ → σ} {x : Act σ α} {y : Act τ α} {f : α → Act σ β} {g : α → Act τ β}
    (h : SeenSame seen x y) (hf : ∀ a, SeenSame seen (f a) (g a)) : SeenSame seen (x.bind f) (y.bind g) := by
  intro w
  obtain ⟨h1, h2⟩ := h w
  rw [Act.run_bind, Act.run_bind, h1]
  cases (x.run (seen w)).out with
  | error e => exact ⟨rfl, h2⟩
  | ok a =>
    simp only
    rw [← h2]
    exact hf a _

/-- **C83.** Middlewares that only watch, added to a program with any number of calls of `use_service` at
any places, change nothing but what they may change themselves: the program is accepted or rejected as
before, and every request has the same outcome and the same effect on the rest of the world. -/
theorem C83_watching {seen : τ → σ} {prog : List (Reg (Middleware U σ) (Handler U σ))}
    {prog' : List (Reg (Middleware U τ) (Handler U τ))}
    (h : Watched (Respects (SeenAlike seen)) (SeenAlike seen) (Transparent (SeenAlike seen)) prog prog') :
    (build prog').2 = (build prog).2 ∧
    ∀ {a : App U σ} {a' : App U τ}, build prog = (a.router, none) → build prog' = (a'.router, none) →
      a'.appState = a.appState → ∀ req, SeenSame seen (a.serve req) (a'.serve req) := by
  refine ⟨(watched_build h).2.symm, ?_⟩
  intro a a' hb hb' hs req
  have pure : ∀ {α : Type} (x : Except Crash α), SeenSame seen (.ofPure x : Act σ α) (.ofPure x : Act τ α) := by
    intro α x w; cases x <;> exact ⟨rfl, rfl⟩
  rcases served_alike h hb hb' hs req with ⟨e1, e2⟩ | ⟨x, x', c, h1, _, _, e1, e2⟩
  · rw [e1, e2]; exact pure (.ok pageNotFound)
  · rw [e1, e2]; exact SeenSame.bind (h1 c) fun r => pure _

/-- A middleware that counts the requests and those that failed. -/
def metrics : Middleware demoU (W × Nat × Nat) := fun c next =>
  .step (fun w => (w.1, w.2.1 + 1, w.2.2)) fun _ => (next c).bind fun
    | .ok c => .ret (.ok c)
    | .error e => .step (fun w => (w.1, w.2.1, w.2.2 + 1)) fun _ => .ret (.error e)

theorem metrics_watches : Transparent (SeenAlike (Prod.fst : W × Nat × Nat → W)) metrics := by
  intro next next' h c w
  have h := h c (w.1, w.2.1 + 1, w.2.2)
  simp only [metrics, Act.run_step, Act.run_bind]
  rw [h.1]
  rw [← h.2]
  cases ho : ((next c).run w.1).out with
  | error e => exact ⟨rfl, rfl⟩
  | ok r => cases r <;> exact ⟨rfl, rfl⟩

/-- A computation in a larger world. -/
def widen {α : Type} : Act σ α → Act (σ × τ) α
  | .ret a => .ret a
  | .panic c => .panic c
  | .step f k => .step (fun w => (f w.1, w.2)) (fun w => widen (k w.1))
  | .print l k => .print l (widen k)

theorem widen_seen {α : Type} (x : Act σ α) : SeenSame (Prod.fst : σ × τ → σ) x (widen x) := by
  induction x with
  | ret a => exact fun w => ⟨rfl, rfl⟩
  | panic c => exact fun w => ⟨rfl, rfl⟩
  | step f k ih => intro w; simp only [widen, Act.run_step]; exact ih w.1 (f w.1, w.2)
  | print l k ih => intro w; simp only [widen, Act.run_print]; exact ih w

/-- The middleware that counts, in the larger world. -/
def wideTick (n : Nat) : Middleware demoU (W × Nat × Nat) := fun c next =>
  .step (fun w => (w.1 + n, w.2)) fun _ => (next c).bind fun r => .step (fun w => (w.1 * 2, w.2)) fun _ => .ret r

theorem wideTick_respects (n : Nat) :
    Respects (SeenAlike (Prod.fst : W × Nat × Nat → W)) (tickMiddleware n) (wideTick n) := by
  intro next next' h c w
  simp only [tickMiddleware, wideTick, Act.run_step]
  exact SeenSame.bind (h c) (f := fun r => .step (· * 2) fun _ => .ret r)
    (g := fun r => .step (fun w => (w.1 * 2, w.2)) fun _ => .ret r) (fun a w => ⟨rfl, rfl⟩) (w.1 + n, w.2)

/-- The example application, with requests counted at two places. -/
def demoWatched : List (Reg (Middleware demoU (W × Nat × Nat)) (Handler demoU (W × Nat × Nat))) :=
  [.useService metrics, .useService (wideTick 5), .get (s "/hello") (fun c => widen (sayHandler 1 "hi" c)),
   .post (s "/items/:id") (fun c => widen (sayHandler 2 "made" c)),
   .get (s "/fail") (fun c => widen (failHandler (.generalError (s "oops")) c)),
   .useService metrics, .get (s "/silent") (fun c => widen (silentHandler c))]

theorem demoWatched_watched : Watched (Respects (SeenAlike Prod.fst)) (SeenAlike Prod.fst) (Transparent (SeenAlike Prod.fst))
    demoAppProg demoWatched :=
  .more metrics_watches (.same (.useService (wideTick_respects 5)) (.same (.get fun c => widen_seen _)
    (.same (.post fun c => widen_seen _) (.same (.get fun c => widen_seen _)
      (.more metrics_watches (.same (.get fun c => widen_seen _) .nil))))))

example (req : Request demoU) (w : W × Nat × Nat) : ∃ r, build demoWatched = (r, none) ∧
    (((⟨r, none⟩ : App demoU (W × Nat × Nat)).serve req).run w).out = ((demoApp.serve req).run w.1).out := by
  obtain ⟨h1, h2⟩ := C83_watching demoWatched_watched
  obtain ⟨r, hr⟩ : ∃ r, build demoWatched = (r, none) := ⟨_, build_eq (h1.trans demoAppProg_ok)⟩
  exact ⟨r, hr, (h2 (a := demoApp) (a' := ⟨r, none⟩) (by rw [demoApp_router]; exact demoAppProg_build) hr (by simp [demoApp]) req w).1⟩

theorem link_replies {l : Link U σ} (hl : l.KeepsReplies) {next : Service U σ} (hn : ∀ c, Replies (next c)) (c : Context U) :
    Replies (l.mw c next) := by
  intro w r hr
  rw [mw_link, Act.run_bind] at hr
  have := hl c w
  generalize (l.decide c).run w = x at this hr
  obtain ⟨o, w', _⟩ := x
  cases o with
  | error e => simp at hr
  | ok d =>
    cases d with
    | answer r' => simp at hr; subst hr; exact this
    | forward c' after =>
      simp only [Act.run_bind] at hr
      have h2 := hn c' w'
      generalize (next c').run w' = y at h2 hr
      obtain ⟨o, w'', _⟩ := y
      cases o with
      | error e => simp at hr
      | ok r' => exact this r' (h2 r' rfl) _ _ hr

theorem replies_responds {x : Act σ (ContextResult U)} (h : Replies x) : Responds x :=
  fun w c hc => h w (.ok c) hc

theorem SameEffect.replies {x y : Act σ (ContextResult U)} (h : SameEffect x y) (hx : Replies x) : Replies y := by
  intro w r hr
  exact hx w r (by rw [(h w).1]; exact hr)

/-- **C83**, for the logger of the library: if all handlers build a response or fail, and the middlewares
keep it so, then adding loggers, at any places and in any number, changes the outcome and the effect of
no request. -/
theorem C83_loggers {prog prog' : List (Reg (Middleware U σ) (Handler U σ))}
    (h : Watched (fun m m' => m' = m ∧ ∃ l : Link U σ, l.KeepsReplies ∧ m = l.mw) (fun h h' => h' = h ∧ ∀ c, Replies (h c))
      (fun o => o = logger) prog prog') :
    (build prog').2 = (build prog).2 ∧
    ∀ {a a' : App U σ}, build prog = (a.router, none) → build prog' = (a'.router, none) →
      a'.appState = a.appState → ∀ req, SameEffect (a.serve req) (a'.serve req) := by
  have hw := h.mono (RM' := Respects fun x y : Service U σ => ∀ c, SameEffect (x c) (y c) ∧ Replies (x c))
    (RH' := fun x y : Service U σ => ∀ c, SameEffect (x c) (y c) ∧ Replies (x c))
    (W' := Transparent fun x y : Service U σ => ∀ c, SameEffect (x c) (y c) ∧ Replies (x c))
    (by
      rintro _ _ ⟨rfl, l, hl, rfl⟩ next next' hn c
      refine ⟨?_, link_replies hl (fun c => (hn c).2) c⟩
      simp only [mw_link]
      refine SameEffect.bind (SameEffect.refl _) fun d => ?_
      cases d with
      | answer r => exact SameEffect.refl _
      | forward c after => exact SameEffect.bind (hn c).1 fun r => SameEffect.refl _)
    (by rintro _ _ ⟨rfl, hr⟩ c; exact ⟨SameEffect.refl _, hr c⟩)
    (by
      rintro _ rfl next next' hn c
      refine ⟨fun w => ?_, (hn c).2⟩
      have := logger_same (replies_responds (SameEffect.replies (hn c).1 (hn c).2)) w
      simp only [this.1, this.2]; exact (hn c).1 w)
  refine ⟨(watched_build hw).2.symm, ?_⟩
  intro a a' hb hb' hs req
  rcases served_alike hw hb hb' hs req with ⟨e1, e2⟩ | ⟨x, x', c, h1, _, _, e1, e2⟩
  · rw [e1, e2]; exact SameEffect.refl _
  · rw [e1, e2]; exact SameEffect.bind (h1 c).1 fun r => SameEffect.refl _

/-- The example application without the silent handler, and with loggers. -/
example (req : Request demoU) {a a' : App demoU W}
    (hb : build [.useService (tickMiddleware 5), .get (s "/hello") (sayHandler 1 "hi"),
      .get (s "/fail") (failHandler (.generalError (s "oops")))] = (a.router, none))
    (hb' : build [.useService logger, .useService (tickMiddleware 5), .get (s "/hello") (sayHandler 1 "hi"), .useService logger,
      .get (s "/fail") (failHandler (.generalError (s "oops")))] = (a'.router, none)) (hs : a'.appState = a.appState) :
    SameEffect (a.serve req) (a'.serve req) := by
  refine (C83_loggers ?_).2 hb hb' hs req
  refine .more rfl (.same (.useService ⟨rfl, _, ?_, tick_link 5⟩) (.same (.get ⟨rfl, ?_⟩) (.more rfl (.same (.get ⟨rfl, ?_⟩) .nil))))
  · intro c w
    simp only [Act.run_step, Act.run_ret]
    intro r hr w r' hr'
    simp at hr'; subst hr'; exact hr
  · intro c w r hr
    simp [sayHandler, Context.build, ResponseBuilder.ok] at hr
    subst hr; simp [HasResponse]
  · intro c w r hr
    simp [failHandler] at hr
    subst hr; simp [HasResponse]

end Obsidian.Props
