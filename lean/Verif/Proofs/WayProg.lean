import Verif.Proofs.WayInsert
import Verif.Proofs.RunRegs

/-
Programs of registrations with paths in any syntax: everything that was registered is at the end of the
way of its segments.
-/
namespace Obsidian
namespace Node
open Spec
variable {M H : Type}

/-- The segments lead from the node to `t`. -/
def At (n : Node M H) (ss : List Str) (t : Node M H) (ms : List M) : Prop :=
  (ss = [] ∧ t = n ∧ ms = []) ∨ Way n.children false ss t ms

/-- Pieces as they come out of an accepted path. -/
def SegsOK (ss : List Str) : Prop := ∀ k ∈ ss, k ≠ [] ∧ ('*' ∈ k → k = ['*'])

theorem descend_mild {path : Str} {f : Node M H → Out (Node M H)} (hf : Mild f) {ss : List Str} (hs : SegsOK ss) :
    Mild (descend path f ss) := by
  induction ss with
  | nil => exact hf
  | cons k ks ih =>
    intro n hw hok
    have hk := hs k (by simp)
    have g := grown (path := path) _ (Nat.le_refl _) hw hk.1 hk.2 (ih (fun x hx => hs x (by simp [hx]))) hok
    exact ⟨g.key, by rw [show (descend path f (k :: ks) n).1.value = n.value from g.value]; exact Le.refl _, g.keeps, g.sw⟩

theorem descend_new {path : Str} {f : Node M H → Out (Node M H)} (hf : Mild f) {ss : List Str} (hs : SegsOK ss)
    (hn : NoStar ss) : ∀ {n : Node M H}, SWL n.children → (descend path f ss n).2 = none →
    ∃ tgt ms, SWL tgt.children ∧ (f tgt).2 = none ∧ At (descend path f ss n).1 ss (f tgt).1 ms ∧
      ∀ ss' t' ms', Way (f tgt).1.children false ss' t' ms' →
        Way (descend path f ss n).1.children false (ss ++ ss') t' (ms' ++ ms) := by
  induction ss with
  | nil => intro n hw hok; exact ⟨n, [], hw, hok, Or.inl ⟨rfl, rfl, rfl⟩, fun _ _ _ h => by simpa [descend] using h⟩
  | cons k ks ih =>
    intro n hw hok
    have hk := hs k (by simp)
    have hs' : SegsOK ks := fun x hx => hs x (by simp [hx])
    have g := grown (path := path) _ (Nat.le_refl _) hw hk.1 hk.2 (descend_mild (path := path) hf hs') hok
    obtain ⟨t1, m1, g1, g2, g3, g4⟩ := g.new (fun h => hn (by rw [h]; simp))
    obtain ⟨t2, m2, i1, i2, i3, i4⟩ := ih hs' (fun h => hn (by simp [h])) g1 g2
    refine ⟨t2, m2 ++ m1, i1, i2, Or.inr ?_, fun ss' t' ms' h => ?_⟩
    · rcases i3 with ⟨e1, e2, e3⟩ | h
      · subst e1 e3
        rw [e2]; exact g3
      · exact g4 _ _ _ h
    · have := g4 _ _ _ (i4 _ _ _ h)
      rw [List.append_assoc] at this
      exact this

/-! ### The three things that are done with a node -/

theorem getRoute_add (r : Resource H) (m m' : Method) (x : Route H) :
    (r.addRoute m x).1.getRoute m' = if m' = m then some x else r.getRoute m' := by
  rw [Resource.addRoute, Resource.getRoute, HMap.get_insert]; rfl

theorem mild_route (path : Str) (x : Route H) : Mild (M := M) (RouteTrie.addRouteNode path x) := by
  intro n hw hok
  obtain ⟨h1, h2⟩ := addRouteNode_facts path x n
  refine ⟨h1, ?_, by rw [h2]; exact Keeps.refl _, by rw [h2]; exact hw⟩
  unfold RouteTrie.addRouteNode at hok ⊢
  cases hv : n.value with
  | none => exact Le.none _
  | some v =>
    simp only [hv] at hok ⊢
    cases hd : (v.route.addRoute x.method x).2 with
    | some dup =>
      rw [show v.route.addRoute x.method x = ((v.route.addRoute x.method x).1, some dup) from by rw [← hd]] at hok
      simp at hok
    | none =>
      rw [show v.route.addRoute x.method x = ((v.route.addRoute x.method x).1, none) from by rw [← hd]]
      simp only [(setValue_facts _ _).2.2]
      refine ⟨fun rv e m r hr => ?_, fun rv e => ?_⟩
      · injection e with e; subst e
        refine ⟨_, rfl, ?_⟩
        rw [getRoute_add, if_neg]
        · exact hr
        · rintro rfl
          rw [Resource.getRoute] at hr
          rw [Resource.addRoute] at hd
          rw [hr] at hd; cases hd
      · injection e with e; subst e
        exact ⟨_, rfl, fun _ h => h⟩

theorem added_route {path : Str} {x : Route H} {n : Node M H} (hok : (RouteTrie.addRouteNode path x n).2 = none) :
    ∃ rv, (RouteTrie.addRouteNode path x n).1.value = some rv ∧ rv.route.getRoute x.method = some x ∧
      (RouteTrie.addRouteNode path x n).1.mws = n.mws := by
  unfold RouteTrie.addRouteNode at hok ⊢
  cases hv : n.value with
  | some v =>
    simp only [hv] at hok ⊢
    cases hd : (v.route.addRoute x.method x).2 with
    | some dup =>
      rw [show v.route.addRoute x.method x = ((v.route.addRoute x.method x).1, some dup) from by rw [← hd]] at hok
      simp at hok
    | none =>
      rw [show v.route.addRoute x.method x = ((v.route.addRoute x.method x).1, none) from by rw [← hd]]
      refine ⟨_, (setValue_facts _ _).2.2, by rw [getRoute_add, if_pos rfl], ?_⟩
      rw [mws_some ((setValue_facts _ _).2.2), mws_some hv]
  | none =>
    refine ⟨⟨[], ((RouteValue.default : RouteValue M H).route.addRoute x.method x).1⟩, (setValue_facts _ _).2.2,
      by rw [getRoute_add, if_pos rfl], ?_⟩
    refine (mws_some (v := ⟨[], ((RouteValue.default : RouteValue M H).route.addRoute x.method x).1⟩)
      (setValue_facts _ _).2.2).trans ?_
    rw [mws, hv]

theorem mild_mw (x : M) : Mild (H := H) (fun n => (RouteTrie.pushMiddleware x n, none)) := by
  intro n hw _
  obtain ⟨h1, h2⟩ := pushMiddleware_facts x n
  refine ⟨h1, ?_, by simp only [h2]; exact Keeps.refl _, by simp only [h2]; exact hw⟩
  simp only [RouteTrie.pushMiddleware]
  cases hv : n.value with
  | none => exact Le.none _
  | some v =>
    simp only [(setValue_facts _ _).2.2]
    refine ⟨fun rv e m r hr => ?_, fun rv e => ?_⟩
    · injection e with e; subst e
      exact ⟨_, rfl, hr⟩
    · injection e with e; subst e
      exact ⟨_, rfl, fun _ h => by simp [h]⟩

theorem pushed (x : M) (n : Node M H) : (RouteTrie.pushMiddleware x n).mws = n.mws ++ [x] ∧
    ∃ rv, (RouteTrie.pushMiddleware x n).value = some rv := by
  unfold RouteTrie.pushMiddleware
  cases hv : n.value with
  | none => exact ⟨by rw [mws_some ((setValue_facts _ _).2.2), mws, hv]; rfl, _, (setValue_facts _ _).2.2⟩
  | some v => exact ⟨by rw [mws_some ((setValue_facts _ _).2.2), mws_some hv], _, (setValue_facts _ _).2.2⟩

theorem grafted {path : Str} {src : RouteTrie M H} {n : Node M H} (hok : (RouteTrie.graft path src n).2 = none) :
    n.value = none ∧ n.children = [] ∧ (RouteTrie.graft path src n).1 = .mk n.key src.head.value src.head.children := by
  unfold RouteTrie.graft at hok ⊢
  split at hok
  · simp at hok
  · next h =>
    rw [if_neg h]
    simp at h
    exact ⟨h.1, h.2, rfl⟩

theorem mild_graft (path : Str) {src : RouteTrie M H} (hs : SWL src.head.children) : Mild (RouteTrie.graft path src) := by
  intro n hw hok
  obtain ⟨h1, h2, h3⟩ := grafted hok
  rw [h3, h1, h2]
  exact ⟨rfl, Le.none _, Keeps.nil _, hs⟩

/-! ### The invariant -/

/-- What was registered is stored in the node. -/
def Stores (n : Node M H) : What M H → Prop
  | .route m h => ∃ rv, n.value = some rv ∧ rv.route.getRoute m = some ⟨m, h⟩
  | .middleware x => x ∈ n.mws
  | .nothing => True

theorem Stores.le {n n' : Node M H} {w : What M H} (h : Stores n w) (hl : Le n.value n'.value) : Stores n' w := by
  cases w with
  | route m x => obtain ⟨rv, h1, h2⟩ := h; exact hl.route rv h1 m _ h2
  | middleware x => exact hl.sub x h
  | nothing => trivial

/-- The tree holds everything in the log. -/
structure Tracks (n : Node M H) (L : Log M H) : Prop where
  sw : SWL n.children
  has : ∀ e ∈ L, NoStar e.segs → ∃ t ms, At n e.segs t ms ∧ Stores t e.what
  ne : ∀ e ∈ L, ∀ k ∈ e.segs, k ≠ []
  root : n.mws = mwsAt L []

theorem At.keep {n n' : Node M H} {ss : List Str} {t : Node M H} {ms : List M} (h : At n ss t ms)
    (hv : Le n.value n'.value) (hk : Keeps n.children n'.children) :
    ∃ t' ms', At n' ss t' ms' ∧ Le t.value t'.value ∧ ∀ x ∈ ms, x ∈ ms' := by
  rcases h with ⟨h1, h2, h3⟩ | h
  · subst h2 h3
    exact ⟨n', [], Or.inl ⟨h1, rfl, rfl⟩, hv, fun _ h => h⟩
  · obtain ⟨t', ms', g1, g2, g3⟩ := hk _ _ _ _ h
    exact ⟨t', ms', Or.inr g1, g2, g3⟩

theorem Tracks.keep {n n' : Node M H} {L : Log M H} (h : Tracks n L) (hv : Le n.value n'.value)
    (hk : Keeps n.children n'.children) {e : Entry M H} (he : e ∈ L) (hn : NoStar e.segs) :
    ∃ t ms, At n' e.segs t ms ∧ Stores t e.what := by
  obtain ⟨t, ms, h1, h2⟩ := h.has e he hn
  obtain ⟨t', ms', g1, g2, _⟩ := h1.keep hv hk
  exact ⟨t', ms', g1, h2.le g2⟩

theorem mwsAt_nil_other {e : Entry M H} (h : e.segs ≠ []) (hne : ∀ k ∈ e.segs, k ≠ []) : mwsAt [e] [] = [] := by
  have : e.isAt [] = false := by
    rw [Entry.isAt, decide_eq_false_iff_not, flat_eq_nil hne]; exact h
  simp [mwsAt, this]

theorem descend_value (path : Str) (f : Node M H → Out (Node M H)) {ss : List Str} (h : ss ≠ []) (hs : SegsOK ss)
    (hf : Mild f) {n : Node M H} (hw : SWL n.children) (hok : (descend path f ss n).2 = none) :
    (descend path f ss n).1.value = n.value := by
  cases ss with
  | nil => exact absurd rfl h
  | cons k ks =>
    have hk := hs k (by simp)
    exact (grown (path := path) _ (Nat.le_refl _) hw hk.1 hk.2
      (descend_mild (path := path) hf (fun x hx => hs x (by simp [hx]))) hok).value

/-- One more entry, put in place with `f`. -/
theorem Tracks.add {n : Node M H} {L : Log M H} (h : Tracks n L) {path : Str} {f : Node M H → Out (Node M H)} (hf : Mild f)
    {e : Entry M H} (hs : SegsOK e.segs) (hok : (descend path f e.segs n).2 = none)
    (hst : ∀ t : Node M H, (f t).2 = none → Stores (f t).1 e.what)
    (hroot : e.segs = [] → (f n).1.mws = n.mws ++ mwsAt [e] []) :
    Tracks (descend path f e.segs n).1 (L ++ [e]) := by
  obtain ⟨_, m2, m3, m4⟩ := descend_mild (path := path) hf hs n h.sw hok
  have hne : ∀ k ∈ e.segs, k ≠ [] := fun k hk => (hs k hk).1
  refine ⟨m4, fun e' he' hn => ?_, fun e' he' => ?_, ?_⟩
  · rcases List.mem_append.1 he' with he' | he'
    · exact h.keep m2 m3 he' hn
    · rw [List.mem_singleton.1 he'] at hn ⊢
      obtain ⟨tgt, ms, _, i2, i3, _⟩ := descend_new (path := path) hf hs hn h.sw hok
      exact ⟨_, ms, i3, hst tgt i2⟩
  · rcases List.mem_append.1 he' with he' | he'
    · exact h.ne e' he'
    · rw [List.mem_singleton.1 he']; exact hne
  · rw [mwsAt_append]
    by_cases h0 : e.segs = []
    · rw [h0] at hok ⊢
      rw [← h.root]
      exact hroot h0
    · rw [mwsAt_nil_other h0 hne, List.append_nil, ← h.root, mws, descend_value path f h0 hs hf h.sw hok]; rfl

theorem segsOK_of {path : Str} (hs : StarsOK (segments path)) : SegsOK (segments path) := by
  intro s hs'
  refine ⟨segments_ne path s hs', ?_⟩
  obtain ⟨a, b, e⟩ := List.append_of_mem hs'
  exact fun h => (hs a s b e h).1

theorem checkStars_none {path : Str} (h : checkStars path = none) : SegsOK (segments path) := by
  apply segsOK_of
  refine Classical.byContradiction fun hn => ?_
  obtain ⟨p, h1, _⟩ := checkStars_err hn
  rw [h1] at h; cases h

theorem Tracks.route {r : Router M H} {L : Log M H} (h : Tracks r.routes.head L) {m : Method} {path : Str} {hd : H}
    (hok : (r.insertRoute m path hd).2 = none) :
    Tracks (r.insertRoute m path hd).1.routes.head (L ++ [⟨segments path, .route m hd⟩]) := by
  simp only [Router.insertRoute, RouteTrie.insertRoute, RouteTrie.insertDefaultRoute, segs_eq] at hok ⊢
  cases hcs : checkStars path with
  | some p => simp [hcs] at hok
  | none =>
    have hs := checkStars_none hcs
    simp only [hcs] at hok ⊢
    have key : ∀ q, (descend q (RouteTrie.addRouteNode q ⟨m, hd⟩) (segments path) r.routes.head).2 = none →
        Tracks (descend q (RouteTrie.addRouteNode q ⟨m, hd⟩) (segments path) r.routes.head).1
          (L ++ [⟨segments path, .route m hd⟩]) := by
      intro q hq
      refine h.add (e := ⟨segments path, .route m hd⟩) (mild_route q _) hs hq ?_ ?_
      · intro t ht
        obtain ⟨rv, e1, e2, _⟩ := added_route ht
        exact ⟨rv, e1, e2⟩
      · intro h0
        have h0 : segments path = [] := h0
        rw [h0] at hq
        obtain ⟨rv, _, _, e3⟩ := added_route hq
        rw [e3]; simp [mwsAt]
    by_cases h0 : segments path = []
    · simp only [if_pos h0] at hok ⊢
      have := key ['/'] (by rw [h0]; exact hok)
      rw [h0] at this ⊢
      exact this
    · simp only [if_neg h0, insertLoop_eq _ _ h0] at hok ⊢
      exact key path hok

theorem Tracks.mw {r : Router M H} {L : Log M H} (h : Tracks r.routes.head L) {path : Str} {m : M}
    (hok : (r.useServiceTo path m).2 = none) :
    Tracks (r.useServiceTo path m).1.routes.head
      (if segments path = [] then L else L ++ [⟨segments path, .middleware m⟩]) := by
  simp only [Router.useServiceTo, RouteTrie.insertMiddleware, segs_eq] at hok ⊢
  cases hcs : checkStars path with
  | some p => simp [hcs] at hok
  | none =>
    have hs := checkStars_none hcs
    simp only [hcs] at hok ⊢
    by_cases h0 : segments path = []
    · rw [if_pos h0, h0]; exact h
    · simp only [if_neg h0, insertLoop_eq _ _ h0] at hok ⊢
      refine h.add (e := ⟨segments path, .middleware m⟩) (mild_mw m) hs hok ?_ (fun e => absurd e h0)
      intro t _
      rw [Stores, (pushed m t).1]; simp

theorem Tracks.global {r : Router M H} {L : Log M H} (h : Tracks r.routes.head L) (m : M) :
    Tracks (r.useService m).routes.head (L ++ [⟨[], .middleware m⟩]) := by
  have := h.add (path := []) (e := ⟨[], .middleware m⟩) (mild_mw m) (by intro k hk; simp at hk) rfl (by
    intro t _; rw [Stores, (pushed m t).1]; simp) (fun _ => by rw [(pushed m _).1]; simp [mwsAt, Entry.isAt])
  exact this

theorem Tracks.mount {r s : Router M H} {L S : Log M H} (h : Tracks r.routes.head L) (h' : Tracks s.routes.head S)
    {path : Str} (hok : (r.useRouter path s).2 = none) :
    Tracks (r.useRouter path s).1.routes.head (mountLog (segments path) L S) := by
  simp only [Router.useRouter, RouteTrie.insertSubRoute, segs_eq] at hok ⊢
  cases hcs : checkStars path with
  | some p => simp [hcs] at hok
  | none =>
    have hs := checkStars_none hcs
    simp only [hcs] at hok ⊢
    rw [mountLog]
    by_cases h0 : segments path = []
    · simp only [if_pos h0]; exact h'
    · simp only [if_neg h0, insertLoop_eq _ _ h0] at hok ⊢
      have hf := mild_graft path h'.sw
      obtain ⟨_, m2, m3, m4⟩ := descend_mild (path := path) hf hs _ h.sw hok
      have hne : ∀ k ∈ segments path, k ≠ [] := fun k hk => (hs k hk).1
      have hns : ∀ e ∈ S, ∀ k ∈ (Entry.under (segments path) e).segs, k ≠ [] := by
        intro e he k hk
        rcases List.mem_append.1 hk with hk | hk
        · exact hne k hk
        · exact h'.ne e he k hk
      refine ⟨m4, fun e he hn => ?_, fun e he => ?_, ?_⟩
      · rcases List.mem_append.1 he with he | he
        · exact h.keep m2 m3 he hn
        · have hn0 : NoStar (segments path) := by
            rcases List.mem_cons.1 he with rfl | he
            · exact hn
            · obtain ⟨e', _, rfl⟩ := List.mem_map.1 he
              exact fun hx => hn (by simp [Entry.under, hx])
          obtain ⟨tgt, ms, _, i2, i3, i4⟩ := descend_new (path := path) hf hs hn0 h.sw hok
          rcases List.mem_cons.1 he with rfl | he
          · exact ⟨_, ms, i3, trivial⟩
          · obtain ⟨e', he', rfl⟩ := List.mem_map.1 he
            obtain ⟨t, ms', w, st⟩ := h'.has e' he' (fun hx => hn (by simp [Entry.under, hx]))
            obtain ⟨_, _, g3⟩ := grafted i2
            rcases w with ⟨w1, w2, w3⟩ | w
            · refine ⟨_, ms, by simpa [Entry.under, w1] using i3, ?_⟩
              rw [g3]
              rw [w2] at st
              exact st.le (Le.refl _)
            · refine ⟨t, ms' ++ ms, Or.inr (i4 _ _ _ ?_), st⟩
              rw [g3]; exact w
      · rcases List.mem_append.1 he with he | he
        · exact h.ne e he
        · rcases List.mem_cons.1 he with rfl | he
          · exact hne
          · obtain ⟨e', he', rfl⟩ := List.mem_map.1 he
            exact hns e' he'
      · rw [mwsAt_append]
        have : mwsAt (⟨segments path, .nothing⟩ :: S.map (Entry.under (segments path))) [] = [] := by
          rw [List.eq_nil_iff_forall_not_mem]
          intro m hm
          obtain ⟨e, he, hf, hw⟩ := mem_mwsAt.1 hm
          rcases List.mem_cons.1 he with rfl | he
          · simp at hw
          · obtain ⟨e', he', rfl⟩ := List.mem_map.1 he
            have := (flat_eq_nil (hns e' he')).1 hf
            exact h0 (List.append_eq_nil_iff.1 this).1
        rw [this, List.append_nil, ← h.root, mws, descend_value path _ h0 hs hf h.sw hok]; rfl

theorem Tracks.new : Tracks (Router.new : Router M H).routes.head [] :=
  ⟨.nil, by simp, by simp, rfl⟩

mutual
theorem track_call : ∀ (c : Reg M H) (r : Router M H) (L : Log M H), Tracks r.routes.head L →
    (c.run r).2 = none → Tracks (c.run r).1.routes.head (logReg c L)
  | .get p h, r, L, ht, hok => by rw [logReg]; exact ht.route hok
  | .post p h, r, L, ht, hok => by rw [logReg]; exact ht.route hok
  | .put p h, r, L, ht, hok => by rw [logReg]; exact ht.route hok
  | .patch p h, r, L, ht, hok => by rw [logReg]; exact ht.route hok
  | .delete p h, r, L, ht, hok => by rw [logReg]; exact ht.route hok
  | .useService m, r, L, ht, hok => by rw [logReg]; exact ht.global m
  | .useServiceTo p m, r, L, ht, hok => by rw [logReg]; exact ht.mw hok
  | .useRouter p sub, r, L, ht, hok => by
    have i := track_calls sub Router.new [] Tracks.new
    rw [Reg.run] at hok ⊢
    rw [logReg]
    cases hb : runRegs sub Router.new with
    | mk s e =>
      rw [hb] at i hok
      cases e with
      | none => exact ht.mount (i rfl) hok
      | some e => simp at hok
  | .scope p sub, r, L, ht, hok => by
    have i := track_calls sub Router.new [] Tracks.new
    rw [Reg.run] at hok ⊢
    rw [logReg]
    cases hb : runRegs sub Router.new with
    | mk s e =>
      rw [hb] at i hok
      cases e with
      | none =>
        have := ht.mount (i rfl) hok
        rw [segments_slash_cons] at this
        exact this
      | some e => simp at hok
theorem track_calls : ∀ (cs : List (Reg M H)) (r : Router M H) (L : Log M H), Tracks r.routes.head L →
    (runRegs cs r).2 = none → Tracks (runRegs cs r).1.routes.head (logRegs cs L)
  | [], r, L, ht, _ => by rw [runRegs, logRegs]; exact ht
  | c :: cs, r, L, ht, hok => by
    have i := track_call c r L ht
    rw [runRegs] at hok ⊢
    rw [logRegs]
    cases hb : c.run r with
    | mk r' e =>
      rw [hb] at i hok
      cases e with
      | none => exact track_calls cs r' (logReg c L) (i rfl) hok
      | some e => simp at hok
end

theorem build_tracks {prog : List (Reg M H)} {r : Router M H} (hb : build prog = (r, none)) :
    Tracks r.routes.head (logOf prog) := by
  have := track_calls prog Router.new [] Tracks.new
  rw [show runRegs prog Router.new = (r, none) from hb] at this
  exact this rfl

/-! ### Searching -/

/-- A request that fits the segments of a node with a value finds it. -/
theorem At.found {r : Router M H} {ss : List Str} {t : Node M H} {ms : List M} (h : At r.routes.head ss t ms)
    {v : RouteValue M H} (hv : t.value = some v) {path : Str} {b : List (Str × Str)} (hm : Matches ss (segments path) b) :
    ∃ ps, r.searchRoute path = .ok (some ⟨⟨r.routes.head.mws ++ ms, v.route⟩, ps⟩) ∧ ∀ x, ps.get x = b.lookup x := by
  rw [Router.searchRoute, RouteTrie.searchRoute, segs_eq]
  rcases h with ⟨h1, h2, h3⟩ | h
  · subst h1 h2 h3
    cases hm' : segments path with
    | nil =>
      rw [hm'] at hm; cases hm
      refine ⟨HMap.empty, ?_, fun x => rfl⟩
      rw [if_pos rfl, RouteTrie.finish, hv]; simp
    | cons a l => rw [hm'] at hm; cases hm
  · cases hm' : segments path with
    | nil =>
      rw [hm'] at hm
      cases hm with
      | nil => exact absurd rfl h.ne
      | wild hx => exact absurd rfl hx
    | cons a l =>
      rw [hm'] at hm
      obtain ⟨ps, e1, e2⟩ := h.search hv a l b HMap.empty r.routes.head.mws hm
      refine ⟨ps, ?_, fun x => ?_⟩
      · rw [if_neg (by simp), getNextNode_cons, e1]
        simp only [RouteTrie.finish, hv]
      · rw [e2]; cases b.lookup x <;> rfl

/-! ### The ways are determined by the segments -/

theorem way_child {cs : List (Node M H)} {brk : Bool} {pre post : List (Node M H)} {c : Node M H} (hcs : cs = pre ++ c :: post)
    (hp : Pick pre c brk) {s : Str} {ss : List Str} {t : Node M H} {ms : List M} (h : Way cs brk (s :: ss) t ms)
    (hc : c.key <+: s) : Step c brk (s :: ss) t ms := by
  obtain ⟨l₁, d, l₂, e, hd, hst⟩ := h.step
  have hds : d.key <+: s := by
    generalize hss : s :: ss = l at hst
    cases hst with
    | whole => injection hss with h1 h2; rw [h1]; exact List.prefix_refl _
    | next => injection hss with h1 h2; rw [h1]; exact List.prefix_refl _
    | part => injection hss with h1 h2; rw [h1]; exact List.prefix_append _ _
  have hh : d.key.head? = c.key.head? := by rw [head_of_prefix hd.ne hds, head_of_prefix hp.ne hc]
  rw [hcs] at e
  rcases mid_cases e.symm with ⟨l, e1, _⟩ | ⟨_, e2, _⟩ | ⟨l, e1, _⟩
  · exact absurd hh.symm (hd.other c (by rw [e1]; simp)).2
  · rw [← e2]; exact hst
  · exact absurd hh (hp.other d (by rw [e1]; simp)).2

/-- The way of longer segments goes through the node of the shorter ones. -/
theorem Way.through {cs : List (Node M H)} {brk : Bool} {ss : List Str} {t : Node M H} {ms : List M} (h : Way cs brk ss t ms) :
    ∀ {more : List Str} {t' : Node M H} {ms' : List M}, Way cs brk (ss ++ more) t' ms' →
      (more = [] ∧ t' = t ∧ ms' = ms) ∨ (∃ ms'', Way t.children false more t' ms'' ∧ ms' = ms'' ++ ms) := by
  induction h with
  | @whole pre post c brk hp =>
    intro more t' ms' hw
    have hst := way_child rfl hp hw (List.prefix_refl _)
    generalize hss : c.key :: ([] ++ more) = l at hst
    cases hst with
    | whole => injection hss with h1 h2; exact Or.inl ⟨h2, rfl, rfl⟩
    | next hw => injection hss with h1 h2; subst h2; exact Or.inr ⟨_, hw, rfl⟩
    | part h1 hr hw =>
      injection hss with e1 e2
      exact absurd (List.append_right_eq_self.1 e1.symm) hr
  | @next pre post c t brk ss ms hp hw0 ih =>
    intro more t' ms' hw
    have hst := way_child rfl hp hw (List.prefix_refl _)
    generalize hss : c.key :: (ss ++ more) = l at hst
    cases hst with
    | whole =>
      injection hss with h1 h2
      exact absurd (List.append_eq_nil_iff.1 h2).1 hw0.ne
    | next hw =>
      injection hss with h1 h2; subst h2
      rcases ih hw with ⟨e1, e2, e3⟩ | ⟨ms'', e1, e2⟩
      · exact Or.inl ⟨e1, e2, by rw [e3]⟩
      · exact Or.inr ⟨ms'', e1, by rw [e2, List.append_assoc]⟩
    | part h1 hr hw =>
      injection hss with e1 e2
      exact absurd (List.append_right_eq_self.1 e1.symm) hr
  | @part pre post c t brk rest ss ms hp hn hr hw0 ih =>
    intro more t' ms' hw
    have hst := way_child rfl hp hw (List.prefix_append _ _)
    generalize hss : (c.key ++ rest) :: (ss ++ more) = l at hst
    cases hst with
    | whole =>
      injection hss with h1 h2
      exact absurd (List.append_right_eq_self.1 h1) hr
    | next hw =>
      injection hss with h1 h2
      exact absurd (List.append_right_eq_self.1 h1) hr
    | part h1 hr' hw =>
      injection hss with e1 e2
      have e1 := List.append_cancel_left e1
      subst e1 e2
      rcases ih hw with ⟨e1, e2, e3⟩ | ⟨ms'', e1, e2⟩
      · exact Or.inl ⟨e1, e2, by rw [e3]⟩
      · exact Or.inr ⟨ms'', e1, by rw [e2, List.append_assoc]⟩

theorem Way.last {cs : List (Node M H)} {brk : Bool} {ss : List Str} {t : Node M H} {ms : List M} (h : Way cs brk ss t ms) :
    ∃ ms', ms = t.mws ++ ms' := by
  induction h with
  | whole => exact ⟨[], by simp⟩
  | next _ _ ih => obtain ⟨ms', e⟩ := ih; exact ⟨_, by rw [e, List.append_assoc]⟩
  | part _ _ _ _ ih => obtain ⟨ms', e⟩ := ih; exact ⟨_, by rw [e, List.append_assoc]⟩

theorem At.through {n : Node M H} {ss more : List Str} {t t' : Node M H} {ms ms' : List M} (h : At n ss t ms)
    (h' : At n (ss ++ more) t' ms') : ∃ ms'', At t more t' ms'' ∧ ms' = ms'' ++ ms := by
  rcases h with ⟨h1, h2, h3⟩ | h
  · subst h1 h2 h3
    exact ⟨ms', h', by simp⟩
  · rcases h' with ⟨h1, _, _⟩ | h'
    · exact absurd (List.append_eq_nil_iff.1 h1).1 h.ne
    · rcases h.through h' with ⟨e1, e2, e3⟩ | ⟨ms'', e1, e2⟩
      · exact ⟨[], Or.inl ⟨e1, e2, rfl⟩, by simp [e3]⟩
      · exact ⟨ms'', Or.inr e1, e2⟩

end Node
end Obsidian
