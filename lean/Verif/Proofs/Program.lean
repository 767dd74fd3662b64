import Verif.Proofs.RepOps

/- Registration calls and programs on routers that represent a log. -/
namespace Obsidian.Spec
open Obsidian
variable {M H : Type}

/-! ### The wildcard check -/

theorem byteLen_star {x : Str} (h : '*' ∈ x) : byteLen x = 1 ↔ x = ['*'] := by
  constructor
  · intro hb
    cases x with
    | nil => simp at h
    | cons a x =>
      have ha := utf8Size_pos a
      rw [byteLen_cons] at hb
      have hx : x = [] := byteLen_eq_zero.1 (by omega)
      subst hx
      simp at h; rw [h]
  · rintro rfl; decide

theorem starsOK_cons {x : Str} {xs : List Str} :
    StarsOK (x :: xs) ↔ ('*' ∈ x → x = ['*'] ∧ xs = []) ∧ StarsOK xs := by
  constructor
  · intro h
    refine ⟨fun hx => h [] x xs rfl hx, fun pre s post e hs => ?_⟩
    exact h (x :: pre) s post (by rw [e]; rfl) hs
  · rintro ⟨h1, h2⟩ pre s post e hs
    cases pre with
    | nil => simp at e; obtain ⟨rfl, rfl⟩ := e; exact h1 hs
    | cons a pre => simp at e; exact h2 pre s post e.2 hs

theorem checkStarsFrom_spec (path : Str) (total : Nat) (xs : List Str) (pos : Nat)
    (h : pos + xs.length = total) :
    (StarsOK xs → checkStarsFrom path total xs pos = none) ∧
    (¬ StarsOK xs → ∃ p, checkStarsFrom path total xs pos = some p ∧ StarPanic path p) := by
  induction xs generalizing pos with
  | nil =>
    refine ⟨fun _ => rfl, fun h => absurd ?_ h⟩
    intro pre s post e; simp at e
  | cons x xs ih =>
    have ih := ih (pos + 1) (by simp at h; omega)
    rw [checkStarsFrom, starsOK_cons]
    by_cases hx : '*' ∈ x
    · rw [if_pos hx]
      by_cases hb : byteLen x = 1
      · rw [if_neg (by simpa using hb)]
        have hx' := (byteLen_star hx).1 hb
        by_cases hp : pos = total - 1
        · rw [if_neg (by simpa using hp)]
          have : xs = [] := by
            simp at h; exact List.length_eq_zero_iff.1 (by omega)
          subst this
          refine ⟨fun h => ih.1 h.2, fun h => ih.2 (fun h' => h ⟨fun _ => ⟨hx', rfl⟩, h'⟩)⟩
        · rw [if_pos hp]
          refine ⟨fun h' => ?_, fun _ => ⟨_, rfl, Or.inr rfl⟩⟩
          have := (h'.1 hx).2
          subst this; simp at h; omega
      · rw [if_pos (by simpa using hb)]
        refine ⟨fun h' => ?_, fun _ => ⟨_, rfl, Or.inl rfl⟩⟩
        exact absurd ((byteLen_star hx).2 (h'.1 hx).1) hb
    · rw [if_neg hx]
      refine ⟨fun h => ih.1 h.2, fun h => ih.2 (fun h' => h ⟨fun h'' => absurd h'' hx, h'⟩)⟩

theorem checkStars_ok {path : Str} (h : StarsOK (segments path)) : checkStars path = none := by
  rw [checkStars, segs_eq]
  exact (checkStarsFrom_spec path _ _ 0 (by simp)).1 h

theorem checkStars_err {path : Str} (h : ¬ StarsOK (segments path)) :
    ∃ p, checkStars path = some p ∧ StarPanic path p := by
  rw [checkStars, segs_eq]
  exact (checkStarsFrom_spec path _ _ 0 (by simp)).2 h

theorem keyOK_of {path : Str} (hc : CleanPath path) (hs : StarsOK (segments path)) :
    ∀ s ∈ segments path, KeyOK s := by
  intro s hs'
  have h1 := hc s hs'
  have h2 : '*' ∈ s → s = ['*'] := by
    obtain ⟨a, b, e⟩ := List.append_of_mem hs'
    exact fun h => (hs a s b e h).1
  have h3 := segments_ne path s hs'
  by_cases hst : s = ['*']
  · exact Or.inr (Or.inl hst)
  · have h4 : '*' ∉ s := fun h => hst (h2 h)
    cases s with
    | nil => exact absurd rfl h3
    | cons a s =>
      simp at h1 h4
      by_cases ha : a = ':'
      · exact Or.inl ⟨s, by rw [ha], h1, h4.2⟩
      · refine Or.inr (Or.inr ⟨by simp, ?_, by simp [h4]⟩)
        simp [h1]; exact fun h => ha h.symm

/-! ### Inserting along a path -/

theorem noClash_iff {L : Log M H} {ss : List Str} :
    NoClash L ss ↔ ¬ ∃ e ∈ L, Clash e.segs ss ∨ Clash ss e.segs := by
  constructor
  · rintro h ⟨e, he, h'⟩; exact h'.elim (h e he).1 (h e he).2
  · intro h e he; exact ⟨fun h' => h ⟨e, he, Or.inl h'⟩, fun h' => h ⟨e, he, Or.inr h'⟩⟩

theorem Rep.touch {n tgt n' : Node M H} {L : Log M H} {ss : List Str} (h : Rep n L)
    (hk : ∀ s ∈ ss, KeyOK s) (ha : ¬ Node.AmbSegs n ss) (ht : Node.Target n (flat ss) tgt)
    (hI : Node.InsertedL n ss tgt n') : Rep n' (L ++ [⟨ss, .nothing⟩]) := by
  refine h.put (e := ⟨ss, .nothing⟩) hk ha ht hI rfl ?_
  refine (h.target ht).1.append ?_
  intro e he _; simp at he; rw [he]

/-- Insertion along an ambiguous path. -/
theorem Rep.loop_amb {n : Node M H} {L : Log M H} {ss : List Str} (h : Rep n L)
    (hk : ∀ s ∈ ss, KeyOK s) (hss : ss ≠ []) (hc : ¬ NoClash L ss) (path : Str) (f) :
    (∃ a b, (Node.insertLoop path f ss n).2 = some (.ambiguous a b path)) ∧
    ∃ pre s post, ss = pre ++ s :: post ∧
      Rep (Node.insertLoop path f ss n).1 (L ++ [⟨pre, .nothing⟩]) := by
  have ha : Node.AmbSegs n ss := by
    rw [h.ambSegs hk]
    exact Classical.not_not.1 (fun x => hc (noClash_iff.2 x))
  rw [Node.insertLoop_eq path f hss]
  obtain ⟨pre, s, post, e, h1, h2, h3, tgt, h4, h5⟩ := Node.descend_amb path h.wf hk ha f
  refine ⟨h3, pre, s, post, e, h.touch (fun x hx => hk x (by rw [e]; simp [hx])) h1 h4 h5⟩

/-- Insertion along an unambiguous path. -/
theorem Rep.loop_ok {n : Node M H} {L : Log M H} {ss : List Str} (h : Rep n L)
    (hk : ∀ s ∈ ss, KeyOK s) (hss : ss ≠ []) (hc : NoClash L ss) (path : Str) :
    ¬ Node.AmbSegs n ss ∧ ∃ tgt, Node.Target n (flat ss) tgt ∧ ∀ f : Node M H → Out (Node M H),
      (f tgt).1.key = tgt.key → (f tgt).1.WF →
      (Node.insertLoop path f ss n).2 = (f tgt).2 ∧
      Node.InsertedL n ss (f tgt).1 (Node.insertLoop path f ss n).1 := by
  have ha : ¬ Node.AmbSegs n ss := by
    rw [h.ambSegs hk]; exact noClash_iff.1 hc
  obtain ⟨tgt, h1, h2⟩ := Node.descend_ok path h.wf hk ha
  refine ⟨ha, tgt, h1, fun f h3 h4 => ?_⟩
  rw [Node.insertLoop_eq path f hss]
  exact h2 f h3 h4

theorem setValue_facts (n : Node M H) (v) : (n.setValue v).key = n.key ∧
    (n.setValue v).children = n.children ∧ (n.setValue v).value = v := by
  cases n; exact ⟨rfl, rfl, rfl⟩

theorem pushMiddleware_facts (m : M) (n : Node M H) :
    (RouteTrie.pushMiddleware m n).key = n.key ∧
    (RouteTrie.pushMiddleware m n).children = n.children := by
  unfold RouteTrie.pushMiddleware
  split <;> exact ⟨(setValue_facts _ _).1, (setValue_facts _ _).2.1⟩

theorem addRouteNode_facts (path : Str) (r : Route H) (n : Node M H) :
    (RouteTrie.addRouteNode path r n).1.key = n.key ∧
    (RouteTrie.addRouteNode path r n).1.children = n.children := by
  unfold RouteTrie.addRouteNode
  split
  · split <;> exact ⟨(setValue_facts _ _).1, (setValue_facts _ _).2.1⟩
  · split
    · exact ⟨rfl, rfl⟩
    · exact ⟨(setValue_facts _ _).1, (setValue_facts _ _).2.1⟩

theorem WF_of_children {n m : Node M H} (h : n.WF) (hc : m.children = n.children) : m.WF := by
  rw [Node.WF_iff] at h ⊢; rw [hc]; exact h

theorem ambSegs_nil (n : Node M H) : ¬ Node.AmbSegs n [] := by
  rintro ⟨p, s, h, _⟩; exact not_hasSeg_nil p s h

theorem clash_nil {e : List Str} : ¬ Clash e [] := by
  rintro ⟨p, x, h, h1, h2, _⟩; simp at h1 h2; exact h2 h1
theorem clash_nil' {e : List Str} : ¬ Clash [] e := by
  rintro ⟨p, x, h, _⟩; exact not_hasSeg_nil _ _ h

theorem Rep.insertRoute {r : Router M H} {L : Log M H} (h : Rep r.routes.head L) {path : Str}
    (hc : CleanPath path) (m : Method) (hd : H) :
    (¬ StarsOK (segments path) → ∃ p, r.insertRoute m path hd = (r, some p) ∧ StarPanic path p) ∧
    (StarsOK (segments path) → ¬ NoClash L (segments path) →
      (∃ a b, (r.insertRoute m path hd).2 = some (.ambiguous a b path)) ∧
      ∃ pre s post, segments path = pre ++ s :: post ∧
        Rep (r.insertRoute m path hd).1.routes.head (L ++ [⟨pre, .nothing⟩])) ∧
    (StarsOK (segments path) → NoClash L (segments path) →
      (r.insertRoute m path hd).2 =
        (if (routeAt L (flat (segments path)) m).isSome then some (.duplicated m (dupPath path))
          else none) ∧
      Rep (r.insertRoute m path hd).1.routes.head (L ++ [⟨segments path, .route m hd⟩])) := by
  refine ⟨fun hs => ?_, fun hs hn => ?_, fun hs hn => ?_⟩
  · obtain ⟨p, hp, hp'⟩ := checkStars_err hs
    exact ⟨p, by simp [Router.insertRoute, RouteTrie.insertRoute, hp], hp'⟩
  · have hk := keyOK_of hc hs
    have hss : segments path ≠ [] := by
      intro h'; apply hn; rw [h']; exact fun e _ => ⟨clash_nil, clash_nil'⟩
    have := h.loop_amb hk hss hn path (RouteTrie.addRouteNode path ⟨m, hd⟩)
    simpa [Router.insertRoute, RouteTrie.insertRoute, checkStars_ok hs, segs_eq, hss] using this
  · have hk := keyOK_of hc hs
    by_cases hss : segments path = []
    · have hv := (h.target (Node.Target.nil h.wf)).1
      obtain ⟨h1, h2⟩ := valOK_addRoute (ss := []) (m := m) (h := hd) (path := ['/']) hv
      obtain ⟨h3, h4⟩ := addRouteNode_facts ['/'] (⟨m, hd⟩ : Route H) r.routes.head
      have hI := Node.InsertedL.nil (WF_of_children h.wf h4) h3
      have := h.put (e := ⟨[], .route m hd⟩) (by simp) (ambSegs_nil _) (Node.Target.nil h.wf) hI h4 h1
      have e : r.insertRoute m path hd =
          (⟨⟨(RouteTrie.addRouteNode ['/'] ⟨m, hd⟩ r.routes.head).1⟩⟩,
            (RouteTrie.addRouteNode ['/'] ⟨m, hd⟩ r.routes.head).2) := by
        simp [Router.insertRoute, RouteTrie.insertRoute, checkStars_ok hs, segs_eq, hss,
          RouteTrie.insertDefaultRoute]
      rw [e, hss, dupPath, if_pos hss]
      exact ⟨h2, this⟩
    · obtain ⟨ha, tgt, ht, hf⟩ := h.loop_ok hk hss hn path
      have hv := (h.target ht).1
      obtain ⟨h1, h2⟩ := valOK_addRoute (ss := segments path) (m := m) (h := hd) (path := path) hv
      obtain ⟨h3, h4⟩ := addRouteNode_facts path (⟨m, hd⟩ : Route H) tgt
      obtain ⟨h5, h6⟩ := hf (RouteTrie.addRouteNode path ⟨m, hd⟩) h3 (WF_of_children ht.wf h4)
      have := h.put (e := ⟨segments path, .route m hd⟩) hk ha ht h6 h4 h1
      have e : r.insertRoute m path hd =
          (⟨⟨(Node.insertLoop path (RouteTrie.addRouteNode path ⟨m, hd⟩) (segments path)
            r.routes.head).1⟩⟩, (Node.insertLoop path (RouteTrie.addRouteNode path ⟨m, hd⟩)
            (segments path) r.routes.head).2) := by
        simp [Router.insertRoute, RouteTrie.insertRoute, checkStars_ok hs, segs_eq, hss]
      rw [e, h5, h2, dupPath, if_neg hss]
      exact ⟨rfl, this⟩

theorem Rep.useService {r : Router M H} {L : Log M H} (h : Rep r.routes.head L) (m : M) :
    Rep (r.useService m).routes.head (L ++ [⟨[], .middleware m⟩]) := by
  have hv := (h.target (Node.Target.nil h.wf)).1
  have h1 := valOK_pushMiddleware (ss := []) (m := m) hv
  obtain ⟨h3, h4⟩ := pushMiddleware_facts m r.routes.head
  have hI := Node.InsertedL.nil (WF_of_children h.wf h4) h3
  exact h.put (e := ⟨[], .middleware m⟩) (by simp) (ambSegs_nil _) (Node.Target.nil h.wf) hI h4 h1

theorem Rep.useServiceTo {r : Router M H} {L : Log M H} (h : Rep r.routes.head L) {path : Str}
    (hc : CleanPath path) (m : M) :
    (¬ StarsOK (segments path) → ∃ p, r.useServiceTo path m = (r, some p) ∧ StarPanic path p) ∧
    (StarsOK (segments path) → ¬ NoClash L (segments path) →
      (∃ a b, (r.useServiceTo path m).2 = some (.ambiguous a b path)) ∧
      ∃ pre s post, segments path = pre ++ s :: post ∧
        Rep (r.useServiceTo path m).1.routes.head (L ++ [⟨pre, .nothing⟩])) ∧
    (StarsOK (segments path) → NoClash L (segments path) →
      (r.useServiceTo path m).2 = none ∧
      Rep (r.useServiceTo path m).1.routes.head
        (if segments path = [] then L else L ++ [⟨segments path, .middleware m⟩])) := by
  refine ⟨fun hs => ?_, fun hs hn => ?_, fun hs hn => ?_⟩
  · obtain ⟨p, hp, hp'⟩ := checkStars_err hs
    exact ⟨p, by simp [Router.useServiceTo, RouteTrie.insertMiddleware, hp], hp'⟩
  · have hk := keyOK_of hc hs
    have hss : segments path ≠ [] := by
      intro h'; apply hn; rw [h']; exact fun e _ => ⟨clash_nil, clash_nil'⟩
    have := h.loop_amb hk hss hn path (fun n => (RouteTrie.pushMiddleware m n, none))
    simpa [Router.useServiceTo, RouteTrie.insertMiddleware, checkStars_ok hs, segs_eq] using this
  · have hk := keyOK_of hc hs
    by_cases hss : segments path = []
    · rw [if_pos hss]
      have e : r.useServiceTo path m = (r, none) := by
        simp [Router.useServiceTo, RouteTrie.insertMiddleware, checkStars_ok hs, segs_eq, hss,
          Node.insertLoop]
      rw [e]; exact ⟨rfl, h⟩
    · rw [if_neg hss]
      obtain ⟨ha, tgt, ht, hf⟩ := h.loop_ok hk hss hn path
      have hv := (h.target ht).1
      have h1 := valOK_pushMiddleware (ss := segments path) (m := m) hv
      obtain ⟨h3, h4⟩ := pushMiddleware_facts m tgt
      obtain ⟨h5, h6⟩ := hf (fun n => (RouteTrie.pushMiddleware m n, none)) h3
        (WF_of_children ht.wf h4)
      have := h.put (e := ⟨segments path, .middleware m⟩) hk ha ht h6 h4 h1
      have e : r.useServiceTo path m =
          (⟨⟨(Node.insertLoop path (fun n => (RouteTrie.pushMiddleware m n, none)) (segments path)
            r.routes.head).1⟩⟩, (Node.insertLoop path
            (fun n => (RouteTrie.pushMiddleware m n, none)) (segments path) r.routes.head).2) := by
        simp [Router.useServiceTo, RouteTrie.insertMiddleware, checkStars_ok hs, segs_eq]
      rw [e, h5]
      exact ⟨rfl, this⟩

/-- The target of a mount is free exactly if the node has no value and no children. -/
theorem Rep.free {n tgt : Node M H} {L : Log M H} {F : Str} (h : Rep n L)
    (ht : Node.Target n F tgt) :
    (tgt.value.isSome || !tgt.children.isEmpty) = false ↔ Free L F := by
  have hv := (h.target ht).1
  rw [Bool.or_eq_false_iff, hv.1, Free]
  have : (!tgt.children.isEmpty) = false ↔ ∀ e ∈ L, F <+: flat e.segs → flat e.segs = F := by
    constructor
    · intro hch e he ⟨r, hr⟩
      by_cases h0 : r = []
      · subst h0; rw [← hr]; simp
      · exfalso
        have hs := h.sees he (segEnd_full e.segs)
        rw [← hr, ← ht.ext r h0, Node.view, Node.sub_ne h0] at hs
        simp at hch
        rw [hch, Node.subL] at hs; simp at hs
    · intro hall
      cases hch : tgt.children with
      | nil => rfl
      | cons c cs =>
        exfalso
        have hw : Node.WFL (c :: cs) := by rw [← hch, ← Node.WF_iff]; exact ht.wf
        have hck : c.key ≠ [] := hw.ne c (by simp)
        have hview : (tgt.view c.key).isSome = true := by
          rw [Node.view, Node.sub_ne hck, hch, Node.subL, if_pos List.prefix_rfl]; simp
        rw [ht.ext _ hck, h.pos] at hview
        obtain ⟨e, he, hp⟩ := known_prefix (hview.resolve_left (by simp [hck]))
        have := hall e he ((List.prefix_append _ _).trans hp)
        rw [this] at hp
        exact hck (prefix_self_append hp)
  rw [this]

theorem Rep.useRouter {r s : Router M H} {L S : Log M H} (h : Rep r.routes.head L)
    (h' : Rep s.routes.head S) {path : Str} (hc : CleanPath path) :
    (¬ StarsOK (segments path) → ∃ p, r.useRouter path s = (r, some p) ∧ StarPanic path p) ∧
    (StarsOK (segments path) → segments path = [] →
      (r.useRouter path s).2 = none ∧ Rep (r.useRouter path s).1.routes.head S) ∧
    (StarsOK (segments path) → ¬ NoClash L (segments path) →
      (∃ a b, (r.useRouter path s).2 = some (.ambiguous a b path)) ∧
      ∃ pre x post, segments path = pre ++ x :: post ∧
        Rep (r.useRouter path s).1.routes.head (L ++ [⟨pre, .nothing⟩])) ∧
    (StarsOK (segments path) → segments path ≠ [] → NoClash L (segments path) →
      ¬ Free L (flat (segments path)) →
      (r.useRouter path s).2 = some (.conflict path) ∧
        Rep (r.useRouter path s).1.routes.head (L ++ [⟨segments path, .nothing⟩])) ∧
    (StarsOK (segments path) → segments path ≠ [] → NoClash L (segments path) →
      Free L (flat (segments path)) →
      (r.useRouter path s).2 = none ∧
      Rep (r.useRouter path s).1.routes.head (mountLog (segments path) L S)) := by
  refine ⟨fun hs => ?_, fun hs hss => ?_, fun hs hn => ?_, fun hs hss hn hf => ?_,
    fun hs hss hn hf => ?_⟩
  · obtain ⟨p, hp, hp'⟩ := checkStars_err hs
    exact ⟨p, by simp [Router.useRouter, RouteTrie.insertSubRoute, hp], hp'⟩
  · have e : r.useRouter path s = (⟨⟨s.routes.head⟩⟩, none) := by
      simp [Router.useRouter, RouteTrie.insertSubRoute, checkStars_ok hs, segs_eq, hss]
    rw [e]; exact ⟨rfl, h'⟩
  · have hk := keyOK_of hc hs
    have hss : segments path ≠ [] := by
      intro h'; apply hn; rw [h']; exact fun e _ => ⟨clash_nil, clash_nil'⟩
    have := h.loop_amb hk hss hn path (RouteTrie.graft path s.routes)
    simpa [Router.useRouter, RouteTrie.insertSubRoute, checkStars_ok hs, segs_eq, hss] using this
  · have hk := keyOK_of hc hs
    obtain ⟨ha, tgt, ht, hg⟩ := h.loop_ok hk hss hn path
    have hfr : (tgt.value.isSome || !tgt.children.isEmpty) = true := by
      rw [← Bool.not_eq_false, h.free ht]; exact hf
    have hgr : RouteTrie.graft path s.routes tgt = (tgt, some (.conflict path)) := by
      rw [RouteTrie.graft, if_pos hfr]
    obtain ⟨h5, h6⟩ := hg (RouteTrie.graft path s.routes) (by rw [hgr]) (by rw [hgr]; exact ht.wf)
    rw [hgr] at h5 h6
    have e : r.useRouter path s =
        (⟨⟨(Node.insertLoop path (RouteTrie.graft path s.routes) (segments path)
          r.routes.head).1⟩⟩, (Node.insertLoop path (RouteTrie.graft path s.routes)
          (segments path) r.routes.head).2) := by
      simp [Router.useRouter, RouteTrie.insertSubRoute, checkStars_ok hs, segs_eq, hss]
    rw [e, h5]
    exact ⟨rfl, h.touch hk ha ht h6⟩
  · have hk := keyOK_of hc hs
    obtain ⟨ha, tgt, ht, hg⟩ := h.loop_ok hk hss hn path
    have hfr : (tgt.value.isSome || !tgt.children.isEmpty) = false := (h.free ht).2 hf
    have hgr : RouteTrie.graft path s.routes tgt =
        (.mk tgt.key s.routes.head.value s.routes.head.children, none) := by
      rw [RouteTrie.graft, if_neg (by simp [hfr])]
    obtain ⟨h5, h6⟩ := hg (RouteTrie.graft path s.routes) (by rw [hgr]; rfl)
      (by rw [hgr]; exact WF_of_children h'.wf rfl)
    rw [hgr] at h5 h6
    have e : r.useRouter path s =
        (⟨⟨(Node.insertLoop path (RouteTrie.graft path s.routes) (segments path)
          r.routes.head).1⟩⟩, (Node.insertLoop path (RouteTrie.graft path s.routes)
          (segments path) r.routes.head).2) := by
      simp [Router.useRouter, RouteTrie.insertSubRoute, checkStars_ok hs, segs_eq, hss]
    rw [e, h5, mountLog, if_neg hss]
    exact ⟨rfl, h.mount h' hk ha h6 hf⟩

end Obsidian.Spec
