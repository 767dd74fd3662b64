import Verif.Proofs.Rep
import Verif.Proofs.HMap

/- The registration operations on a tree that represents a log. -/
namespace Obsidian.Spec
open Obsidian
variable {M H : Type}

/-! ### Ambiguity -/

theorem Rep.sees {n : Node M H} {L : Log M H} (h : Rep n L) {e : Entry M H} (he : e ∈ L) {p : Str}
    (hp : SegEnd e.segs p) : (n.view p).isSome = true := by
  rw [h.pos]; right; exact known_iff.2 (Or.inl ⟨e, he, hp⟩)

/-- Paths in the log do not clash. -/
theorem Rep.noClash {n : Node M H} {L : Log M H} (h : Rep n L) {e e' : Entry M H} (he : e ∈ L)
    (he' : e' ∈ L) : ¬ Clash e.segs e'.segs := by
  rintro ⟨p, x, h1, ⟨r, h2⟩, h3, h4⟩
  obtain ⟨⟨v, q⟩, hv⟩ := Option.isSome_iff_exists.1 (h.sees he h1.segEnd)
  have hq : q = some x := (h.par p v q hv x).2 ⟨e, he, h1⟩
  subst hq
  have hr : r ≠ [] := by rintro rfl; apply h3; rw [← h2]; simp
  have hb := Node.below_param h.wf hv hr (by rw [h2]; exact h.sees he' (segEnd_full _))
  obtain ⟨t, rfl⟩ := hb
  obtain ⟨y, hy⟩ := colon_seg (p := p) (u := x ++ t) (h.clean e' he') (by rw [← h2]; simp)
  have := (h.par p v (some x) hv y).2 ⟨e', he', hy⟩
  simp at this; subst this
  exact h4 hy

theorem Rep.ambSegs {n : Node M H} {L : Log M H} (h : Rep n L) {ss : List Str}
    (hk : ∀ s ∈ ss, KeyOK s) :
    Node.AmbSegs n ss ↔ ∃ e ∈ L, Clash e.segs ss ∨ Clash ss e.segs := by
  have hne : ∀ s ∈ ss, s ≠ [] := fun s hs => (hk s hs).ne_nil
  constructor
  · rintro ⟨p, s, hs, ha⟩
    unfold Node.AmbAt at ha
    split at ha
    · next hc =>
      obtain ⟨⟨r, hr, hv⟩, hp⟩ := ha
      obtain ⟨x, rfl⟩ : ∃ x, s = ':' :: x := by
        cases s with
        | nil => simp [Node.startsColon] at hc
        | cons a s => simp [Node.startsColon] at hc; exact ⟨s, by rw [hc]⟩
      obtain ⟨e, he, hpe⟩ := known_prefix (((h.pos _).1 hv).resolve_left (by simp [hr]))
      refine ⟨e, he, Or.inr ⟨p, x, hs, (List.prefix_append p r).trans hpe, ?_, ?_⟩⟩
      · intro h'; rw [h'] at hpe; have := hpe.length_le; simp at this; exact hr (List.length_eq_zero_iff.1 (by omega))
      · intro hx
        obtain ⟨⟨v, q⟩, hv⟩ := Option.isSome_iff_exists.1 (h.sees he hx.segEnd)
        have hq : q = some x := (h.par p v q hv x).2 ⟨e, he, hx⟩
        rw [hv, hq] at hp; simp at hp
    · next hc =>
      obtain ⟨w, u, v, x, rfl, hu, hv⟩ := ha
      obtain ⟨e, he, hx⟩ := (h.par _ _ _ hv x).1 rfl
      refine ⟨e, he, Or.inl ⟨p ++ w, x, hx, ?_, ?_, ?_⟩⟩
      · refine List.IsPrefix.trans ?_ hs.prefix; simp
      · intro h'
        have := hs.prefix.length_le
        rw [← h'] at this; simp at this; exact hu (List.length_eq_zero_iff.1 (by omega))
      · intro h'
        by_cases hw : w = []
        · subst hw
          rw [List.append_nil] at h'
          have := HasSeg.unique hne hs h'
          simp only [List.nil_append] at this
          subst this; simp [Node.startsColon] at hc
        · have := (hs.le h'.segEnd hne (by simp [List.length_pos_iff.2 hw])).length_le
          simp at this; exact hu (List.length_eq_zero_iff.1 (by omega))
  · rintro ⟨e, he, ⟨p, x, h1, h2, h3, h4⟩ | ⟨p, x, h1, ⟨r, h2⟩, h3, h4⟩⟩
    · obtain ⟨⟨v, q⟩, hv⟩ := Option.isSome_iff_exists.1 (h.sees he h1.segEnd)
      have hq : q = some x := (h.par p v q hv x).2 ⟨e, he, h1⟩
      subst hq
      obtain ⟨p₀, s, w, u, hs, rfl, rfl, hu⟩ := exists_seg h2 h3
      refine ⟨p₀, w ++ u, hs, ?_⟩
      unfold Node.AmbAt
      split
      · next hc =>
        by_cases hw : w = []
        · subst hw
          rw [List.append_nil] at hv h1 h4
          refine ⟨⟨':' :: x, by simp, h.sees he h1.segEnd'⟩, ?_⟩
          rw [hv]
          intro h'
          simp at h'
          apply h4
          rw [h']
          have : u = ':' :: u.tail := by
            cases u with
            | nil => exact absurd rfl hu
            | cons a u => simp [Node.startsColon] at hc; simp [hc]
          rw [← this]; simpa using hs
        · cases w with
          | nil => exact absurd rfl hw
          | cons a w =>
            simp [Node.startsColon] at hc; subst hc
            obtain ⟨t, ht⟩ := h1.segEnd.prefix
            obtain ⟨z, hz⟩ := colon_seg (p := p₀) (u := w ++ t) (h.clean e he) (by rw [← ht]; simp)
            obtain ⟨⟨v₀, q₀⟩, hv₀⟩ := Option.isSome_iff_exists.1 (h.sees he hz.segEnd)
            have hq₀ : q₀ = some z := (h.par p₀ v₀ q₀ hv₀ z).2 ⟨e, he, hz⟩
            subst hq₀
            refine ⟨⟨':' :: z, by simp, h.sees he hz.segEnd'⟩, ?_⟩
            rw [hv₀]
            intro h'
            simp at h'
            have := (hz.le h1.segEnd (h.ne he) (by simp)).length_le
            rw [h'] at this; simp at this
            exact hu (List.length_eq_zero_iff.1 (by omega))
      · exact ⟨w, u, v, x, rfl, hu, hv⟩
    · have hr : r ≠ [] := by rintro rfl; apply h3; rw [← h2]; simp
      refine ⟨p, ':' :: x, h1, ?_⟩
      rw [Node.AmbAt, if_pos (by rfl)]
      refine ⟨⟨r, hr, by rw [h2]; exact h.sees he (segEnd_full _)⟩, ?_⟩
      intro h'
      obtain ⟨⟨v, q⟩, hv, hq⟩ := Option.bind_eq_some_iff.1 h'
      simp at hq
      obtain ⟨e', he', hx⟩ := (h.par p v q hv x).1 hq
      exact h.noClash he' he ⟨p, x, hx, ⟨r, h2⟩, h3, h4⟩

/-! ### Values -/

theorem ValOK.append {L E : Log M H} {s : Str} {v : Option (RouteValue M H)} (hv : ValOK L s v)
    (hno : ∀ e ∈ E, flat e.segs = s → e.what = .nothing) : ValOK (L ++ E) s v := by
  have e1 : hasEntry E s = false := by
    rw [Bool.eq_false_iff]; intro h'
    obtain ⟨e, he, h1, h2⟩ := hasEntry_iff.1 h'
    exact h2 (hno e he h1)
  have e2 : mwsAt E s = [] := by
    rw [List.eq_nil_iff_forall_not_mem]; intro m hm
    obtain ⟨e, he, h1, h2⟩ := mem_mwsAt.1 hm
    rw [hno e he h1] at h2; simp at h2
  have e3 : ∀ m, routeAt E s m = none := by
    intro m
    unfold routeAt
    rw [List.getLast?_eq_none_iff, List.filterMap_eq_nil_iff]
    intro e he
    split
    · next h => rw [hno e he (isAt_iff.1 h)]
    · rfl
  obtain ⟨h1, h2⟩ := hv
  refine ⟨by rw [hasEntry_append, e1, Bool.or_false]; exact h1, fun rv hrv => ?_⟩
  obtain ⟨h3, h4, h5⟩ := h2 rv hrv
  refine ⟨by rw [mwsAt_append, e2, List.append_nil]; exact h3, fun m => ?_, h5⟩
  rw [routeAt_append, e3 m]; simpa using h4 m

theorem mwsAt_of_not {L : Log M H} {q : Str} (h : hasEntry L q = false) : mwsAt L q = [] := by
  rw [List.eq_nil_iff_forall_not_mem]; intro m hm
  obtain ⟨e, he, h1, h2⟩ := mem_mwsAt.1 hm
  rw [Bool.eq_false_iff] at h
  exact h (hasEntry_iff.2 ⟨e, he, h1, by rw [h2]; simp⟩)

theorem routeAt_of_not {L : Log M H} {q : Str} (h : hasEntry L q = false) (m : Method) :
    routeAt L q m = none := by
  unfold routeAt
  rw [List.getLast?_eq_none_iff, List.filterMap_eq_nil_iff]
  intro e he
  split
  · next h' =>
    split
    · next h'' =>
      rw [Bool.eq_false_iff] at h
      exact absurd (hasEntry_iff.2 ⟨e, he, isAt_iff.1 h', by rw [h'']; simp⟩) h
    · rfl
  · rfl

theorem hasEntry_single (e : Entry M H) (hw : e.what ≠ .nothing) : hasEntry [e] (flat e.segs) = true := by
  rw [hasEntry_iff]; exact ⟨e, by simp, rfl, hw⟩

theorem valOK_pushMiddleware {L : Log M H} {ss : List Str} {m : M} {n : Node M H}
    (h : ValOK L (flat ss) n.value) :
    ValOK (L ++ [⟨ss, .middleware m⟩]) (flat ss) (RouteTrie.pushMiddleware m n).value := by
  have e1 : mwsAt [(⟨ss, .middleware m⟩ : Entry M H)] (flat ss) = [m] := by simp [mwsAt, Entry.isAt]
  have e2 : ∀ m', routeAt [(⟨ss, .middleware m⟩ : Entry M H)] (flat ss) m' = none := by
    intro m'; simp [routeAt, Entry.isAt]
  have e3 := hasEntry_single (⟨ss, .middleware m⟩ : Entry M H) (by simp)
  obtain ⟨k, v, cs⟩ := n
  rw [Node.value_mk] at h
  obtain ⟨h1, h2⟩ := h
  refine ⟨?_, ?_⟩
  · rw [hasEntry_append, e3, Bool.or_true]
    cases v <;> rfl
  · intro rv hrv
    rw [mwsAt_append, e1]
    simp only [routeAt_append, e2, Option.none_or]
    cases v with
    | none =>
      simp [RouteTrie.pushMiddleware, Node.setValue] at hrv; subst hrv
      simp at h1
      refine ⟨by simp [mwsAt_of_not h1], fun m' => ?_, ?_⟩
      · rw [routeAt_of_not h1]; rfl
      · intro m' r hr; simp [Resource.getRoute, Resource.default, HMap.get_empty] at hr
    | some rv₀ =>
      simp [RouteTrie.pushMiddleware, Node.setValue] at hrv; subst hrv
      obtain ⟨h3, h4, h5⟩ := h2 rv₀ rfl
      exact ⟨by rw [← h3], h4, h5⟩

theorem routeAt_single (ss : List Str) (m : Method) (h : H) (m' : Method) :
    routeAt [(⟨ss, .route m h⟩ : Entry M H)] (flat ss) m' = if m = m' then some h else none := by
  by_cases e : m = m' <;> simp [routeAt, Entry.isAt, e]

theorem valOK_addRoute {L : Log M H} {ss : List Str} {m : Method} {h : H} {n : Node M H} {path : Str}
    (hv : ValOK L (flat ss) n.value) :
    ValOK (L ++ [⟨ss, .route m h⟩]) (flat ss) (RouteTrie.addRouteNode path ⟨m, h⟩ n).1.value ∧
    (RouteTrie.addRouteNode path ⟨m, h⟩ n).2 =
      if (routeAt L (flat ss) m).isSome then some (.duplicated m path) else none := by
  have e1 : mwsAt [(⟨ss, .route m h⟩ : Entry M H)] (flat ss) = [] := by simp [mwsAt, Entry.isAt]
  have e3 := hasEntry_single (⟨ss, .route m h⟩ : Entry M H) (by simp)
  obtain ⟨k, v, cs⟩ := n
  rw [Node.value_mk] at hv
  obtain ⟨h1, h2⟩ := hv
  have key : ∀ rv : RouteValue M H, rv.middlewares = mwsAt L (flat ss) →
      (∀ m', (rv.route.getRoute m').map (·.handler) = routeAt L (flat ss) m') →
      (∀ m' r, rv.route.getRoute m' = some r → r.method = m') →
      ValOK (L ++ [⟨ss, .route m h⟩]) (flat ss)
        (some ⟨rv.middlewares, (rv.route.addRoute m ⟨m, h⟩).1⟩) := by
    intro rv a b c
    refine ⟨by rw [hasEntry_append, e3, Bool.or_true]; rfl, ?_⟩
    intro rv' hrv'
    simp at hrv'; subst hrv'
    refine ⟨by rw [mwsAt_append, e1, List.append_nil]; exact a, ?_, ?_⟩
    · intro m'
      rw [routeAt_append, routeAt_single]
      simp only [Resource.addRoute, Resource.getRoute, HMap.get_insert]
      by_cases e : m = m'
      · simp [e]
      · rw [if_neg e, if_neg (fun x => e x.symm)]
        simpa [Resource.getRoute] using b m'
    · intro m' r
      simp only [Resource.addRoute, Resource.getRoute, HMap.get_insert]
      split
      · next e => intro hr; simp at hr; rw [← hr, e]
      · exact c m' r
  cases v with
  | none =>
    simp at h1
    have k := key ⟨[], Resource.default⟩ (by simp [mwsAt_of_not h1])
      (fun m' => by rw [routeAt_of_not h1]; rfl)
      (by intro m' r hr; simp [Resource.getRoute, Resource.default, HMap.get_empty] at hr)
    constructor
    · exact k
    · rw [routeAt_of_not h1]; rfl
  | some rv =>
    obtain ⟨h3, h4, h5⟩ := h2 rv rfl
    have k := key rv h3 h4 h5
    have hr := h4 m
    unfold RouteTrie.addRouteNode
    simp only [Node.value_mk]
    cases hg : rv.route.getRoute m with
    | none =>
      have : rv.route.addRoute m ⟨m, h⟩ = ((rv.route.addRoute m ⟨m, h⟩).1, none) := by
        simp only [Resource.addRoute]; rw [← hg]; rfl
      rw [this]
      rw [hg] at hr; simp at hr; rw [← hr]
      exact ⟨k, rfl⟩
    | some old =>
      have : rv.route.addRoute m ⟨m, h⟩ = ((rv.route.addRoute m ⟨m, h⟩).1, some old) := by
        simp only [Resource.addRoute]; rw [← hg]; rfl
      rw [this]
      rw [hg] at hr; simp at hr; rw [← hr]
      refine ⟨k, ?_⟩
      simp [h5 m old hg]

/-! ### Inserting one entry -/

theorem prefix_self_append {F r : Str} (h : F ++ r <+: F) : r = [] := by
  have := h.length_le; simp at this; exact List.length_eq_zero_iff.1 (by omega)

/-- The reached node agrees with the log. -/
theorem Rep.target {n tgt : Node M H} {L : Log M H} {F : Str} (h : Rep n L)
    (ht : Node.Target n F tgt) : ValOK L F tgt.value ∧
      ∀ x, tgt.pn = some x ↔ ∃ e ∈ L, HasSeg e.segs F (':' :: x) := by
  have hr := ht.root
  rw [Node.view_nil] at hr
  cases hv : n.view F with
  | some vp =>
    obtain ⟨v, p⟩ := vp
    rw [hv] at hr; simp at hr
    rw [hr.1, hr.2]
    exact ⟨h.val F v p hv, h.par F v p hv⟩
  | none =>
    rw [hv] at hr; simp at hr
    have hF : F ≠ [] := by rintro rfl; simp at hv
    have hk := (h.view_none hF).1 hv
    rw [hr.1, hr.2]
    refine ⟨⟨?_, by simp⟩, ?_⟩
    · simp only [Option.isSome_none, Bool.false_eq, Bool.eq_false_iff]
      intro h'
      obtain ⟨e, he, h1, _⟩ := hasEntry_iff.1 h'
      exact hk (h1 ▸ known_flat he)
    · intro x
      simp only [reduceCtorEq, false_iff]
      rintro ⟨e, he, hx⟩
      exact hk (known_iff.2 (Or.inl ⟨e, he, hx.segEnd⟩))

theorem known_below {L : Log M H} {e : Entry M H} {r : Str} (hr : r ≠ []) :
    known (L ++ [e]) (flat e.segs ++ r) = true ↔ known L (flat e.segs ++ r) = true := by
  constructor
  · intro h
    rcases known_iff.1 h with ⟨e', he', hs⟩ | ⟨e₁, h₁, e₂, h₂, a, b, u, v, k1, k2, hab⟩
    · rcases List.mem_append.1 he' with he' | he'
      · exact known_iff.2 (Or.inl ⟨e', he', hs⟩)
      · simp at he'; subst he'
        exact absurd (prefix_self_append hs.prefix) hr
    · have key : ∀ e', e' ∈ L ++ [e] → ∀ c w, flat e'.segs = flat e.segs ++ r ++ c :: w → e' ∈ L := by
        intro e' he' c w hw
        rcases List.mem_append.1 he' with he' | he'
        · exact he'
        · simp at he'; subst he'
          have := congrArg List.length hw
          simp at this
      exact known_iff.2 (Or.inr ⟨e₁, key e₁ h₁ _ _ k1, e₂, key e₂ h₂ _ _ k2, a, b, u, v, k1, k2, hab⟩)
  · exact known_append_left

theorem Rep.put {n tgt m n' : Node M H} {L : Log M H} {e : Entry M H} (h : Rep n L)
    (hk : ∀ s ∈ e.segs, KeyOK s) (ha : ¬ Node.AmbSegs n e.segs)
    (ht : Node.Target n (flat e.segs) tgt) (hI : Node.InsertedL n e.segs m n')
    (hc : m.children = tgt.children) (hv : ValOK (L ++ [e]) (flat e.segs) m.value) :
    Rep n' (L ++ [e]) := by
  have hview : ∀ r, r ≠ [] → m.view r = n.view (flat e.segs ++ r) := by
    intro r hr
    rw [← ht.ext r hr, Node.view, Node.view, Node.sub_ne hr, Node.sub_ne hr, hc]
  have hpn : m.pn = tgt.pn := by simp [Node.pn, hc]
  refine h.insert (E := [e]) (ss := e.segs) ?_ ⟨e, by simp⟩ ?_ ha hI ?_ ?_ ?_
  · intro e' he'; simp at he'; subst he'; exact ⟨[], by simp⟩
  · intro e' he'; simp at he'; subst he'; exact hk
  · intro r
    by_cases hr : r = []
    · subst hr; simp
    · rw [hview r hr, h.pos, known_below hr]; simp [hr]
  · intro r v p hv'
    by_cases hr : r = []
    · subst hr; simp at hv'; rw [← hv'.1, List.append_nil]; exact hv
    · rw [hview r hr] at hv'
      refine (h.val _ v p hv').append ?_
      intro e' he' hf; simp at he'; subst he'
      have := congrArg List.length hf; simp at this; exact absurd this hr
  · intro r v p hv' x
    have hno : ¬ HasSeg e.segs (flat e.segs ++ r) (':' :: x) := by
      intro hx
      have := hx.prefix.length_le; simp at this; omega
    have hiff : (∃ e' ∈ L ++ [e], HasSeg e'.segs (flat e.segs ++ r) (':' :: x)) ↔
        ∃ e' ∈ L, HasSeg e'.segs (flat e.segs ++ r) (':' :: x) := by
      constructor
      · rintro ⟨e', he', hx⟩
        rcases List.mem_append.1 he' with he' | he'
        · exact ⟨e', he', hx⟩
        · simp at he'; subst he'; exact absurd hx hno
      · rintro ⟨e', he', hx⟩; exact ⟨e', by simp [he'], hx⟩
    rw [hiff]
    by_cases hr : r = []
    · subst hr
      simp at hv'
      rw [← hv'.2, hpn, List.append_nil]
      exact (h.target ht).2 x
    · rw [hview r hr] at hv'
      exact h.par _ v p hv' x

/-! ### Mounting -/

theorem segEnd_under {ss es : List Str} {r : Str} (hr : r ≠ []) :
    SegEnd (ss ++ es) (flat ss ++ r) ↔ SegEnd es r := by
  constructor
  · rintro ⟨a, b, hab, hf⟩
    rcases List.append_eq_append_iff.1 hab with ⟨c, h1, h2⟩ | ⟨c, h1, h2⟩
    · refine ⟨c, b, h2, ?_⟩
      rw [h1, flat_append, List.append_cancel_left_eq] at hf; exact hf
    · rw [h1, flat_append] at hf
      have := congrArg List.length hf; simp at this
      exact absurd this.2 hr
  · rintro ⟨a, b, rfl, rfl⟩; exact ⟨ss ++ a, b, by simp, by rw [flat_append]⟩

theorem hasSeg_under {ss es : List Str} {r t : Str} (hne : ∀ s ∈ ss, s ≠ []) :
    HasSeg (ss ++ es) (flat ss ++ r) t ↔ HasSeg es r t := by
  constructor
  · rintro ⟨a, b, hab, hf⟩
    rcases List.append_eq_append_iff.1 hab with ⟨c, h1, h2⟩ | ⟨c, h1, h2⟩
    · refine ⟨c, b, h2, ?_⟩
      rw [h1, flat_append, List.append_cancel_left_eq] at hf; exact hf
    · cases c with
      | nil =>
        simp at h1 h2; subst h1
        refine ⟨[], b, by simp [h2], ?_⟩
        simp at hf; simp [hf]
      | cons d c =>
        simp at h2
        rw [h1, flat_append] at hf
        have hd : d ≠ [] := hne d (by rw [h1]; simp)
        have h3 := congrArg List.length hf
        have h4 := List.length_pos_iff.2 hd
        simp only [flat_cons, List.length_append] at h3; omega
  · rintro ⟨a, b, rfl, rfl⟩; exact ⟨ss ++ a, b, by simp, by rw [flat_append]⟩

theorem Rep.mount {n src tgt n' : Node M H} {L S : Log M H} {ss : List Str} (h : Rep n L)
    (hs : Rep src S) (hk : ∀ s ∈ ss, KeyOK s) (ha : ¬ Node.AmbSegs n ss)
    (hI : Node.InsertedL n ss (.mk tgt.key src.value src.children) n') (hfree : Free L (flat ss)) :
    Rep n' (L ++ ⟨ss, .nothing⟩ :: S.map (Entry.under ss)) := by
  have hne : ∀ s ∈ ss, s ≠ [] := fun s hs => (hk s hs).ne_nil
  have hmv : ∀ r, (Node.mk tgt.key src.value src.children).view r = src.view r := fun r =>
    Node.view_congr (by simp) (by simp) r
  -- entries of `L` are not below
  have hL : ∀ e ∈ L, ∀ r, r ≠ [] → ¬ flat ss ++ r <+: flat e.segs := by
    intro e he r hr hp
    have := hfree.2 e he ((List.prefix_append _ _).trans hp)
    rw [this] at hp; exact hr (prefix_self_append hp)
  have hmem : ∀ e, e ∈ L ++ ⟨ss, .nothing⟩ :: S.map (Entry.under ss) ↔
      e ∈ L ∨ e = ⟨ss, .nothing⟩ ∨ ∃ e' ∈ S, e = e'.under ss := by
    intro e; simp only [List.mem_append, List.mem_cons, List.mem_map]
    constructor
    · rintro (h | h | ⟨e', h, rfl⟩)
      · exact Or.inl h
      · exact Or.inr (Or.inl h)
      · exact Or.inr (Or.inr ⟨e', h, rfl⟩)
    · rintro (h | h | ⟨e', h, rfl⟩)
      · exact Or.inl h
      · exact Or.inr (Or.inl h)
      · exact Or.inr (Or.inr ⟨e', h, rfl⟩)
  have hmemS : ∀ e' ∈ S, e'.under ss ∈ L ++ ⟨ss, .nothing⟩ :: S.map (Entry.under ss) :=
    fun e' he' => (hmem _).2 (Or.inr (Or.inr ⟨e', he', rfl⟩))
  refine h.insert (E := ⟨ss, .nothing⟩ :: S.map (Entry.under ss)) (ss := ss) ?_
    ⟨⟨ss, .nothing⟩, by simp⟩ ?_ ha hI ?_ ?_ ?_
  · intro e he
    rcases List.mem_cons.1 he with rfl | he
    · exact ⟨[], by simp⟩
    · obtain ⟨e', _, rfl⟩ := List.mem_map.1 he; exact ⟨e'.segs, rfl⟩
  · intro e he
    rcases List.mem_cons.1 he with rfl | he
    · exact hk
    · obtain ⟨e', he', rfl⟩ := List.mem_map.1 he
      intro s hs'
      rcases List.mem_append.1 hs' with hs' | hs'
      · exact hk s hs'
      · exact hs.clean e' he' s hs'
  · intro r
    rw [hmv, hs.pos]
    by_cases hr : r = []
    · subst hr; simp
    · simp only [hr, false_or]
      rw [known_iff, known_iff]
      constructor
      · rintro (⟨e, he, hx⟩ | ⟨e, he, e', he', a, b, u, v, h1, h2, hab⟩)
        · exact Or.inl ⟨e.under ss, hmemS e he, (segEnd_under hr).2 hx⟩
        · refine Or.inr ⟨e.under ss, hmemS e he, e'.under ss, hmemS e' he', a, b, u, v, ?_, ?_, hab⟩
          · simp [Entry.under, flat_append, h1]
          · simp [Entry.under, flat_append, h2]
      · rintro (⟨e, he, hx⟩ | ⟨e, he, e', he', a, b, u, v, h1, h2, hab⟩)
        · rcases (hmem e).1 he with he | rfl | ⟨e', he', rfl⟩
          · exact absurd hx.prefix (hL e he r hr)
          · exact absurd (prefix_self_append hx.prefix) hr
          · exact Or.inl ⟨e', he', (segEnd_under hr).1 hx⟩
        · have key : ∀ e ∈ L ++ ⟨ss, .nothing⟩ :: S.map (Entry.under ss), ∀ c w,
              flat e.segs = flat ss ++ r ++ c :: w → ∃ e' ∈ S, flat e'.segs = r ++ c :: w := by
            intro e he c w hw
            rcases (hmem e).1 he with he | rfl | ⟨e', he', rfl⟩
            · exact absurd (by rw [hw]; simp) (hL e he r hr)
            · have := congrArg List.length hw; simp at this
            · refine ⟨e', he', ?_⟩
              simpa [Entry.under, flat_append] using hw
          obtain ⟨e₁, k1, k2⟩ := key e he a u h1
          obtain ⟨e₂, k3, k4⟩ := key e' he' b v h2
          exact Or.inr ⟨e₁, k1, e₂, k3, a, b, u, v, k2, k4, hab⟩
  · intro r v p hv
    rw [hmv] at hv
    have hS := hs.val r v p hv
    have hLn : hasEntry L (flat ss ++ r) = false := by
      by_cases hr : r = []
      · subst hr; rw [List.append_nil]; exact hfree.1
      · rw [Bool.eq_false_iff]; intro h'
        obtain ⟨e, he, h1, _⟩ := hasEntry_iff.1 h'
        exact hL e he r hr (h1 ▸ List.prefix_rfl)
    have hat : ∀ e : Entry M H, (e.under ss).isAt (flat ss ++ r) = e.isAt r := by
      intro e; simp [Entry.under, Entry.isAt, flat_append]
    have hsplit : (⟨ss, .nothing⟩ :: S.map (Entry.under ss) : Log M H) =
      [⟨ss, .nothing⟩] ++ S.map (Entry.under ss) := rfl
    have e1 : hasEntry (L ++ ⟨ss, .nothing⟩ :: S.map (Entry.under ss)) (flat ss ++ r) =
        hasEntry S r := by
      rw [hsplit, hasEntry_append, hasEntry_append, hLn]
      simp only [hasEntry, List.any_map, Function.comp_def, hat]
      simp [Entry.under]
    have e2 : mwsAt (L ++ ⟨ss, .nothing⟩ :: S.map (Entry.under ss)) (flat ss ++ r) = mwsAt S r := by
      rw [hsplit, mwsAt_append, mwsAt_append, mwsAt_of_not hLn]
      simp only [mwsAt, List.filterMap_map, Function.comp_def, hat]
      simp [Entry.under]
    have e3 : ∀ m, routeAt (L ++ ⟨ss, .nothing⟩ :: S.map (Entry.under ss)) (flat ss ++ r) m =
        routeAt S r m := by
      intro m
      rw [hsplit, routeAt_append, routeAt_append, routeAt_of_not hLn]
      simp only [routeAt, List.filterMap_map, Function.comp_def, hat]
      simp [Entry.under]
    unfold ValOK
    rw [e1, e2]
    simp only [e3]
    exact hS
  · intro r v p hv x
    rw [hmv] at hv
    rw [hs.par r v p hv x]
    constructor
    · rintro ⟨e, he, hx⟩
      exact ⟨e.under ss, hmemS e he, (hasSeg_under hne).2 hx⟩
    · rintro ⟨e, he, hx⟩
      rcases (hmem e).1 he with he | rfl | ⟨e', he', rfl⟩
      · have := hx.prefix
        rw [List.append_assoc] at this
        exact absurd this (hL e he _ (by simp))
      · have := hx.prefix.length_le; simp at this; omega
      · exact ⟨e', he', (hasSeg_under hne).1 hx⟩

end Obsidian.Spec
