import Verif.Spec.Calls
import Verif.Proofs.Focus
import Verif.Proofs.Shift
import Verif.Props.Slashes

/-
Making the calls of a nested router on the outer one, with a path in front.
-/
namespace Obsidian
open Spec Node
variable {M H : Type}

/-- The router `r` is seen along `ks` as the node `s`, to be put back with `C`. -/
def Seen (r : Router M H) (ks : List Str) (C : Node M H → Node M H) (s : Node M H) : Prop :=
  ∀ path f, insertLoop path f ks r.routes.head = (C (f s).1, (f s).2)

theorem addRouteNode_rekey {path path' k : Str} {r : Route H} {n n' : Node M H}
    (h : RouteTrie.addRouteNode path r n = (n', none)) :
    RouteTrie.addRouteNode path' r (rekey k n) = (rekey k n', none) := by
  obtain ⟨k', v, cs⟩ := n
  rw [RouteTrie.addRouteNode] at h ⊢
  rw [rekey]
  simp only [value_mk, children_mk] at h ⊢
  split at h
  · split at h
    · cases h
    · cases h; rfl
  · split at h
    · cases h
    · cases h; rfl

theorem addRouteNode_path {path path' : Str} {r : Route H} {n n' : Node M H}
    (h : RouteTrie.addRouteNode path r n = (n', none)) : RouteTrie.addRouteNode path' r n = (n', none) := by
  have h1 := addRouteNode_rekey (path' := path') (k := n.key) h
  obtain ⟨k', v, cs⟩ := n
  have hk : n'.key = k' := by
    rw [RouteTrie.addRouteNode] at h
    split at h
    · split at h <;> cases h <;> rfl
    · split at h <;> cases h <;> rfl
  obtain ⟨k'', v', cs'⟩ := n'
  simp only [key_mk] at hk
  subst hk
  exact h1

theorem pushMiddleware_rekey (m : M) (k : Str) (n : Node M H) :
    RouteTrie.pushMiddleware m (rekey k n) = rekey k (RouteTrie.pushMiddleware m n) := by
  obtain ⟨k', v, cs⟩ := n
  cases v <;> rfl

theorem graft_path {path path' : Str} {src : RouteTrie M H} {n n' : Node M H}
    (h : RouteTrie.graft path src n = (n', none)) : RouteTrie.graft path' src n = (n', none) := by
  rw [RouteTrie.graft] at h ⊢
  split at h
  · cases h
  · next e => rw [if_neg e]; exact h

/-- A walk along a longer path. -/
theorem Seen.walk {r : Router M H} {ks : List Str} {C : Node M H → Node M H} {k : Str} {n n' : Node M H}
    (h : Seen r ks C (rekey k n)) (h0 : ks ≠ []) {path path' : Str} {f f' : Node M H → Out (Node M H)}
    (hf : ∀ t t', f t = (t', none) → f' t = (t', none)) {js : List Str} (hj : js ≠ [])
    (hn : insertLoop path f js n = (n', none)) :
    insertLoop path' f' (ks ++ js) r.routes.head = (C (rekey k n'), none) := by
  rw [insertLoop_append path' f' js hj ks _ h0, h, insertLoop_rekey, insertLoop_congr hf hn]

theorem checkStars_iff {p : Str} : checkStars p = none ↔ StarsOK (segments p) := by
  refine ⟨fun h => Classical.byContradiction fun hn => ?_, checkStars_ok⟩
  obtain ⟨e, h1, _⟩ := checkStars_err hn
  rw [h1] at h; cases h

/-- The calls on the tree of the nested router, on the outer tree. -/
theorem Seen.route {r : Router M H} {rs t' : RouteTrie M H} {p : Str} {C : Node M H → Node M H} {k : Str}
    (h : Seen r (segments p) C (rekey k rs.head)) (h0 : segments p ≠ []) (hp : StarsOK (segments p))
    (hs : NoStar (segments p)) {q path : Str} {x : Route H} (hx : rs.insertRoute q x = (t', none))
    (hpath : segments path = segments p ++ segments q) :
    r.routes.insertRoute path x = (⟨C (rekey k t'.head)⟩, none) := by
  rw [RouteTrie.insertRoute] at hx ⊢
  split at hx
  · cases hx
  · next hst =>
    have : checkStars path = none := by
      rw [checkStars_iff, hpath, starsOK_append hs hp]; exact checkStars_iff.1 hst
    rw [this]
    dsimp only
    rw [segs_eq, hpath, if_neg (by simp [h0])]
    rw [segs_eq] at hx
    split at hx
    · next hq =>
      rw [hq, List.append_nil, h]
      rw [RouteTrie.insertDefaultRoute] at hx
      cases ha : RouteTrie.addRouteNode ['/'] x rs.head with
      | mk n e =>
        rw [ha] at hx
        cases hx
        rw [addRouteNode_rekey ha]
    · next hq =>
      cases ha : insertLoop q (RouteTrie.addRouteNode q x) (segments q) rs.head with
      | mk n e =>
        rw [ha] at hx
        cases hx
        rw [h.walk h0 (fun _ _ => addRouteNode_path) hq ha]

theorem Seen.middleware {r : Router M H} {rs t' : RouteTrie M H} {p : Str} {C : Node M H → Node M H} {k : Str}
    (h : Seen r (segments p) C (rekey k rs.head)) (h0 : segments p ≠ []) (hp : StarsOK (segments p))
    (hs : NoStar (segments p)) {q path : Str} {x : M} (hx : rs.insertMiddleware q x = (t', none))
    (hq : segments q ≠ []) (hpath : segments path = segments p ++ segments q) :
    r.routes.insertMiddleware path x = (⟨C (rekey k t'.head)⟩, none) := by
  rw [RouteTrie.insertMiddleware] at hx ⊢
  split at hx
  · cases hx
  · next hst =>
    have : checkStars path = none := by
      rw [checkStars_iff, hpath, starsOK_append hs hp]; exact checkStars_iff.1 hst
    rw [this]
    dsimp only
    rw [segs_eq, hpath]
    rw [segs_eq] at hx
    cases ha : insertLoop q (fun n => (RouteTrie.pushMiddleware x n, none)) (segments q) rs.head with
    | mk n e =>
      rw [ha] at hx
      cases hx
      rw [h.walk h0 (fun _ _ => id) hq ha]

theorem Seen.mount {r : Router M H} {rs t' : RouteTrie M H} {p : Str} {C : Node M H → Node M H} {k : Str}
    (h : Seen r (segments p) C (rekey k rs.head)) (h0 : segments p ≠ []) (hp : StarsOK (segments p))
    (hs : NoStar (segments p)) {q path : Str} {x : RouteTrie M H} (hx : rs.insertSubRoute q x = (t', none))
    (hq : segments q ≠ []) (hpath : segments path = segments p ++ segments q) :
    r.routes.insertSubRoute path x = (⟨C (rekey k t'.head)⟩, none) := by
  rw [RouteTrie.insertSubRoute] at hx ⊢
  split at hx
  · cases hx
  · next hst =>
    have : checkStars path = none := by
      rw [checkStars_iff, hpath, starsOK_append hs hp]; exact checkStars_iff.1 hst
    rw [this]
    dsimp only
    rw [segs_eq, hpath, if_neg (by simp [h0])]
    rw [segs_eq, if_neg hq] at hx
    cases ha : insertLoop q (RouteTrie.graft q x) (segments q) rs.head with
    | mk n e =>
      rw [ha] at hx
      cases hx
      rw [h.walk h0 (fun _ _ => graft_path) hq ha]

theorem segments_prefixed (p q : Str) : segments (p ++ '/' :: q) = segments p ++ segments q :=
  Props.segmentsFrom_slash [] p q

/-- One call of a nested router, on the outer router. -/
theorem Seen.step {r rs rs' : Router M H} {p : Str} {C : Node M H → Node M H} {k : Str}
    (h : Seen r (segments p) C (rekey k rs.routes.head)) (h0 : segments p ≠ []) (hp : StarsOK (segments p))
    (hs : NoStar (segments p)) {c : Reg M H} (hc : c.run rs = (rs', none))
    (hrm : ∀ q sub, (c = .useRouter q sub ∨ c = .scope q sub) → segments q ≠ [])
    (hmw : ∀ q m, c = .useServiceTo q m → segments q ≠ []) :
    (prefixReg p c).run r = (⟨⟨C (rekey k rs'.routes.head)⟩⟩, none) := by
  have hroute : ∀ m q (x : H), rs.insertRoute m q x = (rs', none) →
      r.insertRoute m (p ++ '/' :: q) x = (⟨⟨C (rekey k rs'.routes.head)⟩⟩, none) := by
    intro m q x hx
    rw [Router.insertRoute] at hx ⊢
    cases ha : rs.routes.insertRoute q ⟨m, x⟩ with
    | mk t e =>
      rw [ha] at hx
      cases hx
      rw [h.route h0 hp hs ha (segments_prefixed p q)]
  have hmount : ∀ q path (sr : Router M H), segments q ≠ [] → segments path = segments p ++ segments q →
      rs.useRouter q sr = (rs', none) →
      r.useRouter path sr = (⟨⟨C (rekey k rs'.routes.head)⟩⟩, none) := by
    intro q path sr hq hpath hx
    rw [Router.useRouter] at hx ⊢
    cases ha : rs.routes.insertSubRoute q sr.routes with
    | mk t e =>
      rw [ha] at hx
      cases hx
      rw [h.mount h0 hp hs ha hq hpath]
  cases c with
  | get q x => exact hroute .get q x hc
  | post q x => exact hroute .post q x hc
  | put q x => exact hroute .put q x hc
  | patch q x => exact hroute .patch q x hc
  | delete q x => exact hroute .delete q x hc
  | useService m =>
    rw [Reg.run, Router.useService, RouteTrie.insertDefaultMiddleware] at hc
    cases hc
    rw [prefixReg, Reg.run, Router.useServiceTo, RouteTrie.insertMiddleware, checkStars_iff.2 hp, segs_eq]
    dsimp only
    rw [h, pushMiddleware_rekey]
  | useServiceTo q m =>
    rw [Reg.run, Router.useServiceTo] at hc
    rw [prefixReg, Reg.run, Router.useServiceTo]
    cases ha : rs.routes.insertMiddleware q m with
    | mk t e =>
      rw [ha] at hc
      cases hc
      rw [h.middleware h0 hp hs ha (hmw q m rfl) (segments_prefixed p q)]
  | useRouter q sub =>
    rw [Reg.run] at hc
    rw [prefixReg, Reg.run]
    split at hc
    · exact hmount q _ _ (hrm q sub (Or.inl rfl)) (segments_prefixed p q) hc
    · cases hc
  | scope q sub =>
    rw [Reg.run] at hc
    rw [prefixReg, Reg.run]
    split at hc
    · exact hmount ('/' :: q) _ _ (by rw [segments_slash]; exact hrm q sub (Or.inr rfl))
        (by rw [segments_slash, segments_slash]; exact segments_prefixed p q) hc
    · cases hc

theorem runRegs_none_cons {c : Reg M H} {cs : List (Reg M H)} {r r' : Router M H}
    (h : runRegs (c :: cs) r = (r', none)) : ∃ s, c.run r = (s, none) ∧ runRegs cs s = (r', none) := by
  rw [runRegs] at h
  split at h
  · next e => exact ⟨_, e, h⟩
  · cases h

/-- All calls of a nested router, on the outer router. -/
theorem Seen.all {p : Str} {C : Node M H → Node M H} {k : Str} (h0 : segments p ≠ []) (hp : StarsOK (segments p))
    (hs : NoStar (segments p))
    (hagain : ∀ s : Node M H, s.key = k → Seen ⟨⟨C s⟩⟩ (segments p) C s) (sub : List (Reg M H)) (hsub : sub ≠ [])
    (hrm : NoRootMount sub) (hmw : NoRootMw sub) : ∀ {r rs rs' : Router M H},
    Seen r (segments p) C (rekey k rs.routes.head) → runRegs sub rs = (rs', none) →
    runRegs (sub.map (prefixReg p)) r = (⟨⟨C (rekey k rs'.routes.head)⟩⟩, none) := by
  induction sub with
  | nil => exact absurd rfl hsub
  | cons c sub ih =>
    intro r rs rs' h hr
    obtain ⟨s, h1, h2⟩ := runRegs_none_cons hr
    have hstep := h.step h0 hp hs h1 (hrm c (by simp)) (fun q m e => hmw q m (by simp [e]))
    rw [List.map_cons, runRegs, hstep]
    dsimp only
    cases sub with
    | nil => rw [runRegs] at h2; cases h2; rfl
    | cons c' sub =>
      exact ih (List.cons_ne_nil _ _) (fun c' h' => hrm c' (List.mem_cons_of_mem _ h')) (fun q m e => hmw q m (List.mem_cons_of_mem _ e))
        (hagain _ rfl) h2

/-- Grafting a router is making its calls along the path. -/
theorem graft_prefix {r r' rs : Router M H} {p path : Str} {sub : List (Reg M H)} (h0 : segments p ≠ [])
    (hs : NoStar (segments p)) (hsub : sub ≠ []) (hrm : NoRootMount sub) (hmw : NoRootMw sub)
    (hpath : segments path = segments p) (hb : runRegs sub Router.new = (rs, none))
    (h : r.useRouter path rs = (r', none)) : runRegs (sub.map (prefixReg p)) r = (r', none) := by
  rw [Router.useRouter, RouteTrie.insertSubRoute] at h
  cases hst : checkStars path with
  | some e => rw [hst] at h; cases h
  | none =>
    rw [hst, segs_eq, hpath] at h
    dsimp only at h
    rw [if_neg h0] at h
    have hp := checkStars_iff.1 hst
    rw [hpath] at hp
    rcases focuses (segments p) h0 r.routes.head with ⟨t, C, hC⟩ | hC
    · rw [hC.first, RouteTrie.graft] at h
      split at h
      · cases h
      · next hv =>
        cases h
        have ht : t = rekey t.key (Router.new : Router M H).routes.head := by
          obtain ⟨k, v, cs⟩ := t
          cases v with
          | some v => simp at hv
          | none =>
            cases cs with
            | nil => rfl
            | cons c cs => simp at hv
        refine Seen.all h0 hp hs (fun s hk => hC.again ?_ s hk) sub hsub hrm hmw (r := r) (rs := Router.new) ?_ hb
        · intro x hx hm
          obtain ⟨pre, post, he⟩ := List.append_of_mem hx
          exact hs ((hp pre x post he hm).1 ▸ hx)
        · intro path f
          rw [← ht]; exact hC.first path f
    · exact absurd (by rw [Prod.mk.injEq] at h; exact h.2) (hC path _)

/-! ### The other way round -/

theorem rekey_back (k : Str) (n : Node M H) : rekey n.key (rekey k n) = n := by cases n; rfl

theorem Seen.walk_back {r : Router M H} {ks : List Str} {C : Node M H → Node M H} {k : Str} {n : Node M H}
    (h : Seen r ks C (rekey k n)) (h0 : ks ≠ []) {path path' : Str} {f f' : Node M H → Out (Node M H)}
    (hf : ∀ t t', f' t = (t', none) → f t = (t', none)) {js : List Str} (hj : js ≠ [])
    (hn : (insertLoop path' f' (ks ++ js) r.routes.head).2 = none) : (insertLoop path f js n).2 = none := by
  rw [insertLoop_append path' f' js hj ks _ h0, h, insertLoop_rekey] at hn
  rw [insertLoop_congr hf (Prod.ext rfl hn)]

/-- If a call with the path in front is accepted, so is the call on the nested router. -/
theorem Seen.back {r rs : Router M H} {p : Str} {C : Node M H → Node M H} {k : Str}
    (h : Seen r (segments p) C (rekey k rs.routes.head)) (h0 : segments p ≠ []) (hp : StarsOK (segments p))
    (hs : NoStar (segments p)) {c : Reg M H} (hc : ((prefixReg p c).run r).2 = none)
    (hrm : ∀ q sub, (c = .useRouter q sub ∨ c = .scope q sub) → segments q ≠ [])
    (hmw : ∀ q m, c = .useServiceTo q m → segments q ≠ []) : (c.run rs).2 = none := by
  have hstar : ∀ {path q e}, segments path = segments p ++ segments q → checkStars q = some e → checkStars path ≠ none := by
    intro path q e hpath hq hn
    rw [checkStars_iff, hpath, starsOK_append hs hp, ← checkStars_iff, hq] at hn
    cases hn
  have hroute : ∀ m q (x : H), (r.insertRoute m (p ++ '/' :: q) x).2 = none → (rs.insertRoute m q x).2 = none := by
    intro m q x hx
    have hpath := segments_prefixed p q
    rw [Router.insertRoute, RouteTrie.insertRoute] at hx ⊢
    cases hst : checkStars (p ++ '/' :: q) with
    | some e => rw [hst] at hx; cases hx
    | none =>
      cases hst' : checkStars q with
      | some e => exact absurd hst (hstar hpath hst')
      | none =>
        rw [hst] at hx
        dsimp only at hx ⊢
        rw [segs_eq, hpath, if_neg (by simp [h0])] at hx
        rw [segs_eq]
        split
        · next hq =>
          rw [hq, List.append_nil, h] at hx
          have := addRouteNode_rekey (path' := ['/']) (k := rs.routes.head.key) (Prod.ext rfl hx)
          rw [rekey_back] at this
          rw [RouteTrie.insertDefaultRoute, this]
        · next hq =>
          exact h.walk_back h0 (fun _ _ => addRouteNode_path) hq hx
  have hmount : ∀ q path (sr : Router M H), segments q ≠ [] → segments path = segments p ++ segments q →
      (r.useRouter path sr).2 = none → (rs.useRouter q sr).2 = none := by
    intro q path sr hq hpath hx
    rw [Router.useRouter, RouteTrie.insertSubRoute] at hx ⊢
    cases hst : checkStars path with
    | some e => rw [hst] at hx; cases hx
    | none =>
      cases hst' : checkStars q with
      | some e => exact absurd hst (hstar hpath hst')
      | none =>
        rw [hst] at hx
        dsimp only at hx ⊢
        rw [segs_eq, hpath, if_neg (by simp [h0])] at hx
        rw [segs_eq, if_neg hq]
        exact h.walk_back h0 (fun _ _ => graft_path) hq hx
  cases c with
  | get q x => exact hroute .get q x hc
  | post q x => exact hroute .post q x hc
  | put q x => exact hroute .put q x hc
  | patch q x => exact hroute .patch q x hc
  | delete q x => exact hroute .delete q x hc
  | useService m => rfl
  | useServiceTo q m =>
    have hpath := segments_prefixed p q
    rw [prefixReg, Reg.run, Router.useServiceTo, RouteTrie.insertMiddleware] at hc
    rw [Reg.run, Router.useServiceTo, RouteTrie.insertMiddleware]
    cases hst : checkStars (p ++ '/' :: q) with
    | some e => rw [hst] at hc; cases hc
    | none =>
      cases hst' : checkStars q with
      | some e => exact absurd hst (hstar hpath hst')
      | none =>
        rw [hst] at hc
        dsimp only at hc ⊢
        rw [segs_eq, hpath] at hc
        rw [segs_eq]
        exact h.walk_back h0 (fun _ _ => id) (hmw q m rfl) hc
  | useRouter q sub =>
    rw [prefixReg, Reg.run] at hc
    rw [Reg.run]
    split at hc
    · exact hmount q _ _ (hrm q sub (Or.inl rfl)) (segments_prefixed p q) hc
    · cases hc
  | scope q sub =>
    rw [prefixReg, Reg.run] at hc
    rw [Reg.run]
    split at hc
    · exact hmount ('/' :: q) _ _ (by rw [segments_slash]; exact hrm q sub (Or.inr rfl))
        (by rw [segments_slash, segments_slash]; exact segments_prefixed p q) hc
    · cases hc

theorem Seen.all_back {p : Str} {C : Node M H → Node M H} {k : Str} (h0 : segments p ≠ []) (hp : StarsOK (segments p))
    (hs : NoStar (segments p))
    (hagain : ∀ s : Node M H, s.key = k → Seen ⟨⟨C s⟩⟩ (segments p) C s) (sub : List (Reg M H))
    (hrm : NoRootMount sub) (hmw : NoRootMw sub) : ∀ {r rs : Router M H},
    Seen r (segments p) C (rekey k rs.routes.head) → (runRegs (sub.map (prefixReg p)) r).2 = none →
    (runRegs sub rs).2 = none := by
  induction sub with
  | nil => intros; rfl
  | cons c sub ih =>
    intro r rs h hr
    obtain ⟨s, h1, h2⟩ := runRegs_none_cons (r' := (runRegs ((c :: sub).map (prefixReg p)) r).1) (Prod.ext rfl hr)
    have hback := h.back h0 hp hs (c := c) (by rw [h1]) (hrm c (by simp)) (fun q m e => hmw q m (by simp [e]))
    have hstep := h.step h0 hp hs (c := c) (Prod.ext rfl hback) (hrm c (by simp)) (fun q m e => hmw q m (by simp [e]))
    rw [h1] at hstep
    cases hstep
    rw [runRegs]
    have : c.run rs = ((c.run rs).1, none) := Prod.ext rfl hback
    rw [this]
    exact ih (fun c' h' => hrm c' (List.mem_cons_of_mem _ h')) (fun q m e => hmw q m (List.mem_cons_of_mem _ e))
      (hagain _ rfl) (by rw [h2])

/-- If the calls with the path in front are accepted, and an empty router can be mounted there, then the
router can be mounted there. -/
theorem prefix_graft {r : Router M H} {p path : Str} {sub : List (Reg M H)} (h0 : segments p ≠ [])
    (hs : NoStar (segments p)) (hrm : NoRootMount sub) (hmw : NoRootMw sub) (hpath : segments path = segments p)
    (hfree : (r.useRouter p Router.new).2 = none) (h : (runRegs (sub.map (prefixReg p)) r).2 = none) :
    (runRegs sub Router.new).2 = none ∧ ∀ rs, (r.useRouter path rs).2 = none := by
  have hp : StarsOK (segments p) := by
    rw [← checkStars_iff]
    rw [Router.useRouter, RouteTrie.insertSubRoute] at hfree
    cases hst : checkStars p with
    | some e => rw [hst] at hfree; cases hfree
    | none => rfl
  rw [Router.useRouter, RouteTrie.insertSubRoute, checkStars_iff.2 hp, segs_eq] at hfree
  dsimp only at hfree
  rw [if_neg h0] at hfree
  rcases focuses (segments p) h0 r.routes.head with ⟨t, C, hC⟩ | hC
  · rw [hC.first] at hfree
    dsimp only at hfree
    rw [RouteTrie.graft] at hfree
    split at hfree
    · cases hfree
    · next hv =>
      constructor
      · have ht : t = rekey t.key (Router.new : Router M H).routes.head := by
          obtain ⟨k, v, cs⟩ := t
          cases v with
          | some v => simp at hv
          | none =>
            cases cs with
            | nil => rfl
            | cons c cs => simp at hv
        refine Seen.all_back h0 hp hs (fun s hk => hC.again ?_ s hk) sub hrm hmw (r := r) (rs := Router.new) ?_ h
        · intro x hx hm
          obtain ⟨pre, post, he⟩ := List.append_of_mem hx
          exact hs ((hp pre x post he hm).1 ▸ hx)
        · intro path f
          rw [← ht]; exact hC.first path f
      · intro rs
        rw [Router.useRouter, RouteTrie.insertSubRoute, checkStars_iff.2 (by rw [hpath]; exact hp), segs_eq, hpath]
        dsimp only
        rw [if_neg h0, hC.first, RouteTrie.graft, if_neg hv]
  · exact absurd hfree (hC p _)

end Obsidian
