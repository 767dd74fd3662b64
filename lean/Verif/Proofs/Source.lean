import Verif.Spec.Calls
import Verif.Model.Router
import Verif.Proofs.HMap
import Verif.Proofs.SpecBasics

/-
Where the handlers and middlewares in a tree come from, for paths of any form.
-/
namespace Obsidian.Proofs
open Obsidian Spec
variable {M H : Type}

mutual
/-- All values in the tree satisfy `P`. -/
def AllVals (P : RouteValue M H → Prop) : Node M H → Prop
  | .mk _ v cs => (∀ x, v = some x → P x) ∧ AllValsL P cs
/-- All values in the trees satisfy `P`. -/
def AllValsL (P : RouteValue M H → Prop) : List (Node M H) → Prop
  | [] => True
  | c :: cs => AllVals P c ∧ AllValsL P cs
end

section
variable {P P' : RouteValue M H → Prop}

mutual
theorem allVals_mono (h : ∀ x, P x → P' x) : ∀ n : Node M H, AllVals P n → AllVals P' n
  | .mk _ _ cs, ⟨h1, h2⟩ => ⟨fun x hx => h x (h1 x hx), allValsL_mono h cs h2⟩
theorem allValsL_mono (h : ∀ x, P x → P' x) : ∀ cs : List (Node M H), AllValsL P cs → AllValsL P' cs
  | [], _ => trivial
  | c :: cs, ⟨h1, h2⟩ => ⟨allVals_mono h c h1, allValsL_mono h cs h2⟩
end

theorem allVals_value {n : Node M H} (h : AllVals P n) {v : RouteValue M H} (hv : n.value = some v) : P v := by
  cases n with | mk k w cs => exact h.1 v hv

theorem allVals_children {n : Node M H} (h : AllVals P n) : AllValsL P n.children := by
  cases n with | mk k w cs => exact h.2

theorem allVals_set {n : Node M H} (h : AllVals P n) {v : RouteValue M H} (hv : P v) : AllVals P (n.setValue (some v)) := by
  cases n with
  | mk k w cs => exact ⟨fun x hx => by injection hx with hx; exact hx ▸ hv, h.2⟩

theorem allVals_new (k : Str) : AllVals P (Node.new k none : Node M H) := ⟨by simp, trivial⟩

theorem allValsL_append {cs : List (Node M H)} (h : AllValsL P cs) {n : Node M H} (hn : AllVals P n) : AllValsL P (cs ++ [n]) := by
  induction cs with
  | nil => exact ⟨hn, trivial⟩
  | cons c cs ih => exact ⟨h.1, ih h.2⟩

/-- The outcome of a change: the values afterwards satisfy `P'`, and `P` if the change was rejected. -/
def Fine (P P' : RouteValue M H → Prop) (bad : Option Panic → Prop) (o : Out (Node M H)) : Prop :=
  AllVals P' o.1 ∧ (bad o.2 → AllVals P o.1)

/-- The same for lists of nodes. -/
def FineL (P P' : RouteValue M H → Prop) (bad : Option Panic → Prop) (o : Out (List (Node M H))) : Prop :=
  AllValsL P' o.1 ∧ (bad o.2 → AllValsL P o.1)

variable {bad : Option Panic → Prop}

theorem fine_mk {k : Str} {v : Option (RouteValue M H)} {o : Out (List (Node M H))} (hm : ∀ x, P x → P' x)
    (hv : ∀ x, v = some x → P x) (h : FineL P P' bad o) : Fine P P' bad (.mk k v o.1, o.2) :=
  ⟨⟨fun x hx => hm x (hv x hx), h.1⟩, fun hb => ⟨hv, h.2 hb⟩⟩

theorem modifyChild_fine (hm : ∀ x, P x → P' x) {f : Node M H → Out (Node M H)} (hf : ∀ n, AllVals P n → Fine P P' bad (f n)) :
    ∀ (cs : List (Node M H)) (i : Nat), AllValsL P cs → FineL P P' bad (Node.modifyChild f cs i)
  | [], _, _ => ⟨trivial, fun _ => trivial⟩
  | c :: cs, 0, ⟨h1, h2⟩ => ⟨⟨(hf c h1).1, allValsL_mono hm cs h2⟩, fun hb => ⟨(hf c h1).2 hb, h2⟩⟩
  | c :: cs, i + 1, ⟨h1, h2⟩ =>
    have ih := modifyChild_fine hm hf cs i h2
    ⟨⟨allVals_mono hm c h1, ih.1⟩, fun hb => ⟨h1, ih.2 hb⟩⟩

theorem splitNode_fine (hm : ∀ x, P x → P' x) {f : Node M H → Out (Node M H)} (hf : ∀ n, AllVals P n → Fine P P' bad (f n))
    (count : Nat) (key : Str) (n : Node M H) (h : AllVals P n) : Fine P P' bad (Node.splitNode count key f n) := by
  unfold Node.splitNode
  split
  · next childKey newKey nodeKey _ _ _ =>
    have hi : AllVals P (.mk childKey n.value n.children) := ⟨fun x hx => allVals_value h hx, allVals_children h⟩
    split
    · exact hf _ ⟨by simp, hi, trivial⟩
    · have h1 := hf (Node.new newKey none) (allVals_new _)
      exact ⟨⟨by simp, h1.1, allVals_mono hm _ hi, trivial⟩, fun hb => ⟨by simp, h1.2 hb, hi, trivial⟩⟩
  · exact ⟨allVals_mono hm n h, fun _ => h⟩

mutual
theorem processInsertion_fine (hm : ∀ x, P x → P' x) (path : Str) {f : Node M H → Out (Node M H)}
    (hf : ∀ n, AllVals P n → Fine P P' bad (f n)) : ∀ (n : Node M H) (key : Str), AllVals P n →
      Fine P P' bad (n.processInsertion path key f)
  | .mk k v cs, key, ⟨h1, h2⟩ => by
    have same : Fine P P' bad (.mk k v cs, none) := ⟨allVals_mono hm _ ⟨h1, h2⟩, fun _ => ⟨h1, h2⟩⟩
    have hnew := hf (Node.new key none) (allVals_new _)
    unfold Node.processInsertion
    split
    · split
      · exact ⟨⟨fun x hx => hm x (h1 x hx), allValsL_append (allValsL_mono hm cs h2) hnew.1⟩,
          fun hb => ⟨h1, allValsL_append h2 (hnew.2 hb)⟩⟩
      · exact ⟨⟨fun x hx => hm x (h1 x hx), hnew.1, allValsL_mono hm cs h2⟩, fun hb => ⟨h1, hnew.2 hb, h2⟩⟩
    · exact fine_mk hm h1 (modifyChild_fine hm hf cs _ h2)
    · split
      · exact fine_mk hm h1 (processInsertionAt_fine hm path hf cs _ _ h2)
      · exact ⟨same.1, fun _ => ⟨h1, h2⟩⟩
    · exact fine_mk hm h1 (modifyChild_fine hm (splitNode_fine hm hf _ _) cs _ h2)
    · split
      · exact ⟨same.1, fun _ => ⟨h1, h2⟩⟩
      · exact ⟨same.1, fun _ => ⟨h1, h2⟩⟩
theorem processInsertionAt_fine (hm : ∀ x, P x → P' x) (path : Str) {f : Node M H → Out (Node M H)}
    (hf : ∀ n, AllVals P n → Fine P P' bad (f n)) : ∀ (cs : List (Node M H)) (i : Nat) (key : Str), AllValsL P cs →
      FineL P P' bad (Node.processInsertionAt path cs i key f)
  | [], _, _, _ => by unfold Node.processInsertionAt; exact ⟨trivial, fun _ => trivial⟩
  | c :: cs, 0, key, ⟨h1, h2⟩ => by
    unfold Node.processInsertionAt
    have ih := processInsertion_fine hm path hf c key h1
    exact ⟨⟨ih.1, allValsL_mono hm cs h2⟩, fun hb => ⟨ih.2 hb, h2⟩⟩
  | c :: cs, i + 1, key, ⟨h1, h2⟩ => by
    unfold Node.processInsertionAt
    have ih := processInsertionAt_fine hm path hf cs i key h2
    exact ⟨⟨allVals_mono hm c h1, ih.1⟩, fun hb => ⟨h1, ih.2 hb⟩⟩
end

theorem insertLoop_fine (hm : ∀ x, P x → P' x) (path : Str) {f : Node M H → Out (Node M H)}
    (hf : ∀ n, AllVals P n → Fine P P' bad (f n)) : ∀ (ks : List Str) (n : Node M H), AllVals P n →
      Fine P P' bad (Node.insertLoop path f ks n)
  | [], n, h => ⟨allVals_mono hm n h, fun _ => h⟩
  | [k], n, h => processInsertion_fine hm path hf n k h
  | k :: k' :: ks, n, h => processInsertion_fine hm path (fun n hn => insertLoop_fine hm path hf (k' :: ks) n hn) n k h

end

/-! ### The calls -/

/-- The handlers and middlewares of the value are in the log. -/
def From (L : Log M H) (v : RouteValue M H) : Prop :=
  (∀ mw ∈ v.middlewares, ∃ ss, ⟨ss, .middleware mw⟩ ∈ L) ∧
  ∀ m rt, v.route.routeMap.get m = some rt → ∃ ss, ⟨ss, .route m rt.handler⟩ ∈ L

theorem from_mono {L L' : Log M H} (h : ∀ e ∈ L, e ∈ L') (v : RouteValue M H) (hv : From L v) : From L' v :=
  ⟨fun mw hm => (hv.1 mw hm).imp fun _ => h _, fun m rt hr => (hv.2 m rt hr).imp fun _ => h _⟩

theorem from_append {L L' : Log M H} (v : RouteValue M H) (hv : From L v) : From (L ++ L') v :=
  from_mono (fun _ h => List.mem_append_left _ h) v hv

theorem addRouteNode_fine {L : Log M H} (path : Str) (ss : List Str) (m : Method) (hd : H) (n : Node M H) (h : AllVals (From L) n) :
    Fine (From L) (From (L ++ [⟨ss, .route m hd⟩])) (fun o => ∃ p, o = some p ∧ ∀ m' q, p ≠ .duplicated m' q)
      (RouteTrie.addRouteNode path ⟨m, hd⟩ n) := by
  have h' := allVals_mono (P' := From (L ++ [⟨ss, .route m hd⟩])) from_append n h
  have new : ∀ (mp : HMap Method (Route H)), (∀ k rt, mp.get k = some rt → ∃ s', (⟨s', .route k rt.handler⟩ : Entry M H) ∈ L) →
      ∀ k rt, (mp.insert m ⟨m, hd⟩).get k = some rt → ∃ s', ⟨s', .route k rt.handler⟩ ∈ L ++ [⟨ss, .route m hd⟩] := by
    intro mp hmp k rt hg
    rw [HMap.get_insert] at hg
    split at hg
    · next hk => subst hk; injection hg with hg; subst hg; exact ⟨ss, by simp⟩
    · exact (hmp k rt hg).imp fun _ h => List.mem_append_left _ h
  cases hv : n.value with
  | some v =>
    have hP := allVals_value h hv
    have hset : AllVals (From (L ++ [⟨ss, .route m hd⟩])) (n.setValue (some { v with route := (v.route.addRoute m ⟨m, hd⟩).1 })) :=
      allVals_set h' ⟨(from_append v hP).1, new _ hP.2⟩
    cases hr : v.route.addRoute m ⟨m, hd⟩ with
    | mk res dup =>
      rw [hr] at hset
      cases dup with
      | some dup =>
        rw [show RouteTrie.addRouteNode path ⟨m, hd⟩ n = (n.setValue (some { v with route := res }), some (.duplicated dup.method path)) by
          simp only [RouteTrie.addRouteNode, hv, hr]]
        exact ⟨hset, fun ⟨p, hp, hno⟩ => by injection hp with hp; exact absurd hp.symm (hno _ _)⟩
      | none =>
        rw [show RouteTrie.addRouteNode path ⟨m, hd⟩ n = (n.setValue (some { v with route := res }), none) by
          simp only [RouteTrie.addRouteNode, hv, hr]]
        exact ⟨hset, fun ⟨p, hp, _⟩ => by cases hp⟩
  | none =>
    cases hr : (RouteValue.default : RouteValue M H).route.addRoute m ⟨m, hd⟩ with
    | mk res dup =>
      have hres : res = (Resource.default.addRoute m ⟨m, hd⟩).1 := by
        rw [show (Resource.default : Resource H) = (RouteValue.default : RouteValue M H).route from rfl, hr]
      cases dup with
      | some dup =>
        rw [show RouteTrie.addRouteNode path ⟨m, hd⟩ n = (n, some (.duplicated dup.method path)) by
          simp only [RouteTrie.addRouteNode, hv, hr]]
        exact ⟨h', fun _ => h⟩
      | none =>
        rw [show RouteTrie.addRouteNode path ⟨m, hd⟩ n = (n.setValue (some ⟨[], res⟩), none) by
          simp only [RouteTrie.addRouteNode, hv, hr]]
        refine ⟨allVals_set h' ⟨by simp, ?_⟩, fun ⟨p, hp, _⟩ => by cases hp⟩
        subst hres
        refine new HMap.empty ?_
        intro k rt hk; cases hk

theorem pushMiddleware_fine {L : Log M H} (ss : List Str) (mw : M) (n : Node M H) (h : AllVals (From L) n) :
    AllVals (From (L ++ [⟨ss, .middleware mw⟩])) (RouteTrie.pushMiddleware mw n) := by
  have h' := allVals_mono (P' := From (L ++ [⟨ss, .middleware mw⟩])) from_append n h
  unfold RouteTrie.pushMiddleware
  split
  · next v hv =>
    have hP := from_append (L' := [⟨ss, .middleware mw⟩]) v (allVals_value h hv)
    refine allVals_set h' ⟨fun x hx => ?_, hP.2⟩
    rcases List.mem_append.1 hx with hx | hx
    · exact hP.1 x hx
    · rw [List.mem_singleton] at hx; subst hx; exact ⟨ss, by simp⟩
  · exact allVals_set h' ⟨fun x hx => by rw [List.mem_singleton] at hx; subst hx; exact ⟨ss, by simp⟩, by intro k rt hk; cases hk⟩

/-- The handlers and middlewares of the router are in the log. -/
def Sourced (r : Router M H) (L : Log M H) : Prop := AllVals (From L) r.routes.head

theorem sourced_mono {r : Router M H} {L L' : Log M H} (h : ∀ e ∈ L, e ∈ L') (hr : Sourced r L) : Sourced r L' :=
  allVals_mono (from_mono h) _ hr

theorem insertRoute_sourced {r : Router M H} {L : Log M H} (h : Sourced r L) (m : Method) (path : Str) (hd : H) :
    Sourced (r.insertRoute m path hd).1 (L ++ [⟨segments path, .route m hd⟩]) ∧
    ((∃ p, (r.insertRoute m path hd).2 = some p ∧ ∀ m' q, p ≠ .duplicated m' q) → Sourced (r.insertRoute m path hd).1 L) := by
  have hm : ∀ e ∈ L, e ∈ L ++ [⟨segments path, .route m hd⟩] := fun _ h => List.mem_append_left _ h
  cases hcs : checkStars path with
  | some p =>
    rw [show r.insertRoute m path hd = (r, some p) by simp only [Router.insertRoute, RouteTrie.insertRoute, hcs]]
    exact ⟨sourced_mono hm h, fun _ => h⟩
  | none =>
    by_cases h0 : segs path = []
    · rw [show r.insertRoute m path hd = (⟨⟨(RouteTrie.addRouteNode ['/'] ⟨m, hd⟩ r.routes.head).1⟩⟩,
          (RouteTrie.addRouteNode ['/'] ⟨m, hd⟩ r.routes.head).2) by
        simp only [Router.insertRoute, RouteTrie.insertRoute, hcs, h0, if_true, RouteTrie.insertDefaultRoute]]
      exact addRouteNode_fine ['/'] (segments path) m hd _ h
    · rw [show r.insertRoute m path hd = (⟨⟨(Node.insertLoop path (RouteTrie.addRouteNode path ⟨m, hd⟩) (segs path) r.routes.head).1⟩⟩,
          (Node.insertLoop path (RouteTrie.addRouteNode path ⟨m, hd⟩) (segs path) r.routes.head).2) by
        simp only [Router.insertRoute, RouteTrie.insertRoute, hcs, h0, if_false]]
      exact insertLoop_fine from_append path (addRouteNode_fine path (segments path) m hd) _ _ h

theorem useServiceTo_sourced {r : Router M H} {L : Log M H} (h : Sourced r L) (path : Str) (mw : M) :
    Sourced (r.useServiceTo path mw).1 (if segments path = [] then L else L ++ [⟨segments path, .middleware mw⟩]) ∧
    ((∃ p, (r.useServiceTo path mw).2 = some p) → Sourced (r.useServiceTo path mw).1 L) := by
  by_cases h0 : segments path = []
  · rw [if_pos h0]
    have : (r.useServiceTo path mw).1 = r := by
      cases hcs : checkStars path with
      | some p => simp only [Router.useServiceTo, RouteTrie.insertMiddleware, hcs]
      | none => simp only [Router.useServiceTo, RouteTrie.insertMiddleware, hcs, segs_eq, h0, Node.insertLoop]
    rw [this]; exact ⟨h, fun _ => h⟩
  · rw [if_neg h0]
    have hm : ∀ e ∈ L, e ∈ L ++ [⟨segments path, .middleware mw⟩] := fun _ h => List.mem_append_left _ h
    cases hcs : checkStars path with
    | some p =>
      rw [show r.useServiceTo path mw = (r, some p) by simp only [Router.useServiceTo, RouteTrie.insertMiddleware, hcs]]
      exact ⟨sourced_mono hm h, fun _ => h⟩
    | none =>
      rw [show r.useServiceTo path mw = (⟨⟨(Node.insertLoop path (fun n => (RouteTrie.pushMiddleware mw n, none)) (segs path) r.routes.head).1⟩⟩,
          (Node.insertLoop path (fun n => (RouteTrie.pushMiddleware mw n, none)) (segs path) r.routes.head).2) by
        simp only [Router.useServiceTo, RouteTrie.insertMiddleware, hcs]]
      exact insertLoop_fine (bad := fun o => ∃ p, o = some p) from_append path
        (fun n hn => ⟨pushMiddleware_fine (segments path) mw n hn, fun ⟨p, hp⟩ => by cases hp⟩) _ _ h

theorem useService_sourced {r : Router M H} {L : Log M H} (h : Sourced r L) (mw : M) :
    Sourced (r.useService mw) (L ++ [⟨[], .middleware mw⟩]) := pushMiddleware_fine [] mw _ h

/-- The entries of a mounted router under its path. -/
theorem from_under {S : Log M H} (ss : List Str) (v : RouteValue M H) (h : From S v) : From (S.map (Entry.under ss)) v :=
  ⟨fun mw hm => let ⟨x, hx⟩ := h.1 mw hm; ⟨ss ++ x, List.mem_map.2 ⟨_, hx, rfl⟩⟩,
   fun m rt hr => let ⟨x, hx⟩ := h.2 m rt hr; ⟨ss ++ x, List.mem_map.2 ⟨_, hx, rfl⟩⟩⟩

theorem useRouter_sourced {r s : Router M H} {L S : Log M H} (h : Sourced r L) (h' : Sourced s S) (path : Str) :
    ((r.useRouter path s).2 = none → Sourced (r.useRouter path s).1 (mountLog (segments path) L S)) ∧
    ((∃ p, (r.useRouter path s).2 = some p) → Sourced (r.useRouter path s).1 L) := by
  cases hcs : checkStars path with
  | some p =>
    rw [show r.useRouter path s = (r, some p) by simp only [Router.useRouter, RouteTrie.insertSubRoute, hcs]]
    exact ⟨fun hn => by simp at hn, fun _ => h⟩
  | none =>
    by_cases h0 : segments path = []
    · rw [show r.useRouter path s = (⟨⟨s.routes.head⟩⟩, none) by
        simp only [Router.useRouter, RouteTrie.insertSubRoute, hcs, segs_eq, h0, if_true]]
      rw [mountLog, if_pos h0]
      exact ⟨fun _ => h', fun ⟨p, hp⟩ => by cases hp⟩
    · rw [show r.useRouter path s = (⟨⟨(Node.insertLoop path (RouteTrie.graft path s.routes) (segs path) r.routes.head).1⟩⟩,
          (Node.insertLoop path (RouteTrie.graft path s.routes) (segs path) r.routes.head).2) by
        simp only [Router.useRouter, RouteTrie.insertSubRoute, hcs, segs_eq, h0, if_false]]
      have hm : ∀ v, From L v → From (mountLog (segments path) L S) v := by
        rw [mountLog, if_neg h0]; exact from_append
      have := insertLoop_fine (bad := fun o => ∃ p, o = some p) (P := From L) (P' := From (mountLog (segments path) L S)) hm path
        (f := RouteTrie.graft path s.routes) (fun n hn => by
          unfold RouteTrie.graft
          split
          · exact ⟨allVals_mono hm n hn, fun _ => hn⟩
          · have hu : ∀ v, From S v → From (mountLog (segments path) L S) v := fun v hv => by
              rw [mountLog, if_neg h0]
              exact from_mono (fun e he => List.mem_append_right _ (List.mem_cons_of_mem _ he)) v (from_under (segments path) v hv)
            exact ⟨⟨fun x hx => hu x (allVals_value h' hx), allValsL_mono hu _ (allVals_children h')⟩,
              fun ⟨p, hp⟩ => by cases hp⟩) (segs path) _ h
      exact ⟨fun _ => this.1, fun hp => this.2 hp⟩

mutual
/-- What a call adds, if it succeeds. -/
theorem run_sourced : ∀ (c : Reg M H) {r : Router M H} {L : Log M H}, Sourced r L → (c.run r).2 = none →
    Sourced (c.run r).1 (logReg c L)
  | .get p k, r, L, h, _ => by rw [logReg]; exact (insertRoute_sourced h .get p k).1
  | .post p k, r, L, h, _ => by rw [logReg]; exact (insertRoute_sourced h .post p k).1
  | .put p k, r, L, h, _ => by rw [logReg]; exact (insertRoute_sourced h .put p k).1
  | .patch p k, r, L, h, _ => by rw [logReg]; exact (insertRoute_sourced h .patch p k).1
  | .delete p k, r, L, h, _ => by rw [logReg]; exact (insertRoute_sourced h .delete p k).1
  | .useService m, r, L, h, _ => by rw [logReg]; exact useService_sourced h m
  | .useServiceTo p m, r, L, h, _ => by rw [logReg]; exact (useServiceTo_sourced h p m).1
  | .useRouter p sub, r, L, h, hn => by
    rw [logReg]
    rw [Reg.run] at hn ⊢
    cases hb : runRegs sub Router.new with
    | mk s e =>
      rw [hb] at hn
      cases e with
      | none =>
        have hs := runRegs_sourced sub (r := Router.new) (L := []) (allVals_new _) (by rw [hb])
        rw [hb] at hs
        exact (useRouter_sourced h hs p).1 hn
      | some e => cases hn
  | .scope p sub, r, L, h, hn => by
    rw [logReg]
    rw [Reg.run] at hn ⊢
    cases hb : runRegs sub Router.new with
    | mk s e =>
      rw [hb] at hn
      cases e with
      | none =>
        have hs := runRegs_sourced sub (r := Router.new) (L := []) (allVals_new _) (by rw [hb])
        rw [hb] at hs
        have := (useRouter_sourced h hs ('/' :: p)).1 hn
        rwa [segments_slash] at this
      | some e => cases hn
/-- What the calls add, if they succeed. -/
theorem runRegs_sourced : ∀ (cs : List (Reg M H)) {r : Router M H} {L : Log M H}, Sourced r L → (runRegs cs r).2 = none →
    Sourced (runRegs cs r).1 (logRegs cs L)
  | [], r, L, h, _ => by rw [logRegs]; exact h
  | c :: cs, r, L, h, hn => by
    rw [runRegs] at hn ⊢
    rw [logRegs]
    have h1 := run_sourced c (L := L) h
    cases hb : c.run r with
    | mk r' e =>
      rw [hb] at hn h1
      cases e with
      | none => exact runRegs_sourced cs (h1 rfl) hn
      | some e => cases hn
end

/-! ### Lookups -/

/-- The middlewares are in the log. -/
def MwsFrom (L : Log M H) (mws : List M) : Prop := ∀ mw ∈ mws, ∃ ss, ⟨ss, .middleware mw⟩ ∈ L

theorem mwsFrom_append {L : Log M H} {a b : List M} (ha : MwsFrom L a) (hb : MwsFrom L b) : MwsFrom L (a ++ b) :=
  fun mw hm => (List.mem_append.1 hm).elim (ha mw) (hb mw)

theorem mwsFrom_node {L : Log M H} {n : Node M H} (h : AllVals (From L) n) : MwsFrom L n.mws := by
  unfold Node.mws
  split
  · next v hv => exact (allVals_value h hv).1
  · intro mw hm; cases hm

/-- What a search leaves behind comes from the log. -/
def SearchFrom (L : Log M H) : Search M H → Prop
  | .panic _ => True
  | .notFound _ _ mws => MwsFrom L mws
  | .found n _ mws => AllVals (From L) n ∧ MwsFrom L mws

theorem starChild_all {P : RouteValue M H → Prop} : ∀ {cs : List (Node M H)} {c : Node M H}, AllValsL P cs → Node.starChild cs = some c →
    AllVals P c
  | [], _, _, h => by cases h
  | d :: cs, c, ⟨h1, h2⟩, h => by
    rw [Node.starChild] at h
    split at h
    · injection h with h; exact h ▸ h1
    · exact starChild_all h2 h

mutual
theorem getNextNode_from {L : Log M H} : ∀ (n : Node M H) (key : List Str) (ps : HMap Str Str) (mws : List M) (brk : Bool),
    AllVals (From L) n → MwsFrom L mws → SearchFrom L (n.getNextNode key ps mws brk)
  | .mk _ _ cs, [], _, _, _, _, _ => by unfold Node.getNextNode; trivial
  | .mk _ _ cs, curr :: key, ps, mws, brk, h, hm => by
    unfold Node.getNextNode
    exact getNextLoop_from cs curr key ps mws brk h.2 hm
theorem getNextLoop_from {L : Log M H} : ∀ (cs : List (Node M H)) (curr : Str) (key : List Str) (ps : HMap Str Str) (mws : List M)
    (brk : Bool), AllValsL (From L) cs → MwsFrom L mws → SearchFrom L (Node.getNextLoop cs curr key ps mws brk)
  | [], _, _, _, _, _, _, hm => by unfold Node.getNextLoop; exact hm
  | node :: rest, curr, key, ps, mws, brk, ⟨h1, h2⟩, hm => by
    have hn := mwsFrom_node h1
    have below : ∀ (k : List Str) (b : Bool) (g : HMap Str Str → HMap Str Str), SearchFrom L (match node.getNextNode k ps mws b with
        | .panic p => .panic p
        | .found n params mws => .found n (g params) (mws ++ node.mws)
        | .notFound key params mws => Node.getNextLoop rest curr key params mws brk) := by
      intro k b g
      have ih := getNextNode_from node k ps mws b h1 hm
      revert ih
      cases node.getNextNode k ps mws b with
      | panic p => intro _; trivial
      | found n params mws' => intro ih; exact ⟨ih.1, mwsFrom_append ih.2 hn⟩
      | notFound key' params mws' => intro ih; exact getNextLoop_from rest curr key' params mws' brk h2 ih
    have next := fun k p => getNextLoop_from rest curr k p mws brk h2 hm
    unfold Node.getNextLoop
    split
    · split
      · trivial
      · next name _ =>
        split
        · split
          · next v hv => exact ⟨h1, mwsFrom_append hm (allVals_value h1 hv).1⟩
          · exact next _ _
        · exact below key false (fun params => params.insert name curr)
    · split
      · exact ⟨h1, mwsFrom_append hm hn⟩
      · dsimp only
        split
        · split
          · trivial
          · split
            · exact below _ true id
            · exact next _ _
        · split
          · split
            · split
              · next v hv => exact ⟨h1, mwsFrom_append hm (allVals_value h1 hv).1⟩
              · split
                · next child hc =>
                  have := starChild_all (allVals_children h1) hc
                  exact ⟨this, mwsFrom_append hm (mwsFrom_node this)⟩
                · exact next _ _
            · exact below key false id
          · exact next _ _
end

/-- What is found comes from the log. -/
theorem search_from {r : Router M H} {L : Log M H} (h : Sourced r L) {path : Str} {v : RouteValueResult M H}
    (hs : r.searchRoute path = .ok (some v)) : MwsFrom L v.getMiddlewares ∧
      ∀ m rt, v.getRoute m = some rt → ∃ ss, ⟨ss, .route m rt.handler⟩ ∈ L := by
  have fin : ∀ (n : Node M H) (ps : HMap Str Str) (mws : List M), AllVals (From L) n → MwsFrom L mws →
      RouteTrie.finish n ps mws = some v → MwsFrom L v.getMiddlewares ∧
        ∀ m rt, v.getRoute m = some rt → ∃ ss, ⟨ss, .route m rt.handler⟩ ∈ L := by
    intro n ps mws hn hm hf
    unfold RouteTrie.finish at hf
    split at hf
    · next w hw =>
      injection hf with hf; subst hf
      exact ⟨hm, (allVals_value hn hw).2⟩
    · cases hf
  unfold Router.searchRoute RouteTrie.searchRoute at hs
  have hm := mwsFrom_node h
  split at hs
  · injection hs with hs; exact fin _ _ _ h hm hs
  · have := getNextNode_from r.routes.head (segs path) HMap.empty r.routes.head.mws false h hm
    revert hs this
    cases r.routes.head.getNextNode (segs path) HMap.empty r.routes.head.mws false with
    | panic p => intro hs; cases hs
    | notFound => intro hs; cases hs
    | found n ps mws => intro hs this; injection hs with hs; exact fin _ _ _ this.1 this.2 hs

end Obsidian.Proofs
