import Verif.Spec.Reading
import Verif.Proofs.Source
import Verif.Proofs.WayInsert

/-
Where in the tree the handlers and middlewares are, and which requests are led there, for paths of any form.
-/
namespace Obsidian.Proofs
open Obsidian Spec Node
variable {M H : Type}

mutual
/-- The values in the tree satisfy `P` at their places; `q` is the place of the node. -/
def AllAt (P : Str → RouteValue M H → Prop) : Str → Node M H → Prop
  | q, .mk _ v cs => (∀ x, v = some x → P q x) ∧ AllAtL P q cs
/-- The values in the trees below the place `q` satisfy `P` at their places. -/
def AllAtL (P : Str → RouteValue M H → Prop) : Str → List (Node M H) → Prop
  | _, [] => True
  | q, c :: cs => (c.key ≠ [] ∧ AllAt P (q ++ c.key) c) ∧ AllAtL P q cs
end

section
variable {P P' : Str → RouteValue M H → Prop}

theorem allAt_iff {q : Str} {n : Node M H} : AllAt P q n ↔ (∀ x, n.value = some x → P q x) ∧ AllAtL P q n.children := by
  cases n with | mk k v cs => exact Iff.rfl

theorem allAtL_iff {q : Str} {cs : List (Node M H)} : AllAtL P q cs ↔ ∀ c ∈ cs, c.key ≠ [] ∧ AllAt P (q ++ c.key) c := by
  induction cs with
  | nil => simp [AllAtL]
  | cons c cs ih => simp [AllAtL, ih]

mutual
theorem allAt_mono (h : ∀ q x, P q x → P' q x) : ∀ (q : Str) (n : Node M H), AllAt P q n → AllAt P' q n
  | q, .mk _ _ cs, ⟨h1, h2⟩ => ⟨fun x hx => h q x (h1 x hx), allAtL_mono h q cs h2⟩
theorem allAtL_mono (h : ∀ q x, P q x → P' q x) : ∀ (q : Str) (cs : List (Node M H)), AllAtL P q cs → AllAtL P' q cs
  | _, [], _ => trivial
  | q, c :: cs, ⟨h1, h2⟩ => ⟨⟨h1.1, allAt_mono h _ c h1.2⟩, allAtL_mono h q cs h2⟩
end

mutual
/-- Moving a tree to another place. -/
theorem allAt_shift {p : Str} (h : ∀ q x, P q x → P' (p ++ q) x) : ∀ (q : Str) (n : Node M H), AllAt P q n → AllAt P' (p ++ q) n
  | q, .mk _ _ cs, ⟨h1, h2⟩ => ⟨fun x hx => h q x (h1 x hx), allAtL_shift h q cs h2⟩
theorem allAtL_shift {p : Str} (h : ∀ q x, P q x → P' (p ++ q) x) : ∀ (q : Str) (cs : List (Node M H)), AllAtL P q cs →
    AllAtL P' (p ++ q) cs
  | _, [], _ => trivial
  | q, c :: cs, ⟨h1, h2⟩ => ⟨⟨h1.1, by rw [List.append_assoc]; exact allAt_shift h _ c h1.2⟩, allAtL_shift h q cs h2⟩
end

/-- A change of the node at the place `q`. -/
def Placed (P P' : Str → RouteValue M H → Prop) (q : Str) (f : Node M H → Out (Node M H)) : Prop :=
  ∀ n, AllAt P q n → AllAt P' q (f n).1 ∧ (f n).1.key = n.key

theorem allAt_new (q k : Str) : AllAt P q (Node.new k none : Node M H) := ⟨by simp, trivial⟩

theorem allAtL_replace {q : Str} {pre post : List (Node M H)} {c c' : Node M H} (h : AllAtL P' q (pre ++ c :: post))
    (hk : c'.key ≠ []) (hc : AllAt P' (q ++ c'.key) c') : AllAtL P' q (pre ++ c' :: post) := by
  rw [allAtL_iff] at h ⊢
  intro d hd
  rcases List.mem_append.1 hd with hd | hd
  · exact h d (by simp [hd])
  · rcases List.mem_cons.1 hd with rfl | hd
    · exact ⟨hk, hc⟩
    · exact h d (by simp [hd])

theorem placed_process (hm : ∀ q x, P q x → P' q x) {path : Str} (N : Nat) : ∀ {key : Str}, key.length ≤ N → key ≠ [] →
    ∀ {q : Str} {f : Node M H → Out (Node M H)}, Placed P P' (q ++ key) f →
      Placed P P' q (fun n => processInsertion path n key f) := by
  induction N with
  | zero => intro key hl hk; exact absurd (List.length_eq_zero_iff.1 (by omega)) hk
  | succ N ih =>
    intro key hl hk q f hf n hn
    cases n with
    | mk k v cs =>
      have hn' := allAt_mono hm q _ hn
      have hv' : ∀ x, v = some x → P' q x := hn'.1
      have hcs := hn.2
      have hcs' : AllAtL P' q cs := hn'.2
      have hdec := decides_ne (fun c hc => ((allAtL_iff.1 hcs) c hc).1) hk
      have hmem : ∀ c ∈ cs, c.key ≠ [] ∧ AllAt P (q ++ c.key) c := allAtL_iff.1 hcs
      dsimp only
      rw [processInsertion]
      generalize insertionAction cs key = act at hdec ⊢
      cases hdec with
      | error => dsimp only; split <;> exact ⟨hn', rfl⟩
      | create hp hc =>
        obtain ⟨h1, h2⟩ := hf (Node.new key none) (allAt_new _ _)
        have h2 : (f (Node.new key none)).1.key = key := h2
        have hnew : (f (Node.new key none)).1.key ≠ [] ∧ AllAt P' (q ++ (f (Node.new key none)).1.key) (f (Node.new key none)).1 :=
          ⟨by rw [h2]; exact hk, by rw [h2]; exact h1⟩
        dsimp only
        split
        · refine ⟨⟨hv', allAtL_iff.2 fun d hd => ?_⟩, rfl⟩
          rcases List.mem_append.1 hd with hd | hd
          · exact allAtL_iff.1 hcs' d hd
          · rw [List.mem_singleton] at hd; subst hd; exact hnew
        · exact ⟨⟨hv', hnew, hcs'⟩, rfl⟩
      | @next pre post c e hck hp hc =>
        subst e
        simp only [modifyChild_mid]
        have hcm := hmem c (by simp)
        obtain ⟨h1, h2⟩ := hf c (by rw [← hck]; exact hcm.2)
        exact ⟨⟨hv', allAtL_replace hcs' (by rw [h2]; exact hcm.1) (by rw [h2, hck]; exact h1)⟩, rfl⟩
      | @splitKey pre post c rest e hkey hr hp hcp =>
        subst e
        subst hkey
        simp only [sliceFrom_append, processInsertionAt_mid]
        have hcm := hmem c (by simp)
        have hlen : rest.length ≤ N := by
          have := List.length_pos_iff.2 hcm.1
          simp at hl; omega
        rw [← List.append_assoc] at hf
        obtain ⟨h1, h2⟩ := ih hlen hr hf c hcm.2
        exact ⟨⟨hv', allAtL_replace hcs' (by rw [h2]; exact hcm.1) (by rw [h2]; exact h1)⟩, rfl⟩
      | @splitNode pre post c L ck nk e hck hkey hL hckn hnk hp hcp =>
        subst e
        subst hkey
        simp only [modifyChild_mid]
        rw [splitNode_eq f hck]
        have hcm := hmem c (by simp)
        have hi : AllAt P (q ++ c.key) (.mk ck c.value c.children) := allAt_iff.1 hcm.2
        rw [hck, ← List.append_assoc] at hi
        by_cases hnil : nk = []
        · subst hnil
          simp only [if_true]
          obtain ⟨h1, h2⟩ := hf (.mk L none [.mk ck c.value c.children]) (by
            rw [List.append_nil]; exact ⟨by simp, ⟨hckn, hi⟩, trivial⟩)
          have h2 : (f (.mk L none [.mk ck c.value c.children])).1.key = L := h2
          rw [List.append_nil] at h1
          exact ⟨⟨hv', allAtL_replace hcs' (by rw [h2]; exact hL) (by rw [h2]; exact h1)⟩, rfl⟩
        · simp only [if_neg hnil]
          obtain ⟨h1, h2⟩ := hf (Node.new nk none) (allAt_new _ _)
          have h2 : (f (Node.new nk none)).1.key = nk := h2
          rw [← List.append_assoc] at h1
          refine ⟨⟨hv', allAtL_replace hcs' hL ⟨by simp, ⟨by rw [h2]; exact hnil, by rw [h2]; exact h1⟩,
            ⟨hckn, allAt_mono hm _ _ hi⟩, trivial⟩⟩, rfl⟩

theorem placed_loop (hm : ∀ q x, P q x → P' q x) {path : Str} {f : Node M H → Out (Node M H)} : ∀ (ks : List Str) {q : Str},
    (∀ k ∈ ks, k ≠ []) → Placed P P' (q ++ flat ks) f → Placed P P' q (Node.insertLoop path f ks)
  | [], q, _, _ => fun n hn => ⟨allAt_mono hm q n hn, rfl⟩
  | [k], q, hk, hf => placed_process hm k.length (Nat.le_refl _) (hk k (by simp)) (by simpa [flat] using hf)
  | k :: k' :: ks, q, hk, hf =>
    placed_process hm k.length (Nat.le_refl _) (hk k (by simp))
      (placed_loop hm (k' :: ks) (fun x hx => hk x (by simp only [List.mem_cons] at hx ⊢; exact Or.inr hx))
        (by rw [List.append_assoc]; exact hf))

end

/-! ### The calls -/

/-- The handlers and middlewares of a value at the place `q` are in the log, with that place. -/
def FromAt (L : Log M H) (q : Str) (v : RouteValue M H) : Prop :=
  (∀ mw ∈ v.middlewares, ∃ ss, flat ss = q ∧ ⟨ss, .middleware mw⟩ ∈ L) ∧
  ∀ m rt, v.route.routeMap.get m = some rt → ∃ ss, flat ss = q ∧ ⟨ss, .route m rt.handler⟩ ∈ L

theorem fromAt_mono {L L' : Log M H} (h : ∀ e ∈ L, e ∈ L') (q : Str) (v : RouteValue M H) (hv : FromAt L q v) : FromAt L' q v :=
  ⟨fun mw hm => (hv.1 mw hm).imp fun _ hx => ⟨hx.1, h _ hx.2⟩, fun m rt hr => (hv.2 m rt hr).imp fun _ hx => ⟨hx.1, h _ hx.2⟩⟩

theorem fromAt_append {L L' : Log M H} (q : Str) (v : RouteValue M H) (hv : FromAt L q v) : FromAt (L ++ L') q v :=
  fromAt_mono (fun _ h => List.mem_append_left _ h) q v hv

theorem allAt_set {P : Str → RouteValue M H → Prop} {q : Str} {n : Node M H} (h : AllAt P q n) {v : RouteValue M H} (hv : P q v) :
    AllAt P q (n.setValue (some v)) := by
  cases n with
  | mk k w cs => exact ⟨fun x hx => by injection hx with hx; exact hx ▸ hv, h.2⟩

theorem setValue_key (n : Node M H) (v : Option (RouteValue M H)) : (n.setValue v).key = n.key := by
  cases n with | mk k w cs => rfl

theorem addRouteNode_at {L : Log M H} (path : Str) (ss : List Str) (m : Method) (hd : H) :
    Placed (FromAt L) (FromAt (L ++ [⟨ss, .route m hd⟩])) (flat ss) (RouteTrie.addRouteNode path ⟨m, hd⟩) := by
  intro n h
  have h' := allAt_mono (P' := FromAt (L ++ [⟨ss, .route m hd⟩])) fromAt_append _ n h
  have new : ∀ (mp : HMap Method (Route H)),
      (∀ k rt, mp.get k = some rt → ∃ s', flat s' = flat ss ∧ (⟨s', .route k rt.handler⟩ : Entry M H) ∈ L) →
      ∀ k rt, (mp.insert m ⟨m, hd⟩).get k = some rt → ∃ s', flat s' = flat ss ∧ ⟨s', .route k rt.handler⟩ ∈ L ++ [⟨ss, .route m hd⟩] := by
    intro mp hmp k rt hg
    rw [HMap.get_insert] at hg
    split at hg
    · next hk => subst hk; injection hg with hg; subst hg; exact ⟨ss, rfl, by simp⟩
    · exact (hmp k rt hg).imp fun _ h => ⟨h.1, List.mem_append_left _ h.2⟩
  cases hv : n.value with
  | some v =>
    have hP := (allAt_iff.1 h).1 v hv
    have hset : AllAt (FromAt (L ++ [⟨ss, .route m hd⟩])) (flat ss) (n.setValue (some { v with route := (v.route.addRoute m ⟨m, hd⟩).1 })) :=
      allAt_set h' ⟨(fromAt_append _ v hP).1, new _ hP.2⟩
    cases hr : v.route.addRoute m ⟨m, hd⟩ with
    | mk res dup =>
      rw [hr] at hset
      have : (RouteTrie.addRouteNode path ⟨m, hd⟩ n).1 = n.setValue (some { v with route := res }) := by
        cases dup <;> simp only [RouteTrie.addRouteNode, hv, hr]
      rw [this]; exact ⟨hset, setValue_key _ _⟩
  | none =>
    cases hr : (RouteValue.default : RouteValue M H).route.addRoute m ⟨m, hd⟩ with
    | mk res dup =>
      have hres : res = (Resource.default.addRoute m ⟨m, hd⟩).1 := by
        rw [show (Resource.default : Resource H) = (RouteValue.default : RouteValue M H).route from rfl, hr]
      cases dup with
      | some dup =>
        rw [show RouteTrie.addRouteNode path ⟨m, hd⟩ n = (n, some (.duplicated dup.method path)) by
          simp only [RouteTrie.addRouteNode, hv, hr]]
        exact ⟨h', rfl⟩
      | none =>
        rw [show RouteTrie.addRouteNode path ⟨m, hd⟩ n = (n.setValue (some ⟨[], res⟩), none) by
          simp only [RouteTrie.addRouteNode, hv, hr]]
        refine ⟨allAt_set h' ⟨by simp, ?_⟩, setValue_key _ _⟩
        subst hres
        refine new HMap.empty ?_
        intro k rt hk; cases hk

theorem pushMiddleware_at {L : Log M H} (ss : List Str) (mw : M) :
    Placed (FromAt L) (FromAt (L ++ [⟨ss, .middleware mw⟩])) (flat ss) (fun n => (RouteTrie.pushMiddleware mw n, none)) := by
  intro n h
  have h' := allAt_mono (P' := FromAt (L ++ [⟨ss, .middleware mw⟩])) fromAt_append _ n h
  dsimp only
  unfold RouteTrie.pushMiddleware
  split
  · next v hv =>
    have hP := fromAt_append (L' := [⟨ss, .middleware mw⟩]) _ v ((allAt_iff.1 h).1 v hv)
    refine ⟨allAt_set h' ⟨fun x hx => ?_, hP.2⟩, setValue_key _ _⟩
    rcases List.mem_append.1 hx with hx | hx
    · exact hP.1 x hx
    · rw [List.mem_singleton] at hx; subst hx; exact ⟨ss, rfl, by simp⟩
  · exact ⟨allAt_set h' ⟨fun x hx => by rw [List.mem_singleton] at hx; subst hx; exact ⟨ss, rfl, by simp⟩,
      by intro k rt hk; cases hk⟩, setValue_key _ _⟩

/-- The handlers and middlewares of the router are in the log, with their places. -/
def SourcedAt (r : Router M H) (L : Log M H) : Prop := AllAt (FromAt L) [] r.routes.head

theorem sourcedAt_new : SourcedAt (Router.new : Router M H) [] := allAt_new _ _

theorem sourcedAt_mono {r : Router M H} {L L' : Log M H} (h : ∀ e ∈ L, e ∈ L') (hr : SourcedAt r L) : SourcedAt r L' :=
  allAt_mono (fromAt_mono h) _ _ hr

theorem segs_ne (path : Str) : ∀ k ∈ segs path, k ≠ [] := by rw [segs_eq]; exact segments_ne path

theorem insertRoute_at {r : Router M H} {L : Log M H} (h : SourcedAt r L) (m : Method) (path : Str) (hd : H) :
    SourcedAt (r.insertRoute m path hd).1 (L ++ [⟨segments path, .route m hd⟩]) := by
  cases hcs : checkStars path with
  | some p =>
    rw [show r.insertRoute m path hd = (r, some p) by simp only [Router.insertRoute, RouteTrie.insertRoute, hcs]]
    exact sourcedAt_mono (fun _ h => List.mem_append_left _ h) h
  | none =>
    by_cases h0 : segs path = []
    · rw [show r.insertRoute m path hd = (⟨⟨(RouteTrie.addRouteNode ['/'] ⟨m, hd⟩ r.routes.head).1⟩⟩,
          (RouteTrie.addRouteNode ['/'] ⟨m, hd⟩ r.routes.head).2) by
        simp only [Router.insertRoute, RouteTrie.insertRoute, hcs, h0, if_true, RouteTrie.insertDefaultRoute]]
      have := addRouteNode_at (L := L) ['/'] (segments path) m hd
      rw [← segs_eq, h0] at this ⊢
      exact (this _ h).1
    · rw [show r.insertRoute m path hd = (⟨⟨(Node.insertLoop path (RouteTrie.addRouteNode path ⟨m, hd⟩) (segs path) r.routes.head).1⟩⟩,
          (Node.insertLoop path (RouteTrie.addRouteNode path ⟨m, hd⟩) (segs path) r.routes.head).2) by
        simp only [Router.insertRoute, RouteTrie.insertRoute, hcs, h0, if_false]]
      exact (placed_loop fromAt_append (segs path) (q := []) (segs_ne path)
        (by rw [List.nil_append, segs_eq]; exact addRouteNode_at path (segments path) m hd) _ h).1

theorem useServiceTo_at {r : Router M H} {L : Log M H} (h : SourcedAt r L) (path : Str) (mw : M) :
    SourcedAt (r.useServiceTo path mw).1 (if segments path = [] then L else L ++ [⟨segments path, .middleware mw⟩]) := by
  by_cases h0 : segments path = []
  · rw [if_pos h0]
    have : (r.useServiceTo path mw).1 = r := by
      cases hcs : checkStars path with
      | some p => simp only [Router.useServiceTo, RouteTrie.insertMiddleware, hcs]
      | none => simp only [Router.useServiceTo, RouteTrie.insertMiddleware, hcs, segs_eq, h0, Node.insertLoop]
    rw [this]; exact h
  · rw [if_neg h0]
    cases hcs : checkStars path with
    | some p =>
      rw [show r.useServiceTo path mw = (r, some p) by simp only [Router.useServiceTo, RouteTrie.insertMiddleware, hcs]]
      exact sourcedAt_mono (fun _ h => List.mem_append_left _ h) h
    | none =>
      rw [show r.useServiceTo path mw = (⟨⟨(Node.insertLoop path (fun n => (RouteTrie.pushMiddleware mw n, none)) (segs path) r.routes.head).1⟩⟩,
          (Node.insertLoop path (fun n => (RouteTrie.pushMiddleware mw n, none)) (segs path) r.routes.head).2) by
        simp only [Router.useServiceTo, RouteTrie.insertMiddleware, hcs]]
      exact (placed_loop fromAt_append (segs path) (q := []) (segs_ne path)
        (by rw [List.nil_append, segs_eq]; exact pushMiddleware_at (segments path) mw) _ h).1

theorem useService_at {r : Router M H} {L : Log M H} (h : SourcedAt r L) (mw : M) :
    SourcedAt (r.useService mw) (L ++ [⟨[], .middleware mw⟩]) := (pushMiddleware_at [] mw _ h).1

theorem fromAt_under {S : Log M H} (ss : List Str) (q : Str) (v : RouteValue M H) (h : FromAt S q v) :
    FromAt (S.map (Entry.under ss)) (flat ss ++ q) v :=
  ⟨fun mw hm => let ⟨x, hq, hx⟩ := h.1 mw hm; ⟨ss ++ x, by rw [flat_append, hq], List.mem_map.2 ⟨_, hx, rfl⟩⟩,
   fun m rt hr => let ⟨x, hq, hx⟩ := h.2 m rt hr; ⟨ss ++ x, by rw [flat_append, hq], List.mem_map.2 ⟨_, hx, rfl⟩⟩⟩

/-- After a mount, also one that was rejected. -/
theorem useRouter_at {r s : Router M H} {L S : Log M H} (h : SourcedAt r L) (h' : SourcedAt s S) (path : Str) :
    ((r.useRouter path s).2 = none → SourcedAt (r.useRouter path s).1 (mountLog (segments path) L S)) ∧
    SourcedAt (r.useRouter path s).1 (L ++ mountLog (segments path) [] S) := by
  have hl : ∀ e ∈ L, e ∈ L ++ mountLog (segments path) [] S := fun _ h => List.mem_append_left _ h
  cases hcs : checkStars path with
  | some p =>
    rw [show r.useRouter path s = (r, some p) by simp only [Router.useRouter, RouteTrie.insertSubRoute, hcs]]
    exact ⟨fun hn => by simp at hn, sourcedAt_mono hl h⟩
  | none =>
    by_cases h0 : segments path = []
    · rw [show r.useRouter path s = (⟨⟨s.routes.head⟩⟩, none) by
        simp only [Router.useRouter, RouteTrie.insertSubRoute, hcs, segs_eq, h0, if_true]]
      rw [mountLog, if_pos h0, mountLog, if_pos h0]
      exact ⟨fun _ => h', sourcedAt_mono (fun _ h => List.mem_append_right _ h) h'⟩
    · rw [show r.useRouter path s = (⟨⟨(Node.insertLoop path (RouteTrie.graft path s.routes) (segs path) r.routes.head).1⟩⟩,
          (Node.insertLoop path (RouteTrie.graft path s.routes) (segs path) r.routes.head).2) by
        simp only [Router.useRouter, RouteTrie.insertSubRoute, hcs, segs_eq, h0, if_false]]
      have e : L ++ mountLog (segments path) [] S = mountLog (segments path) L S := by
        rw [mountLog, if_neg h0, mountLog, if_neg h0, List.nil_append]
      rw [e]
      have hm : ∀ q v, FromAt L q v → FromAt (mountLog (segments path) L S) q v := by
        rw [mountLog, if_neg h0]; exact fromAt_append
      have := (placed_loop (path := path) (f := RouteTrie.graft path s.routes) hm (segs path) (q := []) (segs_ne path) (by
          rw [List.nil_append, segs_eq]
          intro n hn
          unfold RouteTrie.graft
          split
          · exact ⟨allAt_mono hm _ n hn, rfl⟩
          · have hu : ∀ q v, FromAt S q v → FromAt (mountLog (segments path) L S) (flat (segments path) ++ q) v := fun q v hv => by
              rw [mountLog, if_neg h0]
              exact fromAt_mono (fun e he => List.mem_append_right _ (List.mem_cons_of_mem _ he)) _ v (fromAt_under (segments path) q v hv)
            have hs := allAt_shift hu [] _ h'
            rw [List.append_nil] at hs
            exact ⟨allAt_iff.1 hs, rfl⟩) _ h).1
      exact ⟨fun _ => this, this⟩

mutual
/-- What a call adds, if it succeeds. -/
theorem run_at : ∀ (c : Reg M H) {r : Router M H} {L : Log M H}, SourcedAt r L → (c.run r).2 = none →
    SourcedAt (c.run r).1 (logReg c L)
  | .get p k, r, L, h, _ => by rw [logReg]; exact insertRoute_at h .get p k
  | .post p k, r, L, h, _ => by rw [logReg]; exact insertRoute_at h .post p k
  | .put p k, r, L, h, _ => by rw [logReg]; exact insertRoute_at h .put p k
  | .patch p k, r, L, h, _ => by rw [logReg]; exact insertRoute_at h .patch p k
  | .delete p k, r, L, h, _ => by rw [logReg]; exact insertRoute_at h .delete p k
  | .useService m, r, L, h, _ => by rw [logReg]; exact useService_at h m
  | .useServiceTo p m, r, L, h, _ => by rw [logReg]; exact useServiceTo_at h p m
  | .useRouter p sub, r, L, h, hn => by
    rw [logReg]
    rw [Reg.run] at hn ⊢
    cases hb : runRegs sub Router.new with
    | mk s e =>
      rw [hb] at hn
      cases e with
      | none =>
        have hs := runRegs_at sub (r := Router.new) (L := []) sourcedAt_new (by rw [hb])
        rw [hb] at hs
        exact (useRouter_at h hs p).1 hn
      | some e => cases hn
  | .scope p sub, r, L, h, hn => by
    rw [logReg]
    rw [Reg.run] at hn ⊢
    cases hb : runRegs sub Router.new with
    | mk s e =>
      rw [hb] at hn
      cases e with
      | none =>
        have hs := runRegs_at sub (r := Router.new) (L := []) sourcedAt_new (by rw [hb])
        rw [hb] at hs
        have := (useRouter_at h hs ('/' :: p)).1 hn
        rwa [segments_slash] at this
      | some e => cases hn
/-- What the calls add, if they succeed. -/
theorem runRegs_at : ∀ (cs : List (Reg M H)) {r : Router M H} {L : Log M H}, SourcedAt r L → (runRegs cs r).2 = none →
    SourcedAt (runRegs cs r).1 (logRegs cs L)
  | [], r, L, h, _ => by rw [logRegs]; exact h
  | c :: cs, r, L, h, hn => by
    rw [runRegs] at hn ⊢
    rw [logRegs]
    have h1 := run_at c (L := L) h
    cases hb : c.run r with
    | mk r' e =>
      rw [hb] at hn h1
      cases e with
      | none => exact runRegs_at cs (h1 rfl) hn
      | some e => cases hn
end

/-- What a call adds, whatever comes of it. -/
theorem call_at (c : Reg M H) {r : Router M H} {L : Log M H} (h : SourcedAt r L) : SourcedAt (c.run r).1 (L ++ callLog c) := by
  have mount : ∀ (p : Str) (sub : List (Reg M H)), (c.run r = match runRegs sub Router.new with
        | (t, none) => r.useRouter p t
        | (_, some e) => (r, some e)) → callLog c = mountLog (segments p) [] (logRegs sub []) →
      SourcedAt (c.run r).1 (L ++ callLog c) := by
    intro p sub hr hl
    cases hb : runRegs sub Router.new with
    | mk t e =>
      rw [hb] at hr
      cases e with
      | none =>
        dsimp only at hr
        have hs := runRegs_at sub sourcedAt_new (by rw [hb])
        rw [hb] at hs
        rw [hr, hl]
        exact (useRouter_at h hs p).2
      | some e =>
        dsimp only at hr
        rw [hr]
        exact sourcedAt_mono (fun _ h => List.mem_append_left _ h) h
  cases c with
  | get p k => simpa [callLog, logReg, Reg.run, Router.get] using insertRoute_at h .get p k
  | post p k => simpa [callLog, logReg, Reg.run, Router.post] using insertRoute_at h .post p k
  | put p k => simpa [callLog, logReg, Reg.run, Router.put] using insertRoute_at h .put p k
  | patch p k => simpa [callLog, logReg, Reg.run, Router.patch] using insertRoute_at h .patch p k
  | delete p k => simpa [callLog, logReg, Reg.run, Router.delete] using insertRoute_at h .delete p k
  | useService m => simpa [Reg.run, callLog, logReg] using useService_at h m
  | useServiceTo p m =>
    refine sourcedAt_mono (fun e he => ?_) (useServiceTo_at h p m)
    rw [callLog, logReg]
    split at he
    · exact List.mem_append_left _ he
    · next h0 => rw [if_neg h0]; simpa using he
  | useRouter p sub => exact mount p sub (by rw [Reg.run]; rfl) (by simp [callLog, logReg])
  | scope p sub => exact mount ('/' :: p) sub (by rw [Reg.run]; rfl) (by rw [segments_slash]; simp [callLog, logReg])

theorem caught_at {cs : List (Reg M H)} {L : Log M H} (hL : ∀ x ∈ cs, ∀ e ∈ callLog x, e ∈ L) {r : Router M H}
    (h : SourcedAt r L) : SourcedAt (runCaught cs r) L := by
  induction cs generalizing r with
  | nil => exact h
  | cons c cs ih =>
    refine ih (fun x hx => hL x (by simp [hx])) (sourcedAt_mono (fun e he => ?_) (call_at c h))
    rcases List.mem_append.1 he with he | he
    · exact he
    · exact hL c (by simp) e he

/-! ### Lookups -/

/-- The middlewares beyond `mws` are at places that can be read off the beginning of what is left of the request, after `q`. -/
def MwsRead (L : Log M H) (q : Str) (mws : List M) (brk : Bool) (curr : Str) (key : List Str) (mws' : List M) : Prop :=
  ∀ mw ∈ mws', mw ∈ mws ∨ ∃ ss w key', flat ss = q ++ w ∧ ⟨ss, .middleware mw⟩ ∈ L ∧ key'.Sublist key ∧
    ReadOff (fun _ => True) brk w (curr :: key')

/-- What a search below the place `q` leaves behind. -/
def SearchRead (L : Log M H) (q : Str) (mws : List M) (brk : Bool) (curr : Str) (key : List Str) : Search M H → Prop
  | .panic _ => True
  | .notFound key' _ mws' => key'.Sublist key ∧ mws' = mws
  | .found n _ mws' => MwsRead L q mws brk curr key mws' ∧
      ∃ w key', key'.Sublist key ∧ ReadOff (· = []) brk w (curr :: key') ∧ AllAt (FromAt L) (q ++ w) n

theorem searchRead_sub {L : Log M H} {q : Str} {mws : List M} {brk : Bool} {curr : Str} {key key' : List Str} {o : Search M H}
    (hs : key'.Sublist key) (h : SearchRead L q mws brk curr key' o) : SearchRead L q mws brk curr key o := by
  cases o with
  | panic p => trivial
  | notFound k ps m => exact ⟨h.1.trans hs, h.2⟩
  | found n ps m =>
    obtain ⟨h1, w, k', h2, h3, h4⟩ := h
    refine ⟨fun mw hm => (h1 mw hm).imp_right ?_, w, k', h2.trans hs, h3, h4⟩
    rintro ⟨ss, w', k'', e1, e2, e3, e4⟩
    exact ⟨ss, w', k'', e1, e2, e3.trans hs, e4⟩

theorem mws_at {L : Log M H} {q : Str} {n : Node M H} (h : AllAt (FromAt L) q n) : ∀ mw ∈ n.mws, ∃ ss, flat ss = q ∧ ⟨ss, .middleware mw⟩ ∈ L := by
  unfold Node.mws
  split
  · next v hv => exact ((allAt_iff.1 h).1 v hv).1
  · intro mw hm; cases hm

/-- Reading the characters of a key. -/
theorem reads_chars {left : List Str → Prop} {q t : Str} {req : List Str} : ∀ (k : Str) (b : Bool), k ≠ [] →
    ReadOff left true q (t :: req) → ReadOff left b (k ++ q) ((k ++ t) :: req)
  | [], _, h, _ => absurd rfl h
  | [c], _, _, h => .char h
  | c :: d :: k, _, _, h => .char (reads_chars (d :: k) true (by simp) h)

/-- A node whose key is not empty and is the beginning of the segment. -/
theorem key_of_count {k curr : Str} (h : matchCount k curr = byteLen k) : ∃ t, curr = k ++ t := by
  rw [matchCount_eq, lcp_eq_left] at h
  obtain ⟨t, ht⟩ := h
  exact ⟨t, ht.symm⟩

/-- Going on below a node: from what is found there to what is found here. -/
theorem searchRead_below {L : Log M H} {q k : Str} {mws : List M} {brk b : Bool} {curr curr' : Str} {key key₀ : List Str}
    {node n : Node M H} {ps ps' : HMap Str Str} {mws' : List M}
    (hstep : ∀ {left : List Str → Prop} {w : Str} {key' : List Str}, key'.Sublist key₀ → ReadOff left b w (curr' :: key') →
      ∃ key'', key''.Sublist key ∧ ReadOff left brk (k ++ w) (curr :: key''))
    (hhere : ∃ key'', key''.Sublist key ∧ ReadOff (fun _ => True) brk k (curr :: key''))
    (hnode : AllAt (FromAt L) (q ++ k) node)
    (h : SearchRead L (q ++ k) mws b curr' key₀ (.found n ps mws')) :
    SearchRead L q mws brk curr key (.found n ps' (mws' ++ node.mws)) := by
  obtain ⟨h1, w, k', h2, h3, h4⟩ := h
  refine ⟨fun mw hm => ?_, ?_⟩
  · rcases List.mem_append.1 hm with hm | hm
    · refine (h1 mw hm).imp_right ?_
      rintro ⟨ss, w', k'', e1, e2, e3, e4⟩
      obtain ⟨key'', g1, g2⟩ := hstep e3 e4
      exact ⟨ss, k ++ w', key'', by rw [e1, List.append_assoc], e2, g1, g2⟩
    · obtain ⟨ss, e1, e2⟩ := mws_at hnode mw hm
      obtain ⟨key'', g1, g2⟩ := hhere
      exact Or.inr ⟨ss, k, key'', e1, e2, g1, g2⟩
  · obtain ⟨key'', g1, g2⟩ := hstep h2 h3
    exact ⟨k ++ w, key'', g1, g2, by rw [← List.append_assoc]; exact h4⟩

theorem readOff_nil {left : List Str → Prop} {b : Bool} {req : List Str} (h : left req) : ReadOff left b [] req := .done h

/-- What is found at the node itself. -/
theorem searchRead_here {L : Log M H} {q k : Str} {mws : List M} {brk : Bool} {curr : Str} {key key'' : List Str}
    {node : Node M H} {ps : HMap Str Str}
    (hs : key''.Sublist key) (hr : ReadOff (· = []) brk k (curr :: key'')) (hr' : ReadOff (fun _ => True) brk k (curr :: key''))
    (hnode : AllAt (FromAt L) (q ++ k) node) :
    SearchRead L q mws brk curr key (.found node ps (mws ++ node.mws)) := by
  refine ⟨fun mw hm => ?_, k, key'', hs, hr, hnode⟩
  rcases List.mem_append.1 hm with hm | hm
  · exact Or.inl hm
  · obtain ⟨ss, e1, e2⟩ := mws_at hnode mw hm
    exact Or.inr ⟨ss, k, key'', e1, e2, hs, hr'⟩

mutual
theorem getNextNode_read {L : Log M H} : ∀ (n : Node M H) (q curr : Str) (key : List Str) (ps : HMap Str Str) (mws : List M) (brk : Bool),
    AllAt (FromAt L) q n → SearchRead L q mws brk curr key (n.getNextNode (curr :: key) ps mws brk)
  | .mk _ _ cs, q, curr, key, ps, mws, brk, h => by
    unfold Node.getNextNode
    exact getNextLoop_read cs q curr key ps mws brk h.2
theorem getNextLoop_read {L : Log M H} : ∀ (cs : List (Node M H)) (q curr : Str) (key : List Str) (ps : HMap Str Str) (mws : List M)
    (brk : Bool), AllAtL (FromAt L) q cs → SearchRead L q mws brk curr key (Node.getNextLoop cs curr key ps mws brk)
  | [], _, _, _, _, _, _, _ => by unfold Node.getNextLoop; exact ⟨List.Sublist.refl _, rfl⟩
  | node :: rest, q, curr, key, ps, mws, brk, ⟨⟨hk, h1⟩, h2⟩ => by
    have next := fun k p => getNextLoop_read rest q curr k p mws brk h2
    have below : ∀ (curr' : Str) (key₀ : List Str) (b : Bool) (g : HMap Str Str → HMap Str Str), key₀.Sublist key →
        (∀ {left : List Str → Prop} {w : Str} {key' : List Str}, key'.Sublist key₀ → ReadOff left b w (curr' :: key') →
          ∃ key'', key''.Sublist key ∧ ReadOff left brk (node.key ++ w) (curr :: key'')) →
        SearchRead L q mws brk curr key (match node.getNextNode (curr' :: key₀) ps mws b with
        | .panic p => .panic p
        | .found n params mws => .found n (g params) (mws ++ node.mws)
        | .notFound key params mws => Node.getNextLoop rest curr key params mws brk) := by
      intro curr' key₀ b g hsub hstep
      have ih := getNextNode_read node (q ++ node.key) curr' key₀ ps mws b h1
      revert ih
      cases node.getNextNode (curr' :: key₀) ps mws b with
      | panic p => intro _; trivial
      | found n params mws' =>
        intro ih
        refine searchRead_below (b := b) (curr' := curr') (key₀ := key₀) hstep ?_ h1 ih
        obtain ⟨key'', g1, g2⟩ := hstep (left := fun _ => True) (w := []) (List.Sublist.refl _) (.done trivial)
        exact ⟨key'', g1, by rwa [List.append_nil] at g2⟩
      | notFound key' params mws' =>
        intro ih
        obtain ⟨i1, rfl⟩ := ih
        exact searchRead_sub (i1.trans hsub) (next key' params)
    unfold Node.getNextLoop
    split
    · next hc =>
      have hb : brk = false := by revert hc; cases brk <;> simp
      have hp : node.isParam = true := by revert hc; cases node.isParam <;> simp
      subst hb
      obtain ⟨x, hx⟩ : ∃ x, node.key = ':' :: x := by
        unfold Node.isParam Node.startsColon at hp
        cases hkk : node.key with
        | nil => exact absurd hkk hk
        | cons c x => rw [hkk] at hp; simp at hp; exact ⟨x, by rw [hp]⟩
      split
      · trivial
      · next name _ =>
        split
        · next he =>
          have he : key = [] := by simpa using he
          subst he
          split
          · next v hv =>
            have hr : ∀ {left : List Str → Prop}, left [] → ReadOff left false node.key [curr] := fun hl => by
              rw [hx, ← List.append_nil (':' :: x)]; exact .param (.done hl)
            have := searchRead_here (L := L) (q := q) (mws := mws) (ps := ps.insert name curr) (node := node) (List.Sublist.refl _)
              (hr rfl) (hr trivial) h1
            rwa [mws_some hv] at this
          · exact next _ _
        · next he =>
          cases key with
          | nil => simp at he
          | cons k1 ks =>
            refine below k1 ks false (fun params => params.insert name curr) (List.sublist_cons_self _ _) ?_
            intro left w key' hs hr
            exact ⟨k1 :: key', hs.cons_cons _, by rw [hx]; exact .param hr⟩
    · split
      · next hc =>
        have hb : brk = false := by revert hc; cases brk <;> simp
        have hkey : node.key = ['*'] := by revert hc; simp
        subst hb
        exact searchRead_here (List.Sublist.refl _) (by rw [hkey]; exact .star) (by rw [hkey]; exact .star) h1
      · dsimp only
        split
        · next hc =>
          obtain ⟨t, rfl⟩ := key_of_count hc.1
          split
          · trivial
          · next curr' hsl =>
            rw [hc.1, sliceFrom_append] at hsl
            injection hsl with hsl
            subst hsl
            split
            · refine below t key true id (List.Sublist.refl _) ?_
              intro left w key' hs hr
              exact ⟨key', hs, reads_chars _ _ hk hr⟩
            · next h0 =>
              rw [hc.1] at h0
              exact absurd (byteLen_eq_zero.1 (by simpa using h0)) hk
        · next hne =>
          split
          · next hc =>
            obtain ⟨t, ht⟩ := key_of_count hc.2
            have ht0 : t = [] := by
              have : matchCount node.key curr = byteLen curr := by
                rcases Classical.em (matchCount node.key curr = byteLen curr) with h | h
                · exact h
                · exact absurd ⟨hc.2, h⟩ hne
              rw [hc.2, ht, byteLen_append] at this
              exact byteLen_eq_zero.1 (by omega)
            subst ht0
            rw [List.append_nil] at ht
            subst ht
            have whole : ∀ {left : List Str → Prop} {w : Str} {req : List Str}, ReadOff left false w req →
                ReadOff left brk (node.key ++ w) (node.key :: req) := fun hr => by
              have := reads_chars node.key brk hk (.next hr)
              rwa [List.append_nil] at this
            have whole' : ∀ {left : List Str → Prop} {req : List Str}, left req →
                ReadOff left brk node.key (node.key :: req) := fun hl => by
              have := whole (.done hl) (w := [])
              rwa [List.append_nil] at this
            split
            · next he =>
              have he : key = [] := by simpa using he
              subst he
              split
              · next v hv =>
                have := searchRead_here (L := L) (q := q) (mws := mws) (ps := ps) (node := node) (List.Sublist.refl _)
                  (whole' rfl) (whole' trivial) h1
                rwa [mws_some hv] at this
              · split
                · next child hch =>
                  have hm : child ∈ node.children ∧ child.key = ['*'] := by
                    clear below next whole whole'
                    revert hch
                    generalize node.children = cs
                    induction cs with
                    | nil => intro h; cases h
                    | cons d cs ih =>
                      intro h
                      rw [Node.starChild] at h
                      split at h
                      · next hd => injection h with h; subst h; exact ⟨by simp, hd.1⟩
                      · exact ⟨by simp [(ih h).1], (ih h).2⟩
                  have hcm := allAtL_iff.1 (allAt_iff.1 h1).2 child hm.1
                  rw [hm.2] at hcm
                  refine searchRead_here (k := node.key ++ ['*']) (List.Sublist.refl _) (whole .star) (whole .star) ?_
                  rw [← List.append_assoc]; exact hcm.2
                · exact next _ _
            · next he =>
              cases key with
              | nil => simp at he
              | cons k1 ks =>
                refine below k1 ks false id (List.sublist_cons_self _ _) ?_
                intro left w key' hs hr
                exact ⟨k1 :: key', hs.cons_cons _, whole hr⟩
          · exact next _ _
end

end Obsidian.Proofs
