import Verif.Spec.Calls
import Verif.Props.Common

/-
C06: redundant slashes are irrelevant, in every state of the router.
-/
namespace Obsidian.Props
open Obsidian Spec
variable {M H : Type}

theorem SameOut.refl {σ : Type} (a : Out σ) : SameOut a a := ⟨rfl, rfl⟩

theorem modifyChild_same {f g : Node M H → Out (Node M H)} (h : ∀ n, SameOut (f n) (g n))
    (cs : List (Node M H)) (i : Nat) : SameOut (Node.modifyChild f cs i) (Node.modifyChild g cs i) := by
  induction cs generalizing i with
  | nil => exact ⟨rfl, rfl⟩
  | cons c cs ih =>
    cases i with
    | zero => simp only [Node.modifyChild]; exact ⟨by simp [(h c).1], (h c).2⟩
    | succ i => simp only [Node.modifyChild]; exact ⟨by simp [(ih i).1], (ih i).2⟩

theorem splitNode_same {f g : Node M H → Out (Node M H)} (h : ∀ n, SameOut (f n) (g n)) (c : Nat)
    (k : Str) (n : Node M H) : SameOut (Node.splitNode c k f n) (Node.splitNode c k g n) := by
  unfold Node.splitNode
  split
  · split
    · exact h _
    · simp only; exact ⟨by simp [(h _).1], (h _).2⟩
  · exact ⟨rfl, rfl⟩

mutual
theorem process_same {f g : Node M H → Out (Node M H)} (h : ∀ n, SameOut (f n) (g n)) (p p' : Str) :
    ∀ (n : Node M H) (k : Str), SameOut (n.processInsertion p k f) (n.processInsertion p' k g)
  | .mk key v cs, k => by
    rw [Node.processInsertion, Node.processInsertion]
    cases Node.insertionAction cs k with
    | createNewNode =>
      simp only; split
      · exact ⟨by simp [(h _).1], (h _).2⟩
      · exact ⟨by simp [(h _).1], (h _).2⟩
    | nextNode i =>
      have := modifyChild_same h cs i
      exact ⟨by simp [this.1], this.2⟩
    | splitKey c i =>
      simp only
      cases sliceFrom k c with
      | none => exact ⟨rfl, rfl⟩
      | some k' =>
        have := processAt_same h p p' cs i k'
        exact ⟨by simp [this.1], this.2⟩
    | splitNode c i =>
      have := modifyChild_same (splitNode_same h c k) cs i
      exact ⟨by simp [this.1], this.2⟩
    | error i =>
      simp only
      cases cs[i]? with
      | none => exact ⟨rfl, rfl⟩
      | some node => exact ⟨rfl, rfl⟩
theorem processAt_same {f g : Node M H → Out (Node M H)} (h : ∀ n, SameOut (f n) (g n)) (p p' : Str) :
    ∀ (cs : List (Node M H)) (i : Nat) (k : Str),
      SameOut (Node.processInsertionAt p cs i k f) (Node.processInsertionAt p' cs i k g)
  | [], i, k => by simp only [Node.processInsertionAt]; exact ⟨rfl, rfl⟩
  | c :: cs, 0, k => by
    simp only [Node.processInsertionAt]
    have := process_same h p p' c k
    exact ⟨by simp [this.1], this.2⟩
  | c :: cs, i + 1, k => by
    simp only [Node.processInsertionAt]
    have := processAt_same h p p' cs i k
    exact ⟨by simp [this.1], this.2⟩
end

theorem loop_same {f g : Node M H → Out (Node M H)} (h : ∀ n, SameOut (f n) (g n)) (p p' : Str)
    (ss : List Str) (n : Node M H) : SameOut (Node.insertLoop p f ss n) (Node.insertLoop p' g ss n) := by
  induction ss generalizing n with
  | nil => exact ⟨rfl, rfl⟩
  | cons k ss ih =>
    cases ss with
    | nil => exact process_same h p p' n k
    | cons k' ss => exact process_same ih p p' n k

theorem stars_same {p p' : Str} (h : segments p = segments p') :
    (checkStars p).map kind = (checkStars p').map kind := by
  rw [checkStars, checkStars, segs_eq, segs_eq, h]
  generalize segments p' = ss
  have : ∀ (xs : List Str) (t i : Nat),
      (checkStarsFrom p t xs i).map kind = (checkStarsFrom p' t xs i).map kind := by
    intro xs
    induction xs with
    | nil => intro t i; rfl
    | cons x xs ih =>
      intro t i
      simp only [checkStarsFrom]
      repeat' split
      all_goals first | rfl | exact ih _ _
  exact this ss ss.length 0

theorem stars_cases {p p' : Str} (h : segments p = segments p') :
    (checkStars p = none ∧ checkStars p' = none) ∨
    ∃ a b, checkStars p = some a ∧ checkStars p' = some b ∧ kind a = kind b := by
  have := stars_same h
  cases h1 : checkStars p <;> cases h2 : checkStars p' <;> simp [h1, h2] at this ⊢
  exact this

theorem addRouteNode_same (p p' : Str) (r : Route H) (n : Node M H) :
    SameOut (RouteTrie.addRouteNode p r n) (RouteTrie.addRouteNode p' r n) := by
  simp only [RouteTrie.addRouteNode, Resource.addRoute]
  cases n.value with
  | some v =>
    simp only
    cases v.route.routeMap.get r.method with
    | none => exact ⟨rfl, rfl⟩
    | some d => exact ⟨rfl, rfl⟩
  | none => exact ⟨rfl, rfl⟩

/-- **C06** for registering a route (with any method). -/
theorem C06_route {p p' : Str} (h : segments p = segments p') (r : Router M H) (m : Method) (hd : H) :
    SameOut (r.insertRoute m p hd) (r.insertRoute m p' hd) := by
  simp only [Router.insertRoute, RouteTrie.insertRoute]
  rcases stars_cases h with ⟨h1, h2⟩ | ⟨a, b, h1, h2, hk⟩
  · simp only [h1, h2, segs_eq, h]
    split
    · exact ⟨rfl, rfl⟩
    · have := loop_same (addRouteNode_same p p' ⟨m, hd⟩) p p' (segments p') r.routes.head
      exact ⟨by simp [this.1], this.2⟩
  · simp only [h1, h2]; exact ⟨rfl, by simp [hk]⟩

/-- **C06** for adding a middleware. -/
theorem C06_middleware {p p' : Str} (h : segments p = segments p') (r : Router M H) (m : M) :
    SameOut (r.useServiceTo p m) (r.useServiceTo p' m) := by
  simp only [Router.useServiceTo, RouteTrie.insertMiddleware]
  rcases stars_cases h with ⟨h1, h2⟩ | ⟨a, b, h1, h2, hk⟩
  · simp only [h1, h2, segs_eq, h]
    have := loop_same (f := fun n => (RouteTrie.pushMiddleware m n, none))
      (fun n => SameOut.refl _) p p' (segments p') r.routes.head
    exact ⟨by simp [this.1], this.2⟩
  · simp only [h1, h2]; exact ⟨rfl, by simp [hk]⟩

/-- **C06** for mounting a router. -/
theorem C06_mount {p p' : Str} (h : segments p = segments p') (r sub : Router M H) :
    SameOut (r.useRouter p sub) (r.useRouter p' sub) := by
  simp only [Router.useRouter, RouteTrie.insertSubRoute]
  rcases stars_cases h with ⟨h1, h2⟩ | ⟨a, b, h1, h2, hk⟩
  · simp only [h1, h2, segs_eq, h]
    split
    · exact ⟨rfl, rfl⟩
    · have := loop_same (f := RouteTrie.graft p sub.routes) (g := RouteTrie.graft p' sub.routes)
        (fun n => by unfold RouteTrie.graft; split <;> exact ⟨rfl, rfl⟩) p p' (segments p')
        r.routes.head
      exact ⟨by simp [this.1], this.2⟩
  · simp only [h1, h2]; exact ⟨rfl, by simp [hk]⟩

/-- **C06** for requests. -/
theorem C06_request {p p' : Str} (h : segments p = segments p') (r : Router M H) :
    r.searchRoute p = r.searchRoute p' := by
  simp only [Router.searchRoute, RouteTrie.searchRoute, segs_eq, h]

theorem sub_same {p p' : Str} (h : segments p = segments p') (r : Router M H) :
    ∀ {o o' : Out (Router M H)}, SameOut o o' →
    SameOut (match o with | (s, none) => r.useRouter p s | (_, some e) => (r, some e))
      (match o' with | (s, none) => r.useRouter p' s | (_, some e) => (r, some e)) := by
  rintro ⟨s, e⟩ ⟨s', e'⟩ ⟨h1, h2⟩
  simp only at h1 h2
  subst h1
  cases e <;> cases e' <;> simp at h2
  · exact C06_mount h r s
  · exact ⟨rfl, by simp [h2]⟩

mutual
theorem respelled_run : ∀ (c c' : Reg M H) (r : Router M H), Respelled c c' →
    SameOut (c.run r) (c'.run r)
  | .get p h, c', r, hr => by
    cases c' <;> simp only [Respelled] at hr
    obtain ⟨h1, rfl⟩ := hr; simp only [Reg.run]; exact C06_route h1 r _ _
  | .post p h, c', r, hr => by
    cases c' <;> simp only [Respelled] at hr
    obtain ⟨h1, rfl⟩ := hr; simp only [Reg.run]; exact C06_route h1 r _ _
  | .put p h, c', r, hr => by
    cases c' <;> simp only [Respelled] at hr
    obtain ⟨h1, rfl⟩ := hr; simp only [Reg.run]; exact C06_route h1 r _ _
  | .patch p h, c', r, hr => by
    cases c' <;> simp only [Respelled] at hr
    obtain ⟨h1, rfl⟩ := hr; simp only [Reg.run]; exact C06_route h1 r _ _
  | .delete p h, c', r, hr => by
    cases c' <;> simp only [Respelled] at hr
    obtain ⟨h1, rfl⟩ := hr; simp only [Reg.run]; exact C06_route h1 r _ _
  | .useService m, c', r, hr => by
    cases c' <;> simp only [Respelled] at hr
    subst hr; exact SameOut.refl _
  | .useServiceTo p m, c', r, hr => by
    cases c' <;> simp only [Respelled] at hr
    obtain ⟨h1, rfl⟩ := hr; simp only [Reg.run]; exact C06_middleware h1 r _
  | .useRouter p sub, c', r, hr => by
    cases c' <;> simp only [Respelled] at hr
    simp only [Reg.run]
    exact sub_same hr.1 r (respelled_runs sub _ Router.new hr.2)
  | .scope p sub, c', r, hr => by
    cases c' <;> simp only [Respelled] at hr
    · simp only [Reg.run]
      exact sub_same ((segments_slash p).trans hr.1) r (respelled_runs sub _ Router.new hr.2)
    · simp only [Reg.run]
      exact sub_same ((segments_slash p).trans (hr.1.trans (segments_slash _).symm)) r
        (respelled_runs sub _ Router.new hr.2)
theorem respelled_runs : ∀ (cs cs' : List (Reg M H)) (r : Router M H), RespelledAll cs cs' →
    SameOut (runRegs cs r) (runRegs cs' r)
  | [], cs', r, hr => by
    cases cs' <;> simp only [RespelledAll] at hr
    exact SameOut.refl _
  | c :: cs, cs', r, hr => by
    cases cs' with
    | nil => simp only [RespelledAll] at hr
    | cons c' cs' =>
      simp only [RespelledAll] at hr
      simp only [runRegs]
      have h1 := respelled_run c c' r hr.1
      revert h1
      cases c.run r with
      | mk a e =>
        cases c'.run r with
        | mk a' e' =>
          rintro ⟨h1, h2⟩
          simp only at h1 h2
          subst h1
          cases e <;> cases e' <;> simp at h2
          · exact respelled_runs cs cs' a hr.2
          · exact ⟨rfl, by simp [h2]⟩
end

/-- **C06** for whole programs: respelling paths gives the same router, or the same kind of panic. -/
theorem C06_programs {prog prog' : List (Reg M H)} (h : RespelledAll prog prog') :
    SameOut (build prog) (build prog') := respelled_runs prog prog' Router.new h

/-! Which spellings have the same segments. -/

theorem segmentsFrom_slash (cur a b : Str) :
    segmentsFrom cur (a ++ '/' :: b) = segmentsFrom cur a ++ segments b := by
  induction a generalizing cur with
  | nil => by_cases h : cur = [] <;> simp [segmentsFrom, segments, h]
  | cons c a ih =>
    simp only [List.cons_append, segmentsFrom]
    split
    · split
      · exact ih []
      · simp [ih []]
    · exact ih _

/-- **C06**: a leading, trailing or doubled slash does not change the segments. -/
theorem C06_spellings (a b : Str) :
    segments ('/' :: a) = segments a ∧ segments (a ++ ['/']) = segments a ∧
    segments (a ++ '/' :: '/' :: b) = segments (a ++ '/' :: b) := by
  refine ⟨segments_slash a, ?_, ?_⟩
  · rw [segments, segmentsFrom_slash]; simp [segments, segmentsFrom]
  · rw [segments, segments, segmentsFrom_slash, segmentsFrom_slash, segments_slash]

/-- Every list of slash-free non-empty strings is the list of segments of the path spelled the usual
way. -/
theorem C06_normal_form {ss : List Str} (h : ∀ x ∈ ss, x ≠ [] ∧ '/' ∉ x) :
    segments (joinSlash ss) = ss := by
  have one : ∀ (x cur : Str), cur ++ x ≠ [] → '/' ∉ x → segmentsFrom cur x = [cur ++ x] := by
    intro x
    induction x with
    | nil => intro cur h _; simp at h; simp [segmentsFrom, h]
    | cons c x ih =>
      intro cur _ h2
      simp at h2
      rw [segmentsFrom, if_neg (fun e => h2.1 e.symm), ih _ (by simp) h2.2]; simp
  induction ss with
  | nil => rfl
  | cons x ss ih =>
    have hx := h x (by simp)
    have ih' := ih (fun y hy => h y (by simp [hy]))
    cases ss with
    | nil => rw [joinSlash, segments, one x [] (by simpa using hx.1) hx.2]; rfl
    | cons y ss =>
      rw [joinSlash, segments, segmentsFrom_slash, ih', one x [] (by simpa using hx.1) hx.2]; rfl

example : segments (s "//users//:id/") = segments (s "users/:id") := by decide +kernel

example : SameOut (build ([.get (s "//a/b/") 1, .get (s "a//b") 2] : Prog))
    (build ([.get (s "/a/b") 1, .get (s "/a/b") 2] : Prog)) ∧
    (build ([.get (s "/a/b") 1, .get (s "/a/b") 2] : Prog)).2 = some (.duplicated .get (s "/a/b")) := by
  refine ⟨C06_programs ?_, by decide +kernel⟩
  simp only [RespelledAll, Respelled]; decide +kernel

end Obsidian.Props
