import Verif.Spec.Calls
import Verif.Props.Common
import Verif.Proofs.LogEq

/-
C07: the order of registrations of routes is irrelevant.
-/
namespace Obsidian.Props
open Obsidian Spec
variable {M H : Type}

theorem cleanRegs_iff {cs : List (Reg M H)} : CleanRegs cs ↔ ∀ c ∈ cs, CleanReg c := by
  induction cs with
  | nil => simp [CleanRegs]
  | cons c cs ih => simp [CleanRegs, ih]

theorem logReg_callLog {c : Reg M H} (hc : NotMount c) (L : Log M H) : logReg c L = L ++ callLog c := by
  cases c with
  | useServiceTo p m => simp only [callLog, logReg]; split <;> simp
  | useRouter p sub => simp [NotMount] at hc
  | scope p sub => simp [NotMount] at hc
  | _ => simp [callLog, logReg]

theorem logRegs_flatMap {cs : List (Reg M H)} (hc : ∀ c ∈ cs, NotMount c) (L : Log M H) :
    logRegs cs L = L ++ cs.flatMap callLog := by
  induction cs generalizing L with
  | nil => simp [logRegs]
  | cons c cs ih =>
    rw [logRegs, logReg_callLog (hc c (by simp)), ih (fun x hx => hc x (by simp [hx]))]
    simp

theorem _root_.Obsidian.Spec.Compat.symm {e e' : Entry M H} (h : Compat e e') : Compat e' e :=
  ⟨h.2.1, h.1, fun m k k' hf h1 h2 => h.2.2 m k' k hf.symm h2 h1⟩

theorem routeOK_iff {L : Log M H} {m : Method} {ss : List Str} {h : H} :
    RouteOK L m ss ↔ StarsOK ss ∧ ∀ e ∈ L, Compat e ⟨ss, .route m h⟩ := by
  rw [RouteOK, NoClash, routeAt_none_iff]
  constructor
  · rintro ⟨h1, h2, h3⟩
    refine ⟨h1, fun e he => ⟨(h2 e he).1, (h2 e he).2, fun m' k k' hf hw => ?_⟩⟩
    intro hw'
    simp at hw'
    exact h3 e he hf k (by rw [hw, hw'.1])
  · rintro ⟨h1, h2⟩
    refine ⟨h1, fun e he => ⟨(h2 e he).1, (h2 e he).2.1⟩, fun e he hf k hw => ?_⟩
    exact (h2 e he).2.2 m k h hf hw rfl

theorem starsOK_nil : StarsOK [] := by intro pre s post h; simp at h

theorem regOK_iff {c : Reg M H} (hc : NotMount c) {L : Log M H} :
    RegOK c L ↔ ∀ e' ∈ callLog c, StarsOK e'.segs ∧ ∀ e ∈ L, Compat e e' := by
  cases c with
  | useServiceTo p m =>
    simp only [RegOK, callLog, logReg]
    by_cases h : segments p = []
    · rw [h]; simp
      exact ⟨starsOK_nil, fun e _ => ⟨clash_nil, clash_nil'⟩⟩
    · rw [if_neg h]; simp only [List.nil_append, List.mem_singleton, forall_eq, NoClash, Compat]
      refine and_congr Iff.rfl (forall_congr' fun e => forall_congr' fun _ => ?_)
      simp
  | useService m =>
    simp only [RegOK, callLog, logReg, List.nil_append, List.mem_singleton, forall_eq, true_iff, Compat]
    exact ⟨starsOK_nil, fun e _ => ⟨clash_nil, clash_nil', by simp⟩⟩
  | useRouter p sub => simp [NotMount] at hc
  | scope p sub => simp [NotMount] at hc
  | get p h | post p h | put p h | patch p h | delete p h =>
    simp only [RegOK, callLog, logReg, List.nil_append, List.mem_singleton, forall_eq]; exact routeOK_iff

theorem callLog_pairwise {c : Reg M H} (hc : NotMount c) : (callLog c).Pairwise Compat := by
  cases c with
  | useServiceTo p m => simp only [callLog, logReg]; split <;> simp
  | useRouter p sub => simp [NotMount] at hc
  | scope p sub => simp [NotMount] at hc
  | _ => simp [callLog, logReg]

theorem regsOK_iff {cs : List (Reg M H)} (hc : ∀ c ∈ cs, NotMount c) {L : Log M H} :
    RegsOK cs L ↔ (∀ e' ∈ cs.flatMap callLog, StarsOK e'.segs ∧ ∀ e ∈ L, Compat e e') ∧
      (cs.flatMap callLog).Pairwise Compat := by
  induction cs generalizing L with
  | nil => simp [RegsOK]
  | cons c cs ih =>
    have hn := hc c (by simp)
    rw [RegsOK, regOK_iff hn, logReg_callLog hn, ih (fun x hx => hc x (by simp [hx])),
      List.flatMap_cons, List.pairwise_append]
    constructor
    · rintro ⟨h1, h2, h3⟩
      refine ⟨?_, callLog_pairwise hn, h3, ?_⟩
      · intro e' he'
        rcases List.mem_append.1 he' with he' | he'
        · exact h1 e' he'
        · exact ⟨(h2 e' he').1, fun e he => (h2 e' he').2 e (by simp [he])⟩
      · intro a ha b hb
        exact (h2 b hb).2 a (by simp [ha])
    · rintro ⟨h1, h2, h3, h4⟩
      refine ⟨fun e' he' => h1 e' (by simp [he']), fun e' he' => ?_, h3⟩
      have he'' : e' ∈ callLog c ++ List.flatMap callLog cs := List.mem_append.2 (Or.inr he')
      refine ⟨(h1 e' he'').1, fun e he => ?_⟩
      rcases List.mem_append.1 he with he | he
      · exact (h1 e' he'').2 e he
      · exact h4 e he e' he'

theorem mwsAt_flatMap {cs : List (Reg M H)} (hc : ∀ c ∈ cs, NotMount c) (q : Str) :
    mwsAt (cs.flatMap callLog) q = mwsAt ((cs.filter isMw).flatMap callLog) q := by
  induction cs with
  | nil => rfl
  | cons c cs ih =>
    have ih' := ih (fun x hx => hc x (by simp [hx]))
    have hn := hc c (by simp)
    cases c with
    | useServiceTo p m =>
      rw [List.filter_cons_of_pos rfl, List.flatMap_cons, List.flatMap_cons, mwsAt_append,
        mwsAt_append, ih']
    | useService m =>
      rw [List.filter_cons_of_pos rfl, List.flatMap_cons, List.flatMap_cons, mwsAt_append,
        mwsAt_append, ih']
    | useRouter p sub => simp [NotMount] at hn
    | scope p sub => simp [NotMount] at hn
    | get p h | post p h | put p h | patch p h | delete p h =>
      have : ∀ (m : Method), mwsAt [(⟨segments p, .route m h⟩ : Entry M H)] q = [] := by
        intro m; simp [mwsAt]
      rw [List.filter_cons_of_neg (by simp [isMw]), List.flatMap_cons, mwsAt_append, ih', callLog,
        logReg, List.nil_append, this, List.nil_append]

/-- **C07**: the calls of a program without mounts can be reordered freely, as long as the
middlewares keep their order: acceptance does not change, and no request can tell the routers apart. -/
theorem C07_order_irrelevant {prog prog' : List (Reg M H)} (hc : CleanRegs prog)
    (hm : ∀ c ∈ prog, NotMount c) (hp : prog.Perm prog')
    (hmw : prog.filter isMw = prog'.filter isMw) :
    ((build prog).2 = none ↔ (build prog').2 = none) ∧
    ∀ r r', build prog = (r, none) → build prog' = (r', none) → ∀ path, SameAt r r' path := by
  have hm' : ∀ c ∈ prog', NotMount c := fun c h => hm c (hp.mem_iff.2 h)
  have hc' : CleanRegs prog' := cleanRegs_iff.2 fun c h => cleanRegs_iff.1 hc c (hp.mem_iff.2 h)
  have hperm : (prog.flatMap callLog).Perm (prog'.flatMap callLog) := hp.flatMap_right callLog
  constructor
  · rw [build_iff hc, build_iff hc', regsOK_iff hm, regsOK_iff hm',
      hperm.pairwise_iff (fun h => h.symm)]
    simp only [hperm.mem_iff]
  · intro r r' hb hb' path
    have h1 : logOf prog = prog.flatMap callLog := by rw [logOf, logRegs_flatMap hm]; simp
    have h2 : logOf prog' = prog'.flatMap callLog := by rw [logOf, logRegs_flatMap hm']; simp
    refine (build_rep hc hb).sameAt_of_mem (build_rep hc' hb') (build_good hc hb) (build_good hc' hb')
      (fun e => ?_) (fun q => ?_) path
    · rw [h1, h2]; exact hperm.mem_iff
    · rw [h1, h2, mwsAt_flatMap hm, mwsAt_flatMap hm', hmw]

/-- **C07** for routes only, as a list of verb, path and handler. -/
theorem C07_routes {routes routes' : List (Verb × Str × H)}
    (hc : ∀ t ∈ routes, CleanPath t.2.1) (hp : routes.Perm routes') :
    let prog : List (Reg M H) := routes.map (fun t => t.1.reg t.2.1 t.2.2)
    let prog' : List (Reg M H) := routes'.map (fun t => t.1.reg t.2.1 t.2.2)
    ((build prog).2 = none ↔ (build prog').2 = none) ∧
    ∀ r r', build prog = (r, none) → build prog' = (r', none) → ∀ path, SameAt r r' path := by
  intro prog prog'
  have hf : ∀ l : List (Verb × Str × H),
      (l.map (fun t => (t.1.reg t.2.1 t.2.2 : Reg M H))).filter isMw = [] := by
    intro l
    rw [List.filter_eq_nil_iff]
    intro c hcm
    obtain ⟨t, _, rfl⟩ := List.mem_map.1 hcm
    obtain ⟨v, p, h⟩ := t
    cases v <;> simp [Verb.reg, isMw]
  refine C07_order_irrelevant (cleanRegs_iff.2 ?_) ?_ (hp.map _) (by rw [hf, hf])
  · intro c hcm
    obtain ⟨⟨v, p, h⟩, ht, rfl⟩ := List.mem_map.1 hcm
    cases v <;> simp only [Verb.reg, CleanReg] <;> exact hc _ ht
  · intro c hcm
    obtain ⟨⟨v, p, h⟩, ht, rfl⟩ := List.mem_map.1 hcm
    cases v <;> simp [Verb.reg, NotMount]

/-- Three routes that share prefixes, in two orders: different trees, same dispatch. -/
example : ∀ path, SameAt
    (build ([.get (s "/users/all") 1, .get (s "/us/*") 2, .get (s "/v/:id") 3, .useService 9] : Prog)).1
    (build ([.useService 9, .get (s "/v/:id") 3, .get (s "/us/*") 2, .get (s "/users/all") 1] : Prog)).1
    path := by
  refine (C07_order_irrelevant ?_ ?_ ?_ ?_).2 _ _ (build_eq (by decide +kernel))
    (build_eq (by decide +kernel))
  · simp only [CleanRegs, CleanReg]; decide +kernel
  · intro c hc; simp at hc; rcases hc with rfl | rfl | rfl | rfl <;> simp [NotMount]
  · refine List.Perm.trans ?_ (List.reverse_perm _)
    exact List.Perm.refl _
  · rfl

end Obsidian.Props
