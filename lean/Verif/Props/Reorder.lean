import Verif.Spec.Calls
import Verif.Props.Order
import Verif.Props.Mount

/-
C87: the order of registrations with nested routers.
-/
namespace Obsidian.Props
open Obsidian Spec
variable {M H : Type}

theorem logReg_append {c : Reg M H} (hc : NotRootMount c) (L : Log M H) : logReg c L = L ++ callLog c := by
  cases c with
  | useRouter p sub =>
    have := hc p sub (.inl rfl)
    simp only [callLog, logReg, mountLog, if_neg this, List.nil_append]
  | scope p sub =>
    have := hc p sub (.inr rfl)
    simp only [callLog, logReg, mountLog, if_neg this, List.nil_append]
  | _ => exact logReg_callLog (by simp [NotMount]) L

theorem logRegs_calls {cs : List (Reg M H)} (hc : ∀ c ∈ cs, NotRootMount c) (L : Log M H) :
    logRegs cs L = L ++ cs.flatMap callLog := by
  induction cs generalizing L with
  | nil => simp [logRegs]
  | cons c cs ih =>
    rw [logRegs, logReg_append (hc c (by simp)), ih (fun x hx => hc x (by simp [hx]))]
    simp

mutual
theorem noMws_reg {c : Reg M H} (h : addsMw c = false) {L : Log M H} (hL : NoMws L) : NoMws (logReg c L) := by
  cases c with
  | useService m => simp [addsMw] at h
  | useServiceTo p m => simp [addsMw] at h
  | useRouter p sub =>
    rw [addsMw] at h
    have ih := noMws_regs (cs := sub) h (L := []) (by intro e he; simp at he)
    rw [logReg, mountLog]
    split
    · exact ih
    · intro e he m
      simp only [List.mem_append, List.mem_cons, List.mem_map] at he
      rcases he with he | rfl | ⟨e, he, rfl⟩
      · exact hL e he m
      · simp
      · exact ih e he m
  | scope p sub =>
    rw [addsMw] at h
    have ih := noMws_regs (cs := sub) h (L := []) (by intro e he; simp at he)
    rw [logReg, mountLog]
    split
    · exact ih
    · intro e he m
      simp only [List.mem_append, List.mem_cons, List.mem_map] at he
      rcases he with he | rfl | ⟨e, he, rfl⟩
      · exact hL e he m
      · simp
      · exact ih e he m
  | get p h | post p h | put p h | patch p h | delete p h =>
    intro e he m
    simp only [logReg, List.mem_append, List.mem_singleton] at he
    rcases he with he | rfl
    · exact hL e he m
    · simp
theorem noMws_regs {cs : List (Reg M H)} (h : addMw cs = false) {L : Log M H} (hL : NoMws L) : NoMws (logRegs cs L) := by
  match cs with
  | [] => exact hL
  | c :: cs =>
    rw [addMw, Bool.or_eq_false_iff] at h
    exact noMws_regs h.2 (noMws_reg h.1 hL)
end

theorem mwsAt_noMws {L : Log M H} (h : NoMws L) (q : Str) : mwsAt L q = [] := by
  rw [mwsAt, List.filterMap_eq_nil_iff]
  intro e he
  split
  · have := h e he
    cases hw : e.what with
    | middleware m => exact absurd hw (this m)
    | _ => rfl
  · rfl

theorem mwsAt_filter {cs : List (Reg M H)} (q : Str) :
    mwsAt (cs.flatMap callLog) q = mwsAt ((cs.filter addsMw).flatMap callLog) q := by
  induction cs with
  | nil => rfl
  | cons c cs ih =>
    rw [List.flatMap_cons, mwsAt_append, ih]
    cases h : addsMw c with
    | true => rw [List.filter_cons_of_pos h, List.flatMap_cons, mwsAt_append]
    | false =>
      rw [List.filter_cons_of_neg (by simp [h]), callLog,
        mwsAt_noMws (noMws_reg h (by intro e he; simp at he)), List.nil_append]

/-- **C87, what holds**: if two programs make the same calls in different orders, with nested routers but not
at the root, with the calls that add middlewares in the same order, and both are accepted, then no
request can tell the routers apart.  Missing: that both are accepted, which is false. -/
theorem C87_reordered_partial {prog prog' : List (Reg M H)} (hc : CleanRegs prog)
    (hm : ∀ c ∈ prog, NotRootMount c) (hp : prog.Perm prog')
    (hmw : prog.filter addsMw = prog'.filter addsMw) {r r' : Router M H}
    (hb : build prog = (r, none)) (hb' : build prog' = (r', none)) (path : Str) : SameAt r r' path := by
  have hm' : ∀ c ∈ prog', NotRootMount c := fun c h => hm c (hp.mem_iff.2 h)
  have hc' : CleanRegs prog' := cleanRegs_iff.2 fun c h => cleanRegs_iff.1 hc c (hp.mem_iff.2 h)
  have hperm : (prog.flatMap callLog).Perm (prog'.flatMap callLog) := hp.flatMap_right callLog
  have h1 : logOf prog = prog.flatMap callLog := by rw [logOf, logRegs_calls hm]; simp
  have h2 : logOf prog' = prog'.flatMap callLog := by rw [logOf, logRegs_calls hm']; simp
  refine (build_rep hc hb).sameAt_of_mem (build_rep hc' hb') (build_good hc hb) (build_good hc' hb')
    (fun e => ?_) (fun q => ?_) path
  · rw [h1, h2]; exact hperm.mem_iff
  · rw [h1, h2, mwsAt_filter (cs := prog), hmw, ← mwsAt_filter]

theorem compat_under {ss : List Str} (hne : ∀ x ∈ ss, x ≠ []) {e e' : Entry M H} (h : Compat e e') :
    Compat (e.under ss) (e'.under ss) := by
  refine ⟨?_, ?_, fun m k k' hf hw => ?_⟩
  · rw [Entry.under, Entry.under, clash_under hne]; exact h.1
  · rw [Entry.under, Entry.under, clash_under hne]; exact h.2.1
  · simp only [Entry.under, flat_append, List.append_cancel_left_eq] at hf hw ⊢
    exact h.2.2 m k k' hf hw

/-- What a nested router brings is compatible with everything before. -/
theorem compat_mount {L : Log M H} {ss : List Str} (hf : Free L (flat ss)) (hn : NoClash L ss) {e e' : Entry M H}
    (he : e ∈ L) {t : List Str} (hs : e'.segs = ss ++ t) : Compat e e' := by
  have := free_noClash hf hn (t := t) e he
  refine ⟨by rw [hs]; exact this.1, by rw [hs]; exact this.2, fun m k k' hfl hw => ?_⟩
  rw [hs, flat_append] at hfl
  have h1 := hf.2 e he (by rw [hfl]; exact List.prefix_append ..)
  have h2 := hf.1
  rw [hasEntry, List.any_eq_false] at h2
  exact absurd (by simp [Entry.isAt, h1, hw]) (h2 e he)

theorem mount_pairwise {L S : Log M H} {ss : List Str} (hne : ∀ x ∈ ss, x ≠ [])
    (h : ss = [] ∨ (NoClash L ss ∧ Free L (flat ss))) (hL : L.Pairwise Compat) (hS : S.Pairwise Compat) :
    (mountLog ss L S).Pairwise Compat := by
  rw [mountLog]
  split
  · exact hS
  rename_i h0
  obtain ⟨hn, hf⟩ := h.resolve_left h0
  rw [List.pairwise_append, List.pairwise_cons]
  refine ⟨hL, ⟨fun e' he' => ?_, ?_⟩, fun e he e' he' => ?_⟩
  · obtain ⟨x, _, rfl⟩ := List.mem_map.1 he'
    have h1 := clash_under (a := []) (b := x.segs) hne
    have h2 := clash_under (a := x.segs) (b := []) hne
    rw [List.append_nil] at h1 h2
    refine ⟨?_, ?_, fun m k k' _ hw => by simp at hw⟩
    · rw [Entry.under, h1]; exact clash_nil'
    · rw [Entry.under, h2]; exact clash_nil
  · rw [List.pairwise_map]
    exact hS.imp fun h => compat_under hne h
  · rcases List.mem_cons.1 he' with rfl | he'
    · exact compat_mount hf hn he (t := []) (by simp)
    · obtain ⟨x, _, rfl⟩ := List.mem_map.1 he'
      exact compat_mount hf hn he rfl

mutual
theorem reg_pairwise {c : Reg M H} {L : Log M H} (h : RegOK c L) (hL : L.Pairwise Compat) :
    (logReg c L).Pairwise Compat := by
  cases c with
  | useRouter p sub =>
    rw [RegOK] at h; rw [logReg]
    exact mount_pairwise (segments_ne p) h.2.2 hL (regs_pairwise h.1 .nil)
  | scope p sub =>
    rw [RegOK] at h; rw [logReg]
    exact mount_pairwise (segments_ne p) h.2.2 hL (regs_pairwise h.1 .nil)
  | _ =>
    rw [logReg_callLog (by simp [NotMount]), List.pairwise_append]
    exact ⟨hL, callLog_pairwise (by simp [NotMount]), fun e he e' he' =>
      (((regOK_iff (by simp [NotMount])).1 h) e' he').2 e he⟩
theorem regs_pairwise {cs : List (Reg M H)} {L : Log M H} (h : RegsOK cs L) (hL : L.Pairwise Compat) :
    (logRegs cs L).Pairwise Compat := by
  match cs with
  | [] => exact hL
  | c :: cs => rw [RegsOK] at h; rw [logRegs]; exact regs_pairwise h.2 (reg_pairwise h.1 hL)
end

theorem regOK_alone {c : Reg M H} {L : Log M H} (h : RegOK c L) : AloneOK c := by
  refine ⟨?_, fun hn e he => ((regOK_iff hn).1 h e he).1⟩
  rintro p sub (rfl | rfl) <;> · rw [RegOK] at h; exact ⟨h.1, h.2.1⟩

theorem regsOK_alone {cs : List (Reg M H)} {L : Log M H} (h : RegsOK cs L) : ∀ c ∈ cs, AloneOK c := by
  induction cs generalizing L with
  | nil => intro c hc; simp at hc
  | cons c cs ih =>
    rw [RegsOK] at h
    intro x hx
    rcases List.mem_cons.1 hx with rfl | hx
    · exact regOK_alone h.1
    · exact ih h.2 x hx

theorem callLog_mount {c : Reg M H} {p : Str} {sub : List (Reg M H)} (hm : IsMount c p sub) (hp : segments p ≠ []) :
    ⟨segments p, .nothing⟩ ∈ callLog c := by
  rcases hm with rfl | rfl <;> simp [callLog, logReg, mountLog, hp]

/-- A call is accepted if it is acceptable by itself, compatible with what was registered and, if it mounts
a router, nothing is in its place. -/
theorem regOK_of {c : Reg M H} (hc : NotRootMount c) (h : AloneOK c) {L : Log M H}
    (hcomp : ∀ e ∈ L, ∀ e' ∈ callLog c, Compat e e')
    (hfree : ∀ p sub, IsMount c p sub → Free L (flat (segments p))) : RegOK c L := by
  have mount : ∀ p sub, IsMount c p sub → RegsOK sub [] ∧ StarsOK (segments p) ∧
      (segments p = [] ∨ (NoClash L (segments p) ∧ Free L (flat (segments p)))) := by
    intro p sub hm
    refine ⟨(h.1 p sub hm).1, (h.1 p sub hm).2, .inr ⟨fun e he => ?_, hfree p sub hm⟩⟩
    have := hcomp e he _ (callLog_mount hm (hc p sub hm))
    exact ⟨this.1, this.2.1⟩
  cases c with
  | useRouter p sub => rw [RegOK]; exact mount p sub (.inl rfl)
  | scope p sub => rw [RegOK]; exact mount p sub (.inr rfl)
  | _ =>
    exact (regOK_iff (by simp [NotMount])).2 fun e' he' =>
      ⟨h.2 (by simp [NotMount]) e' he', fun e he => hcomp e he e' he'⟩

theorem regsOK_of {cs : List (Reg M H)} (hc : ∀ c ∈ cs, NotRootMount c) (h : ∀ c ∈ cs, AloneOK c) {L : Log M H}
    (hcomp : (L ++ cs.flatMap callLog).Pairwise Compat)
    (hfree : ∀ pre c post p sub, cs = pre ++ c :: post → IsMount c p sub →
      Free (L ++ pre.flatMap callLog) (flat (segments p))) : RegsOK cs L := by
  induction cs generalizing L with
  | nil => simp [RegsOK]
  | cons c cs ih =>
    rw [RegsOK]
    refine ⟨regOK_of (hc c (by simp)) (h c (by simp)) (fun e he e' he' => ?_) fun p sub hm => ?_, ?_⟩
    · exact (List.pairwise_append.1 hcomp).2.2 e he e' (by simp [he'])
    · simpa using hfree [] c cs p sub rfl hm
    · rw [logReg_append (hc c (by simp))]
      refine ih (fun x hx => hc x (by simp [hx])) (fun x hx => h x (by simp [hx])) (by simpa using hcomp) ?_
      intro pre x post p sub hcs hm
      have := hfree (c :: pre) x post p sub (by rw [hcs]; rfl) hm
      simpa using this

theorem regsOK_split {pre post : List (Reg M H)} {c : Reg M H} {L : Log M H} (h : RegsOK (pre ++ c :: post) L) :
    RegOK c (logRegs pre L) := by
  induction pre generalizing L with
  | nil => rw [List.nil_append, RegsOK] at h; exact h.1
  | cons x pre ih => rw [List.cons_append, RegsOK] at h; exact ih h.2

/-- **C87, which orders are accepted**: exactly those in which every nested router is mounted before anything
is registered at its path or below (comparing the characters of the paths, without slashes). -/
theorem C87_accepted_partial {prog prog' : List (Reg M H)} (hc : CleanRegs prog)
    (hm : ∀ c ∈ prog, NotRootMount c) (hp : prog.Perm prog') (hb : (build prog).2 = none) :
    (build prog').2 = none ↔ ∀ pre c post p sub, prog' = pre ++ c :: post → IsMount c p sub →
      Free (logOf pre) (flat (segments p)) := by
  have hm' : ∀ c ∈ prog', NotRootMount c := fun c h => hm c (hp.mem_iff.2 h)
  have hc' : CleanRegs prog' := cleanRegs_iff.2 fun c h => cleanRegs_iff.1 hc c (hp.mem_iff.2 h)
  have hperm : (prog.flatMap callLog).Perm (prog'.flatMap callLog) := hp.flatMap_right callLog
  have hok := (build_iff hc).1 hb
  rw [build_iff hc']
  constructor
  · intro h pre c post p sub hsplit hmt
    subst hsplit
    have hreg := regsOK_split h
    have hne := hm' c (by simp) p sub hmt
    rcases hmt with rfl | rfl <;> · rw [RegOK] at hreg; exact (hreg.2.2.resolve_left hne).2
  · intro h
    refine regsOK_of hm' (fun c hcm => regsOK_alone hok c (hp.mem_iff.2 hcm)) ?_ fun pre c post p sub hs hmt => ?_
    · rw [List.nil_append, ← hperm.pairwise_iff fun h => h.symm]
      have := regs_pairwise hok .nil
      rwa [logRegs_calls hm, List.nil_append] at this
    · have := h pre c post p sub hs hmt
      rwa [logOf, logRegs_calls (fun c hcm => hm' c (by rw [hs]; simp [hcm]))] at this

/-- **C87 is false**: whether a program is accepted depends on the order.  A nested router has to be mounted
before any route below its path is registered, and before another one is mounted at a path that begins with
the same characters. -/
theorem C87_false :
    (build ([.useRouter (s "/api") [.get (s "/a") 1], .get (s "/api/b") 2] : Prog)).2 = none ∧
    (build ([.get (s "/api/b") 2, .useRouter (s "/api") [.get (s "/a") 1]] : Prog)).2 ≠ none ∧
    (build ([.scope (s "/v1") [.get (s "/a") 1], .scope (s "/v10") [.get (s "/b") 2]] : Prog)).2 = none ∧
    (build ([.scope (s "/v10") [.get (s "/b") 2], .scope (s "/v1") [.get (s "/a") 1]] : Prog)).2 ≠ none := by
  decide +kernel

/-- Two nested routers and a middleware. -/
def orderOne : Prog :=
  [.useRouter (s "/api") [.get (s "/a") 1, .useService 7], .scope (s "/v/:id") [.get (s "/b") 2],
    .get (s "/api/x") 3, .useServiceTo (s "/v") 9]

/-- The same in another order. -/
def orderTwo : Prog :=
  [.scope (s "/v/:id") [.get (s "/b") 2], .useRouter (s "/api") [.get (s "/a") 1, .useService 7],
    .useServiceTo (s "/v") 9, .get (s "/api/x") 3]

example : ∃ r r', build orderOne = (r, none) ∧ build orderTwo = (r', none) ∧ ∀ path, SameAt r r' path := by
  obtain ⟨r, hb⟩ : ∃ r, build orderOne = (r, none) := ⟨_, build_eq (by decide +kernel)⟩
  obtain ⟨r', hb'⟩ : ∃ r, build orderTwo = (r, none) := ⟨_, build_eq (by decide +kernel)⟩
  refine ⟨r, r', hb, hb', C87_reordered_partial ?_ ?_ ?_ (by simp [orderOne, orderTwo, addsMw, addMw, List.filter_cons]) hb hb'⟩
  · simp only [orderOne, CleanRegs, CleanReg]; decide +kernel
  · intro c hc p sub
    simp only [orderOne, List.mem_cons, List.not_mem_nil, or_false] at hc
    rcases hc with rfl | rfl | rfl | rfl <;> rintro (h | h) <;> simp at h
    · rw [← h.1]; decide +kernel
    · rw [← h.1]; decide +kernel
  · exact (List.Perm.swap ..).trans (List.Perm.cons _ (List.Perm.cons _ (List.Perm.swap ..)))

end Obsidian.Props
