import Verif.Spec.Calls
import Verif.Props.Sound
import Verif.Props.Accept
import Verif.Proofs.Everywhere

/-
C12 - C17: which middlewares run for a request, and in which order.
-/
namespace Obsidian.Props
open Obsidian Spec
variable {M H : Type}

theorem mem_upTo {L : Log M H} {p r : Str} {m : M} :
    m ∈ upTo L p r ↔ ∃ u v, r = u ++ v ∧ u ≠ [] ∧ m ∈ mwsAt L (p ++ u) := by
  induction r generalizing p with
  | nil =>
    simp only [upTo, List.not_mem_nil, false_iff]
    rintro ⟨u, v, h, hu, _⟩
    exact hu (List.append_eq_nil_iff.1 h.symm).1
  | cons c r ih =>
    rw [upTo, List.mem_append, ih]
    constructor
    · rintro (⟨u, v, rfl, hu, hm⟩ | hm)
      · exact ⟨c :: u, v, rfl, by simp, by simpa using hm⟩
      · exact ⟨[c], r, rfl, by simp, hm⟩
    · rintro ⟨u, v, h, hu, hm⟩
      cases u with
      | nil => exact absurd rfl hu
      | cons d u =>
        simp at h
        obtain ⟨rfl, rfl⟩ := h
        cases u with
        | nil => exact Or.inr hm
        | cons e u => exact Or.inl ⟨e :: u, v, rfl, by simp, by simpa using hm⟩

theorem flat_segs_ne {ss : List Str} (h : ∀ x ∈ ss, x ≠ []) (hn : ss ≠ []) : flat ss ≠ [] := by
  cases ss with
  | nil => exact absurd rfl hn
  | cons a ss => intro hf; simp at hf; exact h a (by simp) hf.1

/-! ### C12 -/

theorem globalsFrom_noRootMount {cs : List (Reg M H)} (h : NoRootMount cs) (g : List M) :
    globalsFrom cs g = g ++ services cs := by
  induction cs generalizing g with
  | nil => simp [globalsFrom, services]
  | cons c cs ih =>
    have ih' := ih (fun x hx => h x (by simp [hx]))
    rw [globalsFrom, ih']
    have hc := h c (by simp)
    cases c with
    | useService m => simp [globalsReg, services]
    | useRouter p sub => rw [globalsReg, if_neg (hc p sub (Or.inl rfl))]; simp [services]
    | scope p sub => rw [globalsReg, if_neg (hc p sub (Or.inr rfl))]; simp [services]
    | _ => simp [globalsReg, services]

theorem mwsAt_one {e : Entry M H} {q : Str} (h : flat e.segs ≠ q) : mwsAt [e] q = [] := by
  have : e.isAt q = false := by rw [← Bool.not_eq_true, isAt_iff]; exact h
  simp [mwsAt, this]

theorem mwsAt_mount {ss : List Str} (hn : ∀ x ∈ ss, x ≠ []) (hs : ss ≠ []) (L S : Log M H) :
    mwsAt (mountLog ss L S) [] = mwsAt L [] := by
  rw [mountLog, if_neg hs, mwsAt_append]
  have : mwsAt (⟨ss, .nothing⟩ :: S.map (Entry.under ss)) [] = [] := by
    rw [List.eq_nil_iff_forall_not_mem]
    intro m hm
    obtain ⟨e, he, hf, hw⟩ := mem_mwsAt.1 hm
    rcases List.mem_cons.1 he with rfl | he
    · simp at hw
    · obtain ⟨e', _, rfl⟩ := List.mem_map.1 he
      rw [Entry.under, flat_append] at hf
      exact flat_segs_ne hn hs (List.append_eq_nil_iff.1 hf).1
  rw [this]; simp

mutual
theorem mwsAt_reg : ∀ (c : Reg M H) (L : Log M H), mwsAt (logReg c L) [] = globalsReg c (mwsAt L [])
  | .get p h, L => by simp [logReg, globalsReg, mwsAt_append, mwsAt]
  | .post p h, L => by simp [logReg, globalsReg, mwsAt_append, mwsAt]
  | .put p h, L => by simp [logReg, globalsReg, mwsAt_append, mwsAt]
  | .patch p h, L => by simp [logReg, globalsReg, mwsAt_append, mwsAt]
  | .delete p h, L => by simp [logReg, globalsReg, mwsAt_append, mwsAt]
  | .useService m, L => by simp [logReg, globalsReg, mwsAt_append, mwsAt, Entry.isAt]
  | .useServiceTo p m, L => by
    by_cases h : segments p = []
    · simp [logReg, globalsReg, h]
    · have := mwsAt_one (e := (⟨segments p, .middleware m⟩ : Entry M H))
        (flat_segs_ne (segments_ne p) h)
      simp [logReg, globalsReg, h, mwsAt_append, this]
  | .useRouter p sub, L => by
    rw [logReg, globalsReg]
    split
    · next h => rw [mountLog, if_pos h, mwsAt_regs sub []]; rfl
    · next h => exact mwsAt_mount (segments_ne p) h L _
  | .scope p sub, L => by
    rw [logReg, globalsReg]
    split
    · next h => rw [mountLog, if_pos h, mwsAt_regs sub []]; rfl
    · next h => exact mwsAt_mount (segments_ne p) h L _
theorem mwsAt_regs : ∀ (cs : List (Reg M H)) (L : Log M H),
    mwsAt (logRegs cs L) [] = globalsFrom cs (mwsAt L [])
  | [], L => by simp [logRegs, globalsFrom]
  | c :: cs, L => by rw [logRegs, globalsFrom, mwsAt_regs cs, mwsAt_reg c]
end

/-- **C12**: the chain of every found request starts with the global middlewares in the order in which
they were added; what follows was registered for a path other than the root. -/
theorem C12_globals_first {prog : List (Reg M H)} {r : Router M H}
    (hb : build prog = (r, none)) {path : Str} (hf : isFound r path = true) :
    ∃ rest, chainFor r path = some (globalsFrom prog [] ++ rest) ∧
      ∀ m ∈ rest, ∃ e ∈ logOf prog, e.what = .middleware m ∧ e.segs ≠ [] := by
  rw [isFound] at hf
  split at hf
  · next v e =>
    obtain ⟨_, w, hw, hr⟩ := (Node.build_only hb).search e
    refine ⟨w, ?_, hr⟩
    rw [chainFor, e]
    simp only [hw, (Node.build_tracks hb).root]
    rw [logOf, mwsAt_regs]; rfl
  · simp at hf

/-- **C12** for programs without root mounts: the global middlewares are the `use_service` calls. -/
theorem C12_services_first {prog : List (Reg M H)} (hn : NoRootMount prog)
    {r : Router M H} (hb : build prog = (r, none)) {path : Str} (hf : isFound r path = true) :
    ∃ rest, chainFor r path = some (services prog ++ rest) ∧
      ∀ m ∈ rest, ∃ e ∈ logOf prog, e.what = .middleware m ∧ e.segs ≠ [] := by
  have := C12_globals_first hb hf
  rwa [globalsFrom_noRootMount hn, List.nil_append] at this

example : ∃ r, build demo = (r, none) ∧ isFound r (s "/api/v1/ping") = true ∧
    globalsFrom demo [] = [100] ∧ chainFor r (s "/api/v1/ping") = some [100, 102] :=
  ⟨_, build_eq demo_ok, by decide +kernel, by decide +kernel, by decide +kernel⟩

/-! ### C13 -/

theorem mem_chain_of {L : Log M H} {Q ss : List Str} {m : M}
    (hm : (⟨Q, .middleware m⟩ : Entry M H) ∈ L) (hQ : Q <+: ss) : m ∈ Spec.chain L (flat ss) := by
  have hat : m ∈ mwsAt L (flat Q) := mem_mwsAt.2 ⟨_, hm, rfl, rfl⟩
  obtain ⟨t, rfl⟩ := hQ
  rw [Spec.chain, List.mem_append]
  by_cases h0 : flat Q = []
  · left; rwa [h0] at hat
  · right; exact mem_upTo.2 ⟨flat Q, flat t, flat_append _ _, h0, by simpa using hat⟩

/-- **C13** by request: if the request matches a wildcard-free path registered at or below `Q`, the
middleware of `Q` is in its chain. -/
theorem C13_matching_requests {prog : List (Reg M H)} {r : Router M H}
    (hb : build prog = (r, none)) {Q : List Str} {m : M}
    (hm : ⟨Q, .middleware m⟩ ∈ logOf prog) {e : Entry M H} (he : e ∈ logOf prog)
    (hw : e.what ≠ .nothing) (hQ : Q <+: e.segs) (hs : NoStar e.segs) {path : Str}
    {b : List (Str × Str)} (hreq : Matches e.segs (segments path) b) :
    ∃ c, chainFor r path = some c ∧ m ∈ c := by
  have ht := Node.build_tracks hb
  obtain ⟨more, hmore⟩ := hQ
  have hsQ : NoStar Q := fun h => hs (by rw [← hmore]; simp [h])
  obtain ⟨t, ms, hat, hst⟩ := ht.has _ hm hsQ
  obtain ⟨t', ms', hat', hst'⟩ := ht.has e he hs
  obtain ⟨v, hv⟩ : ∃ v, t'.value = some v := by
    cases hw' : e.what with
    | nothing => exact absurd hw' hw
    | route m' h => rw [hw'] at hst'; obtain ⟨v, hv, _⟩ := hst'; exact ⟨v, hv⟩
    | middleware x =>
      rw [hw'] at hst'
      have hst' : x ∈ t'.mws := hst'
      rw [Node.mws] at hst'
      split at hst'
      · next v hv => exact ⟨v, hv⟩
      · simp at hst'
  obtain ⟨ps, hfound, _⟩ := hat'.found hv hreq
  refine ⟨r.routes.head.mws ++ ms', by rw [chainFor, hfound]; rfl, List.mem_append.2 ?_⟩
  rw [← hmore] at hat'
  obtain ⟨ms'', _, hms⟩ := hat.through hat'
  have hst : m ∈ t.mws := hst
  rcases hat with ⟨_, rfl, _⟩ | hway
  · exact Or.inl hst
  · obtain ⟨l, hl⟩ := hway.last
    right
    rw [hms, hl]
    simp [hst]

/-- **C13** by handler, wildcards included: if the selected handler was only registered at or below
`Q`, the middleware of `Q` is in the chain. -/
theorem C13_served_handlers {prog : List (Reg M H)} (hc : CleanRegs prog) {r : Router M H}
    (hb : build prog = (r, none)) {Q : List Str} {m : M}
    (hm : ⟨Q, .middleware m⟩ ∈ logOf prog) {path : Str} {meth : Method} {h : H}
    (hh : handlerFor r meth path = some h)
    (hQ : ∀ e ∈ logOf prog, e.what = .route meth h → Q <+: e.segs) :
    ∃ c, chainFor r path = some c ∧ m ∈ c := by
  obtain ⟨q, b, hl, hr⟩ := (build_rep hc hb).handler hh
  obtain ⟨e, he, hf, hw⟩ := routeAt_mem hr
  refine ⟨_, ((build_rep hc hb).obs_some hl).2.2.1, ?_⟩
  rw [← hf]; exact mem_chain_of hm (hQ e he hw)

example : ∃ r, build demo = (r, none) ∧ ⟨[s "items"], .middleware 101⟩ ∈ logOf demo ∧
    handlerFor r .get (s "/items/1/parts/2") = some 4 ∧
    (∀ e ∈ logOf demo, e.what = .route .get 4 → [s "items"] <+: e.segs) ∧
    chainFor r (s "/items/1/parts/2") = some [100, 101] :=
  ⟨_, build_eq demo_ok, by decide +kernel, by decide +kernel, by decide +kernel, by decide +kernel⟩

/-! ### C14 -/

/-- **C14 is false**: a middleware of `/ad` runs for `/admin`. -/
theorem C14_false : ∃ (prog : Prog) (r : Router Nat Nat), CleanRegs prog ∧ build prog = (r, none) ∧
    prog = [.useServiceTo (s "/ad") 7, .get (s "/admin") 1] ∧
    handlerFor r .get (s "/admin") = some 1 ∧ ¬ segments (s "/ad") <+: segments (s "/admin") ∧
    chainFor r (s "/admin") = some [7] := by
  refine ⟨_, _, ?_, build_eq (by decide +kernel), rfl, by decide +kernel, by decide +kernel,
    by decide +kernel⟩
  simp only [CleanRegs, CleanReg]; decide +kernel

/-- **C14, what holds**: a middleware in the chain was registered at a path whose characters, without
slashes, begin those of a registered path that the request agrees with.  Missing: "begins" at the level
of segments, where it is false. -/
theorem C14_only_below_partial {prog : List (Reg M H)} (hc : CleanRegs prog) {r : Router M H}
    (hb : build prog = (r, none)) {path : Str} {c : List M} (hch : chainFor r path = some c) :
    ∃ e ∈ logOf prog, e.what ≠ .nothing ∧ (∃ b, FlatMatch e.segs (segments path) b) ∧
      ∀ m ∈ c, ∃ Q, ⟨Q, .middleware m⟩ ∈ logOf prog ∧ flat Q <+: flat e.segs := by
  have hr := build_rep hc hb
  have hg := build_good hc hb
  obtain ⟨q, b, hl, rfl⟩ := hr.chain hch
  obtain ⟨e, he, hf, hw⟩ := hasEntry_iff.1 (lookup_entry hl)
  refine ⟨e, he, hw, ⟨b, hg.lookup_sound hl he hf⟩, fun m hm => ?_⟩
  rw [hf]
  rw [Spec.chain, List.mem_append] at hm
  rcases hm with hm | hm
  · obtain ⟨x, hx, hxf, hxw⟩ := mem_mwsAt.1 hm
    refine ⟨x.segs, ?_, by rw [hxf]; simp⟩
    obtain ⟨xs, xw⟩ := x; simp only at hxw; rw [← hxw]; exact hx
  · obtain ⟨u, v, rfl, _, hm⟩ := mem_upTo.1 hm
    obtain ⟨x, hx, hxf, hxw⟩ := mem_mwsAt.1 hm
    refine ⟨x.segs, ?_, by rw [hxf]; simp⟩
    obtain ⟨xs, xw⟩ := x; simp only at hxw; rw [← hxw]; exact hx

example : ∃ r, build demo = (r, none) ∧ chainFor r (s "/users/all") = some [100] :=
  ⟨_, build_eq demo_ok, by decide +kernel⟩

/-! ### C15 -/

/-- **C15 is false**: the middleware of the inner path runs before the one of the outer path. -/
theorem C15_false : ∃ (prog : Prog) (r : Router Nat Nat), CleanRegs prog ∧ build prog = (r, none) ∧
    prog = [.useServiceTo (s "/a") 1, .useServiceTo (s "/a/b") 2, .get (s "/a/b") 9] ∧
    chainFor r (s "/a/b") = some [2, 1] := by
  refine ⟨_, _, ?_, build_eq (by decide +kernel), rfl, by decide +kernel⟩
  simp only [CleanRegs, CleanReg]; decide +kernel

theorem upTo_range (L : Log M H) (p r : Str) :
    upTo L p r = (List.range r.length).reverse.flatMap (fun i => mwsAt L (p ++ r.take (i + 1))) := by
  induction r generalizing p with
  | nil => simp [upTo]
  | cons c r ih =>
    rw [upTo, ih, List.length_cons, List.range_succ_eq_map, List.reverse_cons, List.flatMap_append]
    congr 1
    · rw [← List.map_reverse, List.flatMap_map]
      congr 1
      funext i
      simp
    · simp

/-- **C15, what holds**: the chain consists of the middlewares registered at the root, followed by the
ones of the non-empty prefixes of the place found, the longest prefix first; at each of them in
registration order.  Missing: outer before inner, which is false (it is the other way round). -/
theorem C15_chain_order_partial {prog : List (Reg M H)} (hc : CleanRegs prog) {r : Router M H}
    (hb : build prog = (r, none)) {path : Str} {c : List M} (hch : chainFor r path = some c) :
    ∃ e ∈ logOf prog, e.what ≠ .nothing ∧ (∃ b, FlatMatch e.segs (segments path) b) ∧
      c = globalsFrom prog [] ++ (List.range (flat e.segs).length).reverse.flatMap
        (fun i => (logOf prog).filterMap fun x =>
          if flat x.segs = (flat e.segs).take (i + 1) then
            match x.what with | .middleware m => some m | _ => none
          else none) := by
  have hr := build_rep hc hb
  have hg := build_good hc hb
  obtain ⟨q, b, hl, rfl⟩ := hr.chain hch
  obtain ⟨e, he, hf, hw⟩ := hasEntry_iff.1 (lookup_entry hl)
  refine ⟨e, he, hw, ⟨b, hg.lookup_sound hl he hf⟩, ?_⟩
  rw [Spec.chain, upTo_range, hf, ← show mwsAt (logOf prog) [] = globalsFrom prog [] from mwsAt_regs prog []]
  congr 2
  funext i
  rw [mwsAt]
  congr 1
  funext x
  simp only [Entry.isAt, List.nil_append, decide_eq_true_eq]
  split
  · cases x.what <;> rfl
  · rfl

/-- In particular, middlewares of the same path run in registration order, and inner ones run before
outer ones: for a request that matches a wildcard-free path extending `Q'`, which properly extends
`Q`, the middlewares at `Q'` come before the ones at `Q` in the chain. -/
theorem C15_inner_first_partial {prog : List (Reg M H)} (hc : CleanRegs prog) {r : Router M H}
    (hb : build prog = (r, none)) {e : Entry M H} (he : e ∈ logOf prog) (hw : e.what ≠ .nothing)
    (hs : NoStar e.segs) {Q more post : List Str} (hmore : more ≠ []) (hQ : Q ≠ [])
    (hes : e.segs = Q ++ more ++ post) {path : Str} {b : List (Str × Str)}
    (hreq : Matches e.segs (segments path) b) :
    ∃ x y z, chainFor r path =
      some (x ++ mwsAt (logOf prog) (flat (Q ++ more)) ++ y ++ mwsAt (logOf prog) (flat Q) ++ z) := by
  have hg := build_good hc hb
  have hl := hg.lookup_match he hw hreq hs
  have hne := hg.ne he
  rw [((build_rep hc hb).obs_some hl).2.2.1, hes]
  have h1 : flat more ≠ [] := flat_segs_ne (fun s hs => hne s (by rw [hes]; simp [hs])) hmore
  have h2 : flat Q ≠ [] := flat_segs_ne (fun s hs => hne s (by rw [hes]; simp [hs])) hQ
  have key : ∀ (L : Log M H) (p u v : Str), u ≠ [] →
      ∃ z, upTo L p (u ++ v) = upTo L (p ++ u) v ++ (mwsAt L (p ++ u) ++ z) := by
    intro L p u v hu
    induction u generalizing p with
    | nil => exact absurd rfl hu
    | cons c u ih =>
      by_cases h0 : u = []
      · subst h0; exact ⟨[], by simp [upTo]⟩
      · obtain ⟨z, hz⟩ := ih (p ++ [c]) h0
        exact ⟨z ++ mwsAt L (p ++ [c]), by simp [upTo, hz]⟩
  obtain ⟨z, hz⟩ := key (logOf prog) [] (flat Q) (flat more ++ flat post) h2
  obtain ⟨z', hz'⟩ := key (logOf prog) (flat Q) (flat more) (flat post) h1
  refine ⟨mwsAt (logOf prog) [] ++ upTo (logOf prog) (flat Q ++ flat more) (flat post), z', z, ?_⟩
  rw [Spec.chain, flat_append, flat_append, List.append_assoc, hz, List.nil_append, hz']
  simp

example : chainFor (build ([.useServiceTo (s "/a/b") 2, .useService 0, .useServiceTo (s "/a") 1,
    .get (s "/a/b/:c") 9, .useServiceTo (s "/a") 3] : Prog)).1 (s "/a/b/x") = some [0, 2, 1, 3] := by
  decide +kernel

/-! ### C16 -/

/-- **C16 is false for the root**: `use_service_to("/", m)` is accepted and has no effect. -/
theorem C16_false : ∃ (prog : Prog) (r : Router Nat Nat), CleanRegs prog ∧ build prog = (r, none) ∧
    prog = [.get (s "/") 1, .useServiceTo (s "/") 7] ∧
    handlerFor r .get (s "/") = some 1 ∧ chainFor r (s "/") = some [] := by
  refine ⟨_, _, ?_, build_eq (by decide +kernel), rfl, by decide +kernel, by decide +kernel⟩
  simp only [CleanRegs, CleanReg]; decide +kernel

/-- The log after a successful `use_service_to` at a path other than the root. -/
theorem mw_log {prog : List (Reg M H)} {P : Str} {m : M} (hP : segments P ≠ []) :
    logOf (prog ++ [.useServiceTo P m]) = logOf prog ++ [⟨segments P, .middleware m⟩] := by
  rw [logOf, logRegs_append]; simp [logRegs, logReg, hP, logOf]

/-- **C16, what holds**: for a path other than the root, the middleware runs for every request that
matches the path (without wildcard) or one registered below it, and for every request served by a
handler registered only there.  Missing: the root, where the claim is false. -/
theorem C16_takes_effect_partial {prog : List (Reg M H)} {P : Str} {m : M} (hP : segments P ≠ [])
    {r : Router M H} (hb : build (prog ++ [.useServiceTo P m]) = (r, none)) :
    (NoStar (segments P) → ∀ path b, Matches (segments P) (segments path) b →
      ∃ c, chainFor r path = some c ∧ m ∈ c) ∧
    (CleanRegs (prog ++ [.useServiceTo P m]) → ∀ path meth h, handlerFor r meth path = some h →
      (∀ e ∈ logOf prog, e.what = .route meth h → segments P <+: e.segs) →
      ∃ c, chainFor r path = some c ∧ m ∈ c) := by
  have hm : (⟨segments P, .middleware m⟩ : Entry M H) ∈ logOf (prog ++ [.useServiceTo P m]) := by
    rw [mw_log hP]; simp
  refine ⟨fun hs path b hreq => ?_, fun hc path meth h hh hQ => ?_⟩
  · exact C13_matching_requests hb hm hm (by simp) (List.prefix_refl _) hs hreq
  · refine C13_served_handlers hc hb hm hh fun e he hw => ?_
    rw [mw_log hP, List.mem_append] at he
    rcases he with he | he
    · exact hQ e he hw
    · simp at he; subst he; simp at hw

example : ∃ r, build (demo ++ [.useServiceTo (s "/files/*") 55]) = (r, none) ∧
    handlerFor r .get (s "/files/x/y") = some 5 ∧ chainFor r (s "/files/x/y") = some [100, 55] :=
  ⟨_, build_eq (by decide +kernel), by decide +kernel, by decide +kernel⟩

/-! ### C17 -/

/-- **C17 is false**: with `/a/*`, the request `/a` is served; after adding a middleware at `/a`, it is
not. -/
theorem C17_false : ∃ (prog : Prog) (r r' : Router Nat Nat),
    CleanRegs (prog ++ [.useServiceTo (s "/a") 7]) ∧ build prog = (r, none) ∧
    build (prog ++ [.useServiceTo (s "/a") 7]) = (r', none) ∧
    handlerFor r .get (s "/a") = some 1 ∧ handlerFor r' .get (s "/a") = none := by
  refine ⟨[.get (s "/a/*") 1], _, _, ?_, build_eq (by decide +kernel), build_eq (by decide +kernel),
    by decide +kernel, by decide +kernel⟩
  simp only [List.cons_append, List.nil_append, CleanRegs, CleanReg]; decide +kernel

/-- **C17, what holds**: if something is registered at the path already, or the path is the root,
adding a middleware changes neither which requests are found, nor handlers, nor parameters. Missing:
paths with nothing registered, where the claim is false (see also `C17_matching_requests_partial`). -/
theorem C17_routing_unchanged_partial {prog : List (Reg M H)} {P : Str} {m : M}
    (hc : CleanRegs (prog ++ [.useServiceTo P m])) (hc0 : CleanRegs prog) {r r' : Router M H}
    (hb : build prog = (r, none)) (hb' : build (prog ++ [.useServiceTo P m]) = (r', none))
    (hP : segments P = [] ∨ ∃ e ∈ logOf prog, e.segs = segments P ∧ e.what ≠ .nothing) (path : Str) :
    isFound r' path = isFound r path ∧ (∀ x, paramFor r' path x = paramFor r path x) ∧
    ∀ meth, handlerFor r' meth path = handlerFor r meth path := by
  have hg := build_good hc0 hb
  have hr := build_rep hc0 hb
  have hg' := build_good hc hb'
  have hr' := build_rep hc hb'
  by_cases h0 : segments P = []
  · have : logOf (prog ++ [.useServiceTo P m]) = logOf prog := by
      rw [logOf, logRegs_append]; simp [logRegs, logReg, h0, logOf]
    rw [this] at hr'
    have := hr'.sameAt hr (path := path) rfl (fun q b _ => ⟨fun _ => rfl, rfl⟩)
    exact ⟨this.1, this.2.2.2, this.2.1⟩
  · obtain ⟨e, he, hs, hw⟩ := hP.resolve_left h0
    rw [mw_log h0] at hr' hg'
    have hlk : lookup (logOf prog ++ [⟨segments P, .middleware m⟩]) path = lookup (logOf prog) path :=
      lookup_congr (paramAt_add_same hg hg' he hs.symm) (known_add_same he hs.symm)
        (hasEntry_add_same he hw hs.symm) path
    have hrt : ∀ q meth, routeAt (logOf prog ++ [⟨segments P, .middleware m⟩]) q meth =
        routeAt (logOf prog) q meth := by
      intro q meth; rw [routeAt_append, routeAt_one]; split <;> simp
    cases hl : lookup (logOf prog) path with
    | none =>
      rw [hl] at hlk
      obtain ⟨a1, a2, a3, a4⟩ := hr.obs_none hl
      obtain ⟨b1, b2, b3, b4⟩ := hr'.obs_none hlk
      exact ⟨by rw [a1, b1], fun x => by rw [a4, b4], fun m' => by rw [a2, b2]⟩
    | some qb =>
      obtain ⟨q, b⟩ := qb
      rw [hl] at hlk
      obtain ⟨a1, a2, a3, a4⟩ := hr.obs_some hl
      obtain ⟨b1, b2, b3, b4⟩ := hr'.obs_some hlk
      exact ⟨by rw [a1, b1], fun x => by rw [a4, b4], fun m' => by rw [a2, b2, hrt]⟩

/-- **C17** for requests that match a wildcard-free route segment by segment: their handler and
parameters stay the same, wherever the middleware is added. -/
theorem C17_matching_requests_partial {prog : List (Reg M H)} {P : Str} {m : M}
    {r r' : Router M H}
    (hb : build prog = (r, none)) (hb' : build (prog ++ [.useServiceTo P m]) = (r', none))
    {ss : List Str} {meth : Method} {h : H} (he : ⟨ss, .route meth h⟩ ∈ logOf prog) (hs : NoStar ss)
    {path : Str} {b : List (Str × Str)} (hm : Matches ss (segments path) b) :
    handlerFor r' meth path = handlerFor r meth path ∧
    ∀ x, paramFor r' path x = paramFor r path x :=
  C51_further_registrations_partial hb hb'
    (by intro c hcm p sub h; simp at hcm; subst hcm; simp at h) he hs hm

example : ∃ r r', build demo = (r, none) ∧ build (demo ++ [.useServiceTo (s "/users/all") 55]) = (r', none) ∧
    (∃ e ∈ logOf demo, e.segs = segments (s "/users/all") ∧ e.what ≠ .nothing) ∧
    chainFor r (s "/users/all") = some [100] ∧ chainFor r' (s "/users/all") = some [100, 55] :=
  ⟨_, _, build_eq demo_ok, build_eq (by decide +kernel), ⟨⟨[s "users", s "all"], .route .get 2⟩,
    by decide +kernel, by decide +kernel, by simp⟩, by decide +kernel, by decide +kernel⟩

end Obsidian.Props
