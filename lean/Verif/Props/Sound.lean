import Verif.Props.Common
import Verif.Proofs.Everywhere
import Verif.Proofs.Params

/-
C04, C05, C23, C50: only matching requests are served, and parameters are request segments.
-/
namespace Obsidian.Props
open Obsidian Spec
variable {M H : Type}

/-! ### C04 -/

theorem not_matches_ab : ∀ b, ¬ Matches [s "a", s "b"] (segments (s "/ab")) b := by
  rw [show segments (s "/ab") = [s "ab"] by decide +kernel]
  intro b h
  generalize hp : [s "a", s "b"] = p at h
  generalize hq : [s "ab"] = q at h
  cases h with
  | nil => simp at hp
  | static _ _ _ =>
    simp only [List.cons.injEq] at hp hq
    exact absurd (hp.1.trans hq.1.symm) (by decide +kernel)
  | param _ =>
    simp only [List.cons.injEq] at hp
    exact absurd hp.1 (by rw [show s "a" = ['a'] by decide +kernel]; simp)
  | wild _ => simp at hp

/-- **C04 is false**: with only `/a/b` registered, the request `/ab` is served by it. -/
theorem C04_false : ∃ (prog : Prog) (r : Router Nat Nat) (path : Str), CleanRegs prog ∧
    build prog = (r, none) ∧ handlerFor r .get path = some 1 ∧
    ∀ e ∈ logOf prog, ∀ b, ¬ Matches e.segs (segments path) b := by
  refine ⟨[.get (s "/a/b") 1], _, s "/ab", ?_, build_eq (by decide +kernel), by decide +kernel, ?_⟩
  · simp only [CleanRegs, CleanReg]; decide +kernel
  · intro e he b
    have : logOf ([.get (s "/a/b") 1] : Prog) = [⟨[s "a", s "b"], .route .get 1⟩] := by decide +kernel
    rw [this] at he; simp at he; subst he
    exact not_matches_ab b

/-- **C04, what holds**: a handler that is selected was registered for that method at a path whose
characters agree with the request once slashes are dropped (parameters still are whole segments), and
the parameters are the ones of that match.  Missing from the full claim: the slashes within stretches
of static segments, where the claim is false. -/
theorem C04_served_by_matching_route_partial {prog : List (Reg M H)} (hc : CleanRegs prog)
    {r : Router M H} (hb : build prog = (r, none)) {m : Method} {path : Str} {h : H}
    (hh : handlerFor r m path = some h) :
    ∃ e ∈ logOf prog, e.what = .route m h ∧
      ∃ b, FlatMatch e.segs (segments path) b ∧ ∀ x, paramFor r path x = b.lookup x := by
  have hr := build_rep hc hb
  obtain ⟨q, b, hl, hq⟩ := hr.handler hh
  obtain ⟨e, he, hf, hw⟩ := routeAt_mem hq
  exact ⟨e, he, hw, b, (build_good hc hb).lookup_sound hl he hf, (hr.obs_some hl).2.2.2⟩

example : ∃ r, build demo = (r, none) ∧ handlerFor r .get (s "/api/v1/echo/hello") = some 7 :=
  ⟨_, build_eq demo_ok, by decide +kernel⟩

/-- **C04**, for paths of any form: a handler that is selected for a request was registered for the
method of the request. -/
theorem C04_registered_for_method {prog : List (Reg M H)} {r : Router M H} (hb : build prog = (r, none)) {m : Method} {path : Str}
    {h : H} (hh : handlerFor r m path = some h) : ∃ e ∈ logOf prog, e.what = .route m h := by
  rw [handlerFor] at hh
  split at hh
  · next v e =>
    obtain ⟨x, hx, hxh⟩ := Option.map_eq_some_iff.1 hh
    obtain ⟨e, he, hw⟩ := ((Node.build_only hb).search e).1 m x hx
    exact ⟨e, he, by rw [hw, hxh]⟩
  · simp at hh

example : ∃ r, build clock = (r, none) ∧ handlerFor r .get (s "/meet/12/now") = some 2 ∧
    ∃ e ∈ logOf clock, e.what = .route .get 2 := by
  have h : handlerFor (build clock).1 .get (s "/meet/12/now") = some 2 := by decide +kernel
  exact ⟨_, build_eq clock_ok, h, C04_registered_for_method (build_eq clock_ok) h⟩

/-! ### C05 -/

/-- **C05**: a request that flat-matches no registered route or middleware path is unknown. -/
theorem C05_unmatched_not_found {prog : List (Reg M H)} (hc : CleanRegs prog) {r : Router M H}
    (hb : build prog = (r, none)) {path : Str}
    (hn : ∀ e ∈ logOf prog, e.what ≠ .nothing → ∀ b, ¬ FlatMatch e.segs (segments path) b) :
    r.searchRoute path = .ok none := by
  have hr := build_rep hc hb
  have := hr.search path
  cases hl : lookup (logOf prog) path with
  | none => rw [hl] at this; exact this
  | some qb =>
    obtain ⟨q, b⟩ := qb
    obtain ⟨e, he, hf, hw⟩ := hasEntry_iff.1 (lookup_entry hl)
    exact absurd ((build_good hc hb).lookup_sound hl he hf) (hn e he hw b)

/-- A static pattern only flat-matches requests with the same characters. -/
theorem flatMatch_static {pat req : List Str} {b : List (Str × Str)} (h : FlatMatch pat req b)
    (hp : Static pat) : flat pat = flat req := by
  induction h with
  | nil => rfl
  | text h1 h2 ih => rw [flat_append, flat_append, h1, ih (fun s hs => hp s (by simp [hs]))]
  | param h ih => have := (hp _ List.mem_cons_self).1; simp at this
  | wild => have := (hp _ List.mem_cons_self).2; simp at this

example : ∃ r : Router Nat Nat, build [.get (s "/a/b") 1, .post (s "/c") 2] = (r, none) ∧
    r.searchRoute (s "/a/c") = .ok none := by
  refine ⟨_, build_eq (by decide +kernel), ?_⟩
  refine C05_unmatched_not_found ?_ (build_eq (by decide +kernel)) ?_
  · simp only [CleanRegs, CleanReg]; decide +kernel
  · intro e he _ b hm
    have : logOf ([.get (s "/a/b") 1, .post (s "/c") 2] : Prog) =
      [⟨[s "a", s "b"], .route .get 1⟩, ⟨[s "c"], .route .post 2⟩] := by decide +kernel
    rw [this] at he; simp at he
    rcases he with rfl | rfl
    · exact absurd (flatMatch_static hm (by decide +kernel)) (by decide +kernel)
    · exact absurd (flatMatch_static hm (by decide +kernel)) (by decide +kernel)

/-! ### C50 -/

theorem flatMatch_value {pat req : List Str} {b : List (Str × Str)} (h : FlatMatch pat req b) :
    ∀ x v, (x, v) ∈ b → v ∈ req := by
  induction h with
  | nil => simp
  | text h1 h2 ih => intro x v hx; simp [ih x v hx]
  | param h ih =>
    intro x v hx
    simp at hx
    rcases hx with ⟨_, rfl⟩ | hx
    · simp
    · simp [ih x v hx]
  | wild => simp

theorem mem_of_lookup {b : List (Str × Str)} {x v : Str} (h : b.lookup x = some v) : (x, v) ∈ b := by
  rw [List.lookup_eq_some_iff] at h
  obtain ⟨l₁, l₂, rfl, _⟩ := h
  simp

/-- **C50**, for paths of any form: a parameter value is one segment of the request: not empty, without
a slash. -/
theorem C50_parameter_is_one_segment {prog : List (Reg M H)} {r : Router M H}
    (hb : build prog = (r, none)) {path x v : Str} (hv : paramFor r path x = some v) :
    v ∈ segments path ∧ v ≠ [] ∧ '/' ∉ v := by
  have hmem : v ∈ segments path := by
    rw [paramFor] at hv
    split at hv
    · next e => exact (Node.build_tracks hb).params e hv
    · simp at hv
  exact ⟨hmem, segments_ne path v hmem, segments_noSlash path v hmem⟩

example : ∃ r, build demo = (r, none) ∧
    paramFor r (s "/items//7/parts/a:b*c") (s "part") = some (s "a:b*c") :=
  ⟨_, build_eq demo_ok, by decide +kernel⟩

/-! ### C23 -/

theorem mem_paramNames_append {a b : List Str} {x : Str} :
    x ∈ paramNames (a ++ b) ↔ x ∈ paramNames a ∨ x ∈ paramNames b := by
  induction a with
  | nil => simp [paramNames]
  | cons t a ih =>
    rw [List.cons_append]
    match t with
    | [] => simpa [paramNames] using ih
    | c :: t =>
      by_cases hc : c = ':'
      · subst hc; simp [paramNames, ih, or_assoc]
      · simpa [paramNames, hc] using ih

theorem flatMatch_names {pat req : List Str} {b : List (Str × Str)} (h : FlatMatch pat req b) :
    ∀ x v, (x, v) ∈ b → x ∈ paramNames pat := by
  induction h with
  | nil => simp
  | text h1 h2 ih => intro x v hx; rw [mem_paramNames_append]; exact Or.inr (ih x v hx)
  | param h ih =>
    intro x v hx
    simp at hx
    rcases hx with ⟨rfl, _⟩ | hx
    · simp [paramNames]
    · simp [paramNames, ih x v hx]
  | wild => simp

theorem paramNames_eq_nil {ps : List Str} (h : ':' ∉ flat ps) : paramNames ps = [] := by
  induction ps with
  | nil => rfl
  | cons t ps ih =>
    simp at h
    match t with
    | [] => simpa [paramNames] using ih h.2
    | c :: t =>
      have : c ≠ ':' := by intro e; simp [e] at h
      simpa [paramNames, this] using ih h.2

theorem flatMatch_names_exact {pat req : List Str} {b : List (Str × Str)} (h : FlatMatch pat req b)
    (hc : ':' ∉ flat req) : ∀ x ∈ paramNames pat, (b.lookup x).isSome := by
  induction h with
  | nil => simp [paramNames]
  | text h1 h2 ih =>
    intro x hx
    rw [flat_append] at hc
    simp at hc
    rw [mem_paramNames_append, paramNames_eq_nil (by rw [h1]; exact hc.1)] at hx
    exact ih hc.2 x (by simpa using hx)
  | @param y v ps rs b h ih =>
    intro x hx
    simp at hc
    rw [List.lookup_cons]
    by_cases e : x = y
    · simp [e]
    · have : (x == y) = false := by simpa using e
      rw [this]
      simp [paramNames, e] at hx
      exact ih hc.2 x hx
  | wild => simp [paramNames]

/-- **C23 is false in one direction**: a request that spells out the colon is served by the parameter
route without binding its parameter. -/
theorem C23_false : ∃ (prog : Prog) (r : Router Nat Nat) (path : Str), CleanRegs prog ∧
    build prog = (r, none) ∧ logOf prog = [⟨[s "user", s ":id"], .route .get 1⟩] ∧
    handlerFor r .get path = some 1 ∧ paramFor r path (s "id") = none := by
  refine ⟨[.get (s "/user/:id") 1], _, s "/user:id", ?_, build_eq (by decide +kernel),
    by decide +kernel, by decide +kernel, by decide +kernel⟩
  simp only [CleanRegs, CleanReg]; decide +kernel

/-- **C23, what holds**: every bound parameter is named by the path whose handler is selected; nothing
leaks from other branches.  If the request contains no colon, all its parameters are bound.  Missing
from the full claim: requests that contain a colon, where the claim is false. -/
theorem C23_parameters_of_matched_route_partial {prog : List (Reg M H)} (hc : CleanRegs prog)
    {r : Router M H} (hb : build prog = (r, none)) {m : Method} {path : Str} {h : H}
    (hh : handlerFor r m path = some h) :
    ∃ e ∈ logOf prog, e.what = .route m h ∧
      (∀ x v, paramFor r path x = some v → x ∈ paramNames e.segs) ∧
      (':' ∉ path → ∀ x, (paramFor r path x).isSome ↔ x ∈ paramNames e.segs) := by
  obtain ⟨e, he, hw, b, hm, hp⟩ := C04_served_by_matching_route_partial hc hb hh
  have h1 : ∀ x v, paramFor r path x = some v → x ∈ paramNames e.segs := by
    intro x v hx
    rw [hp] at hx
    exact flatMatch_names hm x v (mem_of_lookup hx)
  refine ⟨e, he, hw, h1, fun hcol x => ⟨fun hx => ?_, fun hx => ?_⟩⟩
  · obtain ⟨v, hv⟩ := Option.isSome_iff_exists.1 hx
    exact h1 x v hv
  · rw [hp]
    refine flatMatch_names_exact hm ?_ x hx
    have key : ∀ (t cur : Str), ':' ∉ cur → ':' ∉ t → ':' ∉ flat (segmentsFrom cur t) := by
      intro t
      induction t with
      | nil => intro cur h1 _; rw [segmentsFrom]; split <;> simp [h1]
      | cons c t ih =>
        intro cur h1 h2
        simp at h2
        rw [segmentsFrom]
        split
        · split
          · exact ih [] (by simp) h2.2
          · simp [h1]; exact ih [] (by simp) h2.2
        · exact ih (cur ++ [c]) (by simp [h1, h2.1]) h2.2
    exact key path [] (by simp) hcol

example : ∃ r, build demo = (r, none) ∧ handlerFor r .get (s "/items/7/parts/8") = some 4 ∧
    ':' ∉ s "/items/7/parts/8" ∧ (paramFor r (s "/items/7/parts/8") (s "id")).isSome :=
  ⟨_, build_eq demo_ok, by decide +kernel, by decide +kernel, by decide +kernel⟩

end Obsidian.Props
