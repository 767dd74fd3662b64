import Verif.Props.Sound
import Verif.Props.Static
import Verif.Proofs.Follow

/-
C04 and C05: exactly which requests are found, and by which route they are served.
C23: the parameters with which handlers run.
-/
namespace Obsidian.Props
open Obsidian Spec
variable {M H : Type}

/-- **C05**, exactly: a request finds something if and only if it leads to a registered path. -/
theorem C05_exact {prog : List (Reg M H)} (hc : CleanRegs prog) {r : Router M H}
    (hb : build prog = (r, none)) (hsm : NoStarMount (logOf prog)) (path : Str) :
    isFound r path = true ↔ ∃ e ∈ logOf prog, e.what ≠ .nothing ∧ ∃ b, LeadsTo (logOf prog) e.segs (segments path) b := by
  have hr := build_rep hc hb
  constructor
  · intro hf
    obtain ⟨q, b, hl⟩ := hr.found hf
    obtain ⟨e, he, rfl, hw⟩ := hasEntry_iff.1 (lookup_entry hl)
    exact ⟨e, he, hw, b, (hr.tidy.lookup_leads hsm he hw).1 hl⟩
  · rintro ⟨e, he, hw, b, h⟩
    exact (hr.obs_some ((hr.tidy.lookup_leads hsm he hw).2 h)).1

/-- **C04, exactly what holds**: a request is served by a handler if and only if the handler was
registered for its method at a path to which the request leads; and then the parameters are those read
on the way.  Missing: "leads to" is not the same as "matches segment by segment", see `C04_false`. -/
theorem C04_exact_partial {prog : List (Reg M H)} (hc : CleanRegs prog) {r : Router M H}
    (hb : build prog = (r, none)) (hsm : NoStarMount (logOf prog)) (m : Method) (path : Str) :
    (∀ h, handlerFor r m path = some h ↔
      ∃ e ∈ logOf prog, e.what = .route m h ∧ ∃ b, LeadsTo (logOf prog) e.segs (segments path) b) ∧
    ∀ e ∈ logOf prog, e.what ≠ .nothing → ∀ b, LeadsTo (logOf prog) e.segs (segments path) b →
      ∀ x, paramFor r path x = b.lookup x := by
  have hr := build_rep hc hb
  have hg := build_good hc hb
  refine ⟨fun h => ⟨fun hh => ?_, ?_⟩, ?_⟩
  · obtain ⟨q, b, hl, hq⟩ := hr.handler hh
    obtain ⟨e, he, rfl, hw⟩ := routeAt_mem hq
    exact ⟨e, he, hw, b, (hr.tidy.lookup_leads hsm he (by rw [hw]; simp)).1 hl⟩
  · rintro ⟨e, he, hw, b, hl⟩
    have := (hr.tidy.lookup_leads hsm he (by rw [hw]; simp)).2 hl
    rw [(hr.obs_some this).2.1]
    exact hg.uniq e he m h hw
  · intro e he hw b hl
    exact (hr.obs_some ((hr.tidy.lookup_leads hsm he hw).2 hl)).2.2.2

/-- A table with a longer and a shorter wildcard, and a parameter. -/
def nested : Prog :=
  [.get (s "/files/*") 1, .get (s "/files/img/*") 2, .get (s "/files/doc/:id/raw") 3, .get (s "/file") 4]

theorem nested_clean : CleanRegs nested := by simp only [nested, CleanRegs, CleanReg]; decide +kernel

theorem nested_ok : (build nested).2 = none := by decide +kernel

theorem nested_log : logOf nested = [⟨[s "files"] ++ [['*']], .route .get 1⟩,
    ⟨[s "files", s "img"] ++ [['*']], .route .get 2⟩, ⟨[s "files", s "doc", s ":id", s "raw"], .route .get 3⟩,
    ⟨[s "file"], .route .get 4⟩] := by decide +kernel

theorem nested_star : NoStarMount (logOf nested) := by
  refine noStarMount_of_noStar fun e he => ?_
  rw [nested_log] at he
  simp only [List.mem_cons, List.not_mem_nil, or_false] at he
  rcases he with rfl | rfl | rfl | rfl
  · exact .inr ⟨_, rfl, by decide +kernel, by simp⟩
  · exact .inr ⟨_, rfl, by decide +kernel, by simp⟩
  · exact .inl (by decide +kernel)
  · exact .inl (by decide +kernel)

/-- The longer wildcard is led to, also with a slash at another place where a request may have one. -/
example : ∃ b, LeadsTo (logOf nested) ([s "files", s "img"] ++ [['*']]) (segments (s "/file/s/img/x")) b := by
  obtain ⟨e, he, hw, b, hl⟩ := ((C04_exact_partial nested_clean (build_eq nested_ok) nested_star .get
    (s "/file/s/img/x")).1 2).1 (by decide +kernel)
  rw [nested_log] at he
  simp only [List.mem_cons, List.not_mem_nil, or_false] at he
  rcases he with rfl | rfl | rfl | rfl
  · simp at hw
  · exact ⟨b, hl⟩
  · simp at hw
  · simp at hw

/-- No path is led to where a slash is put elsewhere. -/
example : ¬ ∃ e ∈ logOf nested, e.what ≠ .nothing ∧ ∃ b, LeadsTo (logOf nested) e.segs (segments (s "/file/sx")) b := by
  rw [← C05_exact nested_clean (build_eq nested_ok) nested_star]
  decide +kernel

/-! ### C23: parameters -/

theorem hasSeg_of_paramName {ss : List Str} {x : Str} (h : x ∈ paramNames ss) : ∃ q, HasSeg ss q (':' :: x) := by
  induction ss with
  | nil => simp [paramNames] at h
  | cons t ss ih =>
    have up : (∃ q, HasSeg ss q (':' :: x)) → ∃ q, HasSeg (t :: ss) q (':' :: x) := by
      rintro ⟨q, pre, post, h1, h2⟩
      exact ⟨t ++ q, t :: pre, post, by rw [h1]; rfl, by rw [flat_cons, h2]⟩
    match t with
    | [] => exact up (ih (by simpa [paramNames] using h))
    | c :: u =>
      by_cases hc : c = ':'
      · subst hc
        rw [paramNames, List.mem_cons] at h
        rcases h with rfl | h
        · exact ⟨[], [], ss, rfl, rfl⟩
        · exact up (ih h)
      · exact up (ih (by simpa [paramNames, hc] using h))

/-- All parameters that are still ahead are read. -/
theorem follows_names {stop : Str → Prop} {ss : List Str} {all : Bool} {p : Str} {req : List Str}
    {b : List (Str × Str)} (h : Follows stop ss all p req b) (hss : ∀ x ∈ ss, x ≠ [])
    (hreq : ∀ x ∈ req, ':' ∉ x.tail) {q y : Str} (hy : HasSeg ss q (':' :: y)) (hpq : p <+: q) :
    ∃ v, (y, v) ∈ b := by
  have hyp := hy.prefix
  induction h with
  | done =>
    have h1 := hpq.length_le
    have h2 := hyp.length_le
    simp at h2; omega
  | @text all p x rest b h1 h2 h3 h4 ih =>
    have hpre := h4.prefix
    rcases Nat.lt_or_ge q.length (p ++ x).length with hl | hl
    · exfalso
      have hq' : q ++ [':'] <+: flat ss := by
        refine List.IsPrefix.trans ?_ hyp
        exact ⟨y, by simp⟩
      have : q ++ [':'] <+: p ++ x := List.prefix_of_prefix_length_le hq' hpre (by simp at hl ⊢; omega)
      obtain ⟨w, rfl⟩ := hpq
      rw [List.append_assoc] at this
      have := (List.prefix_append_right_inj p).1 this
      cases w with
      | nil => exact h1 y (by simpa using hy)
      | cons a w =>
        obtain ⟨u, hu⟩ := this
        refine hreq x (by simp) ?_
        rw [← hu]; simp
    · exact ih (fun z hz => hreq z (by simp [hz])) (List.prefix_of_prefix_length_le hpre
        ((List.prefix_append _ _).trans hyp) hl)
  | @param all p y' v rest b h1 h4 ih =>
    by_cases hqp : p = q
    · subst hqp
      have := HasSeg.unique hss h1 hy
      injection this with _ this
      subst this
      exact ⟨v, by simp⟩
    · have hlt : p.length < q.length := by
        rcases Nat.lt_or_ge p.length q.length with h | h
        · exact h
        · exact absurd (hpq.eq_of_length_le h) hqp
      obtain ⟨v', hv⟩ := ih (fun z hz => hreq z (by simp [hz])) (h1.le hy.segEnd hss hlt)
      exact ⟨v', by simp [hv]⟩
  | @wild p x rest h1 =>
    exfalso
    obtain ⟨w, rfl⟩ := hpq
    rw [h1, List.append_assoc] at hyp
    have := (List.prefix_append_right_inj p).1 hyp
    cases w with
    | nil => simp at this
    | cons a w =>
      have := this.length_le
      simp at this
  | @bare p x h1 h2 h3 h4 =>
    exfalso
    rcases Nat.lt_or_ge q.length (p ++ x).length with hl | hl
    · have hq' : q ++ [':'] <+: flat ss := by
        refine List.IsPrefix.trans ?_ hyp
        exact ⟨y, by simp⟩
      have : q ++ [':'] <+: p ++ x := List.prefix_of_prefix_length_le hq' (by rw [h4]; exact List.prefix_append _ _)
        (by simp at hl ⊢; omega)
      obtain ⟨w, rfl⟩ := hpq
      rw [List.append_assoc] at this
      have := (List.prefix_append_right_inj p).1 this
      cases w with
      | nil => exact h1 y (by simpa using hy)
      | cons a w =>
        obtain ⟨u, hu⟩ := this
        refine hreq x (by simp) ?_
        rw [← hu]; simp
    · have h5 : p ++ x <+: q := List.prefix_of_prefix_length_le (by rw [h4]; exact List.prefix_append _ _)
        ((List.prefix_append _ _).trans hyp) hl
      obtain ⟨w, rfl⟩ := h5
      rw [h4, List.append_assoc (p ++ x)] at hyp
      have := (List.prefix_append_right_inj (p ++ x)).1 hyp
      cases w with
      | nil => simp at this
      | cons a w =>
        have := this.length_le
        simp at this

theorem follows_named {stop : Str → Prop} {ss : List Str} {all : Bool} {p : Str} {req : List Str}
    {b : List (Str × Str)} (h : Follows stop ss all p req b) {x v : Str} (hx : (x, v) ∈ b) : x ∈ paramNames ss := by
  induction h with
  | done => simp at hx
  | text _ _ _ _ ih => exact ih hx
  | param h1 _ ih =>
    rcases List.mem_cons.1 hx with h | h
    · obtain ⟨pre, post, rfl, _⟩ := h1
      rw [mem_paramNames_append]
      right
      rw [paramNames]
      injection h with h _
      rw [h]; simp
    · exact ih h
  | wild => simp at hx
  | bare => simp at hx

/-- **C23, exactly what holds**: a handler runs with all parameters of its route and no others, unless a
segment of the request has a colon after its first character.  Missing: such requests, see `C23_false`. -/
theorem C23_exact_partial {prog : List (Reg M H)} (hc : CleanRegs prog) {r : Router M H}
    (hb : build prog = (r, none)) {m : Method} {path : Str} {h : H} (hh : handlerFor r m path = some h)
    (hp : CleanPath path) :
    ∃ e ∈ logOf prog, e.what = .route m h ∧ ∀ x, (paramFor r path x).isSome ↔ x ∈ paramNames e.segs := by
  have hr := build_rep hc hb
  obtain ⟨q, b, hl, hq⟩ := hr.handler hh
  obtain ⟨e, he, rfl, hw⟩ := routeAt_mem hq
  have hobs := (hr.obs_some hl).2.2.2
  have hf : ∃ all, Follows (IsStop (logOf prog)) e.segs all [] (segments path) b := by
    rw [lookup] at hl
    by_cases h0 : segments path = []
    · simp only [h0, if_true] at hl
      split at hl
      · simp only [Option.some.injEq, Prod.mk.injEq] at hl
        refine ⟨true, ?_⟩
        rw [h0, ← hl.2, hl.1]; exact .done
      · simp at hl
    · simp only [h0, if_false] at hl
      split at hl
      · next q' b' hf =>
        split at hl
        · simp at hl
          rw [hl.1, hl.2] at hf
          rcases hr.tidy.find_some hf (segments_ne path) he rfl with h | ⟨h, _⟩
          · exact ⟨_, h⟩
          · exact ⟨_, h⟩
        · simp at hl
      · simp at hl
  obtain ⟨all, hf⟩ := hf
  refine ⟨e, he, hw, fun x => ?_⟩
  rw [hobs]
  constructor
  · intro hx
    obtain ⟨v, hv⟩ := Option.isSome_iff_exists.1 hx
    exact follows_named hf (mem_of_lookup hv)
  · intro hx
    obtain ⟨q, hy⟩ := hasSeg_of_paramName hx
    obtain ⟨v, hv⟩ := follows_names hf (fun z hz => (hr.tidy.clean e he z hz).ne_nil) hp hy (List.nil_prefix)
    cases hl : b.lookup x with
    | some => rfl
    | none =>
      have := List.lookup_eq_none_iff.1 hl _ hv
      simp at this

/-- A request with a colon at the beginning of a segment. -/
example : ∃ r, build nested = (r, none) ∧ handlerFor r .get (s "/files/doc/:x/raw") = some 3 ∧
    CleanPath (s "/files/doc/:x/raw") ∧ paramFor r (s "/files/doc/:x/raw") (s "id") = some (s ":x") :=
  ⟨_, build_eq nested_ok, by decide +kernel, by decide +kernel, by decide +kernel⟩

end Obsidian.Props
