import Verif.Proofs.Search
import Verif.Spec.Pattern

/- What the specification says about matching requests, for logs of accepted programs. -/
namespace Obsidian.Spec
open Obsidian
variable {M H : Type}

/-- Registered routes are not shadowed by later ones. -/
def Uniq (L : Log M H) : Prop :=
  ∀ e ∈ L, ∀ m h, e.what = .route m h → routeAt L (flat e.segs) m = some h

/-- The facts about the paths in the log of any router. -/
structure Tidy (L : Log M H) : Prop where
  clean : ∀ e ∈ L, ∀ s ∈ e.segs, KeyOK s
  noClash : ∀ e ∈ L, ∀ e' ∈ L, ¬ Clash e.segs e'.segs

/-- The facts about logs of accepted programs. -/
structure Good (L : Log M H) : Prop extends Tidy L where
  uniq : Uniq L

theorem Rep.tidy {n : Node M H} {L : Log M H} (h : Rep n L) : Tidy L :=
  ⟨h.clean, fun _ he _ he' => h.noClash he he'⟩

theorem Rep.good {n : Node M H} {L : Log M H} (h : Rep n L) (hu : Uniq L) : Good L :=
  ⟨h.tidy, hu⟩

/-! ### Uniqueness of routes -/

theorem uniq_nil : Uniq ([] : Log M H) := by intro e he; simp at he

theorem routeAt_one {e : Entry M H} {q : Str} {m : Method} : routeAt [e] q m =
    if flat e.segs = q then match e.what with
      | .route m' h => if m' = m then some h else none
      | _ => none
    else none := by
  rw [routeAt]
  by_cases h : flat e.segs = q
  · have h' : e.isAt q = true := isAt_iff.2 h
    cases hw : e.what with
    | route m' k =>
      by_cases hm : m' = m <;> simp [h', h, hm, hw]
    | _ => simp [h', h, hw]
  · have h' : e.isAt q = false := by rw [← Bool.not_eq_true, isAt_iff]; exact h
    simp [h', h]

theorem routeAt_mem {L : Log M H} {q : Str} {m : Method} {h : H} (hr : routeAt L q m = some h) :
    ∃ e ∈ L, flat e.segs = q ∧ e.what = .route m h := by
  rw [routeAt] at hr
  have := List.mem_of_getLast? hr
  obtain ⟨e, he, hx⟩ := List.mem_filterMap.1 this
  refine ⟨e, he, ?_⟩
  split at hx
  · next hat =>
    refine ⟨isAt_iff.1 hat, ?_⟩
    cases hw : e.what with
    | route m' k =>
      rw [hw] at hx; simp at hx
      rw [hx.1, hx.2]
    | _ => rw [hw] at hx; simp at hx
  · simp at hx

theorem routeAt_hasEntry {L : Log M H} {q : Str} {m : Method} {h : H}
    (hr : routeAt L q m = some h) : hasEntry L q = true := by
  obtain ⟨e, he, hq, hw⟩ := routeAt_mem hr
  exact hasEntry_iff.2 ⟨e, he, hq, by rw [hw]; simp⟩

theorem Uniq.route {L : Log M H} (h : Uniq L) {ss : List Str} {m : Method} {hd : H}
    (hn : routeAt L (flat ss) m = none) : Uniq (L ++ [⟨ss, .route m hd⟩]) := by
  intro e he m' h' hw
  rw [routeAt_append, routeAt_one]
  rcases List.mem_append.1 he with he | he
  · have := h e he m' h' hw
    by_cases hc : flat ss = flat e.segs ∧ m = m'
    · rw [← hc.1, ← hc.2, hn] at this; simp at this
    · rw [this]
      by_cases h1 : flat ss = flat e.segs
      · have h2 : m ≠ m' := fun x => hc ⟨h1, x⟩
        simp [h1, h2]
      · simp [h1]
  · simp at he; subst he
    simp at hw
    simp [hw.1, hw.2]

theorem Uniq.other {L : Log M H} (h : Uniq L) {e : Entry M H} (hn : ∀ m h, e.what ≠ .route m h) :
    Uniq (L ++ [e]) := by
  intro e' he m' h' hw
  have : routeAt [e] (flat e'.segs) m' = none := by
    rw [routeAt_one]
    split
    · cases hw' : e.what with
      | route m k => exact absurd hw' (hn m k)
      | _ => rfl
    · rfl
  rw [routeAt_append, this]
  rcases List.mem_append.1 he with he | he
  · simpa using h e' he m' h' hw
  · simp at he; subst he; exact absurd hw (hn m' h')

theorem under_isAt {e : Entry M H} {pre : List Str} {r : Str} :
    (e.under pre).isAt (flat pre ++ r) = e.isAt r := by
  rw [Bool.eq_iff_iff, isAt_iff, isAt_iff, Entry.under, flat_append]; simp

theorem routeAt_under {S : Log M H} {pre : List Str} {r : Str} {m : Method} :
    routeAt (S.map (Entry.under pre)) (flat pre ++ r) m = routeAt S r m := by
  simp only [routeAt, List.filterMap_map]
  congr 2
  funext e
  simp only [Function.comp, under_isAt]
  rfl

theorem mwsAt_under {S : Log M H} {pre : List Str} {r : Str} :
    mwsAt (S.map (Entry.under pre)) (flat pre ++ r) = mwsAt S r := by
  simp only [mwsAt, List.filterMap_map]
  congr 1
  funext e
  simp only [Function.comp, under_isAt]
  rfl

theorem hasEntry_under {S : Log M H} {pre : List Str} {r : Str} :
    hasEntry (S.map (Entry.under pre)) (flat pre ++ r) = hasEntry S r := by
  simp only [hasEntry, List.any_map]
  congr 1
  funext e
  simp only [Function.comp, under_isAt]
  rfl

theorem free_hasEntry {L : Log M H} {F r : Str} (h : Free L F) : hasEntry L (F ++ r) = false := by
  cases he : hasEntry L (F ++ r) with
  | false => rfl
  | true =>
    obtain ⟨e, hm, hq, hw⟩ := hasEntry_iff.1 he
    have := h.2 e hm (by rw [hq]; simp)
    have : hasEntry L F = true := hasEntry_iff.2 ⟨e, hm, this, hw⟩
    rw [h.1] at this; simp at this

theorem free_routeAt {L : Log M H} {F r : Str} (h : Free L F) (m : Method) :
    routeAt L (F ++ r) m = none := by
  cases hr : routeAt L (F ++ r) m with
  | none => rfl
  | some k => have := routeAt_hasEntry hr; rw [free_hasEntry h] at this; simp at this

theorem Uniq.mount {L S : Log M H} (h : Uniq L) (hS : Uniq S) {ss : List Str}
    (hf : ss ≠ [] → Free L (flat ss)) : Uniq (mountLog ss L S) := by
  rw [mountLog]
  split
  · exact hS
  · next h0 =>
    have hf := hf h0
    have e : L ++ ⟨ss, .nothing⟩ :: S.map (Entry.under ss) =
        (L ++ [⟨ss, .nothing⟩]) ++ S.map (Entry.under ss) := by simp
    rw [e]
    intro e he m k hw
    rw [routeAt_append]
    have hL := h.other (e := ⟨ss, .nothing⟩) (by simp)
    rcases List.mem_append.1 he with he | he
    · rw [hL e he m k hw]
      cases hr : routeAt (S.map (Entry.under ss)) (flat e.segs) m with
      | none => rfl
      | some k' =>
        exfalso
        obtain ⟨e', he', hq, hw'⟩ := routeAt_mem hr
        obtain ⟨e'', _, rfl⟩ := List.mem_map.1 he'
        rw [Entry.under, flat_append] at hq
        rcases List.mem_append.1 he with he | he
        · have h1 := h e he m k hw
          rw [← hq, free_routeAt hf] at h1; simp at h1
        · simp at he; rw [he] at hw; simp at hw
    · obtain ⟨e', he', rfl⟩ := List.mem_map.1 he
      have : flat (e'.under ss).segs = flat ss ++ flat e'.segs := by rw [Entry.under, flat_append]
      rw [this, routeAt_under, hS e' he' m k hw]
      rfl

mutual
theorem uniq_reg : ∀ (c : Reg M H) (L : Log M H), RegOK c L → Uniq L → Uniq (logReg c L)
  | .get p h, L, ho, hu => by simp only [RegOK, logReg] at *; exact hu.route ho.2.2
  | .post p h, L, ho, hu => by simp only [RegOK, logReg] at *; exact hu.route ho.2.2
  | .put p h, L, ho, hu => by simp only [RegOK, logReg] at *; exact hu.route ho.2.2
  | .patch p h, L, ho, hu => by simp only [RegOK, logReg] at *; exact hu.route ho.2.2
  | .delete p h, L, ho, hu => by simp only [RegOK, logReg] at *; exact hu.route ho.2.2
  | .useService m, L, ho, hu => by simp only [logReg]; exact hu.other (by simp)
  | .useServiceTo p m, L, ho, hu => by
    simp only [logReg]; split
    · exact hu
    · exact hu.other (by simp)
  | .useRouter p sub, L, ho, hu => by
    simp only [RegOK, logReg] at *
    exact hu.mount (uniq_regs sub [] ho.1 uniq_nil) (fun h => (ho.2.2.resolve_left h).2)
  | .scope p sub, L, ho, hu => by
    simp only [RegOK, logReg] at *
    exact hu.mount (uniq_regs sub [] ho.1 uniq_nil) (fun h => (ho.2.2.resolve_left h).2)
theorem uniq_regs : ∀ (cs : List (Reg M H)) (L : Log M H), RegsOK cs L → Uniq L → Uniq (logRegs cs L)
  | [], L, _, hu => by simpa [logRegs] using hu
  | c :: cs, L, ho, hu => by
    simp only [RegsOK, logRegs] at *
    exact uniq_regs cs _ ho.2 (uniq_reg c L ho.1 hu)
end

theorem build_good {prog : List (Reg M H)} (hc : CleanRegs prog) {r : Router M H}
    (h : build prog = (r, none)) : Good (logOf prog) := by
  refine (build_rep hc h).good (uniq_regs prog [] ?_ uniq_nil)
  rw [← build_iff hc, h]

/-! ### Parameters and static segments do not get confused -/

theorem Tidy.ne {L : Log M H} (h : Tidy L) {e : Entry M H} (he : e ∈ L) : ∀ s ∈ e.segs, s ≠ [] :=
  fun s hs => (h.clean e he s hs).ne_nil

theorem Tidy.seg {L : Log M H} (h : Tidy L) {e : Entry M H} (he : e ∈ L) {pre post : List Str} {s : Str}
    (hs : e.segs = pre ++ s :: post) :
    (∀ x, s = ':' :: x → paramAt L (flat pre) = some x) ∧
    (s.head? ≠ some ':' → paramAt L (flat pre) = none) ∧
    known L (flat pre ++ s) = true := by
  have hseg : HasSeg e.segs (flat pre) s := ⟨pre, post, hs, rfl⟩
  have hne := h.ne he
  have hsne : s ≠ [] := hne s hseg.mem
  have hpre : flat pre <+: flat e.segs ∧ flat pre ≠ flat e.segs := by
    rw [hs, flat_append, flat_cons]
    refine ⟨by simp, ?_⟩
    intro hx
    have := congrArg List.length hx
    simp at this
    exact hsne this.1
  refine ⟨?_, ?_, known_iff.2 (Or.inl ⟨e, he, hseg.segEnd'⟩)⟩
  · intro x hx
    cases hp : paramAt L (flat pre) with
    | none => exact absurd (hx ▸ hseg) (paramAt_none hp e he x)
    | some y =>
      obtain ⟨e', he', hy⟩ := paramAt_some hp
      by_cases hxy : HasSeg e.segs (flat pre) (':' :: y)
      · have := hseg.unique hne hxy
        rw [hx] at this; simp at this; rw [this]
      · exact absurd ⟨flat pre, y, hy, hpre.1, hpre.2, hxy⟩ (h.noClash e' he' e he)
  · intro hst
    cases hp : paramAt L (flat pre) with
    | none => rfl
    | some y =>
      obtain ⟨e', he', hy⟩ := paramAt_some hp
      by_cases hxy : HasSeg e.segs (flat pre) (':' :: y)
      · have := hseg.unique hne hxy
        rw [this] at hst; simp at hst
      · exact absurd ⟨flat pre, y, hy, hpre.1, hpre.2, hxy⟩ (h.noClash e' he' e he)

theorem head_star_of {s : Str} (h : KeyOK s) (hs : s ≠ ['*']) : s.head? ≠ some '*' := by
  intro hh; exact hs (keyOK_star h hh)

/-- Following a path without wildcard. -/
theorem Tidy.find_match {L : Log M H} (h : Tidy L) {e : Entry M H} (he : e ∈ L)
    (hent : hasEntry L (flat e.segs) = true) {post req : List Str} {b : List (Str × Str)}
    (hm : Matches post req b) : ∀ pre, e.segs = pre ++ post → NoStar post → post ≠ [] →
      find L (flat pre) req = some (flat e.segs, b) := by
  induction hm with
  | nil => intro pre _ _ h0; exact absurd rfl h0
  | wild _ => intro pre _ hs _; simp [NoStar] at hs
  | @static s ps rs b h1 h2 hm ih =>
    intro pre hpre hstar _
    obtain ⟨_, hp, hk⟩ := h.seg he hpre
    have hk' := head_star_of (h.clean e he s (by rw [hpre]; simp)) h2
    rw [find, hp h1]
    have ih := ih (pre ++ [s]) (by simp [hpre]) (fun hx => hstar (by simp [hx]))
    have hfl : flat (pre ++ [s]) = flat pre ++ s := by simp [flat_append]
    rw [hfl] at ih
    cases hm with
    | nil =>
      have : flat e.segs = flat pre ++ s := by rw [hpre, flat_append]; simp
      rw [this] at hent
      simp [hk', hk, hent, this]
    | static a1 a2 a3 => simp [hk', hk, ih (by simp)]
    | param a3 => simp [hk', hk, ih (by simp)]
    | wild a3 => simp [NoStar] at hstar
  | @param x v ps rs b hm ih =>
    intro pre hpre hstar _
    obtain ⟨hp, _, hk⟩ := h.seg he hpre
    rw [find, hp x rfl]
    have ih := ih (pre ++ [':' :: x]) (by simp [hpre]) (fun hx => hstar (by simp [hx]))
    have hfl : flat (pre ++ [':' :: x]) = flat pre ++ ':' :: x := by simp [flat_append]
    rw [hfl] at ih
    cases hm with
    | nil =>
      have : flat e.segs = flat pre ++ ':' :: x := by rw [hpre, flat_append]; simp
      rw [this] at hent
      simp [hent, this]
    | static a1 a2 a3 => simp [ih (by simp)]
    | param a3 => simp [ih (by simp)]
    | wild a3 => simp [NoStar] at hstar

theorem Tidy.lookup_match {L : Log M H} (h : Tidy L) {e : Entry M H} (he : e ∈ L)
    (hw : e.what ≠ .nothing) {path : Str} {b : List (Str × Str)}
    (hm : Matches e.segs (segments path) b) (hs : NoStar e.segs) :
    lookup L path = some (flat e.segs, b) := by
  have hent : hasEntry L (flat e.segs) = true := hasEntry_iff.2 ⟨e, he, rfl, hw⟩
  rw [lookup]
  by_cases h0 : segments path = []
  · rw [h0] at hm
    generalize he' : e.segs = es at hm hent
    cases hm with
    | nil => simp at hent; simp [h0, hent]
    | wild hx => simp at hx
  · have hne : e.segs ≠ [] := by
      intro hx; rw [hx] at hm
      generalize segments path = rs at hm h0
      cases hm; exact h0 rfl
    have := h.find_match he hent hm [] rfl hs hne
    rw [flat_nil] at this
    simp [h0, this, hent]

end Obsidian.Spec
