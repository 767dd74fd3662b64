import Verif.Proofs.Program
import Verif.Spec.Pattern

/-
The way that a search takes through a tree for a list of segments, for paths in any syntax: colons may
be anywhere.
-/
namespace Obsidian
namespace Node
open Spec
variable {M H : Type}

/-- The search takes the child `c` that comes after the children `pre`. (`brk` says that a piece of a
segment has been read already; then colons and stars have no meaning.) -/
structure Pick (pre : List (Node M H)) (c : Node M H) (brk : Bool) : Prop where
  ne : c.key ≠ []
  other : ∀ d ∈ pre, d.key ≠ [] ∧ d.key.head? ≠ c.key.head?
  plain : brk = false → ∀ d ∈ pre, d.isParam = false ∧ d.key ≠ ['*']
  param : brk = false → c.isParam = true → pre = []
  star : brk = false → c.key ≠ ['*']

/-- The segments lead from the children to the node; `ms` are the middlewares on the way. -/
inductive Way : List (Node M H) → Bool → List Str → Node M H → List M → Prop where
  | whole {pre post : List (Node M H)} {c : Node M H} {brk : Bool} : Pick pre c brk →
      Way (pre ++ c :: post) brk [c.key] c c.mws
  | next {pre post : List (Node M H)} {c t : Node M H} {brk : Bool} {ss : List Str} {ms : List M} :
      Pick pre c brk → Way c.children false ss t ms → Way (pre ++ c :: post) brk (c.key :: ss) t (ms ++ c.mws)
  | part {pre post : List (Node M H)} {c t : Node M H} {brk : Bool} {rest : Str} {ss : List Str} {ms : List M} :
      Pick pre c brk → (brk = false → c.isParam = false) → rest ≠ [] → Way c.children true (rest :: ss) t ms →
      Way (pre ++ c :: post) brk ((c.key ++ rest) :: ss) t (ms ++ c.mws)

theorem Way.ne {cs : List (Node M H)} {brk : Bool} {ss : List Str} {t : Node M H} {ms : List M}
    (h : Way cs brk ss t ms) : ss ≠ [] := by cases h <;> simp

theorem Pick.weaken {pre : List (Node M H)} {c : Node M H} (h : Pick pre c false) (brk : Bool) : Pick pre c brk :=
  ⟨h.ne, h.other, fun _ => h.plain rfl, fun _ => h.param rfl, fun _ => h.star rfl⟩

theorem Way.weaken {cs : List (Node M H)} {ss : List Str} {t : Node M H} {ms : List M}
    (h : Way cs false ss t ms) (brk : Bool) : Way cs brk ss t ms := by
  cases h with
  | whole hp => exact .whole (hp.weaken brk)
  | next hp hw => exact .next (hp.weaken brk) hw
  | part hp hn hr hw => exact .part (hp.weaken brk) (fun _ => hn rfl) hr hw

theorem append_ne_star {k rest : Str} (hk : k ≠ []) (hr : rest ≠ []) : k ++ rest ≠ ['*'] := by
  intro h
  have := congrArg List.length h
  have h1 := List.length_pos_iff.2 hk
  have h2 := List.length_pos_iff.2 hr
  simp at this; omega

theorem Way.not_star {cs : List (Node M H)} {s : Str} {ss : List Str} {t : Node M H} {ms : List M}
    (h : Way cs false (s :: ss) t ms) : s ≠ ['*'] := by
  cases h with
  | whole hp => exact hp.star rfl
  | next hp hw => exact hp.star rfl
  | part hp hn hr hw => exact append_ne_star hp.ne hr

/-! ### The search takes the way -/

/-- The request fits the segments: the first piece literally if a segment has been broken. -/
def Fits (brk : Bool) (ss : List Str) (curr : Str) (key : List Str) (b : List (Str × Str)) : Prop :=
  if brk then ∃ ss', ss = curr :: ss' ∧ Matches ss' key b else Matches ss (curr :: key) b

theorem loop_skip {pre rest : List (Node M H)} {curr : Str} (key : List Str) (ps : HMap Str Str) (mws : List M) {brk : Bool}
    (h : ∀ d ∈ pre, d.key ≠ [] ∧ d.key.head? ≠ curr.head?)
    (hp : brk = false → ∀ d ∈ pre, d.isParam = false ∧ d.key ≠ ['*']) (hc : curr ≠ []) :
    getNextLoop (pre ++ rest) curr key ps mws brk = getNextLoop rest curr key ps mws brk := by
  induction pre with
  | nil => rfl
  | cons d pre ih =>
    have h1 := h d (by simp)
    have e0 : matchCount d.key curr = 0 := by
      rw [matchCount_eq, (lcp_eq_nil h1.1 hc).2 h1.2]; rfl
    have hk : byteLen d.key ≠ 0 := fun e => h1.1 (byteLen_eq_zero.1 e)
    have ih := ih (fun x hx => h x (by simp [hx])) (fun hb x hx => hp hb x (by simp [hx]))
    rw [List.cons_append, getNextLoop]
    have c1 : (!brk && d.isParam) = false := by
      cases brk with
      | true => rfl
      | false => rw [(hp rfl d (by simp)).1]; rfl
    have c2 : (!brk && decide (d.key = ['*'])) = false := by
      cases brk with
      | true => rfl
      | false => rw [decide_eq_false (hp rfl d (by simp)).2]; rfl
    simp only [c1, c2, Bool.false_eq_true, if_false, e0]
    rw [if_neg (by rintro ⟨h, _⟩; exact hk h.symm), if_neg (by rintro ⟨h, _⟩; exact h rfl), ih]

theorem loop_whole {c : Node M H} {post : List (Node M H)} (key : List Str) (ps : HMap Str Str) (mws : List M) {brk : Bool}
    (hk : c.key ≠ []) (hn : brk = false → c.isParam = false ∧ c.key ≠ ['*']) :
    getNextLoop (c :: post) c.key key ps mws brk =
      if key.isEmpty then
        match c.value with
        | some v => .found c ps (mws ++ v.middlewares)
        | none =>
          match starChild c.children with
          | some child => .found child ps (mws ++ child.mws)
          | none => getNextLoop post c.key key ps mws brk
      else
        match getNextNode c key ps mws false with
        | .panic p => .panic p
        | .found n ps mws => .found n ps (mws ++ c.mws)
        | .notFound key ps mws => getNextLoop post c.key key ps mws brk := by
  have hl : byteLen c.key ≠ 0 := fun e => hk (byteLen_eq_zero.1 e)
  have e0 : matchCount c.key c.key = byteLen c.key := by
    rw [matchCount_eq]; exact lcp_eq_left.2 (List.prefix_refl _)
  rw [getNextLoop]
  have c1 : (!brk && c.isParam) = false := by
    cases brk with
    | true => rfl
    | false => rw [(hn rfl).1]; rfl
  have c2 : (!brk && decide (c.key = ['*'])) = false := by
    cases brk with
    | true => rfl
    | false => rw [decide_eq_false (hn rfl).2]; rfl
  simp only [c1, c2, Bool.false_eq_true, if_false, e0]
  rw [if_neg (by rintro ⟨_, h⟩; exact h rfl), if_pos ⟨hl, trivial⟩]
  generalize c.getNextNode key ps mws false = s
  cases s <;> rfl

theorem loop_part {c : Node M H} {post : List (Node M H)} {rest : Str} (key : List Str) (ps : HMap Str Str) (mws : List M)
    {brk : Bool} (hk : c.key ≠ []) (hr : rest ≠ []) (hn : brk = false → c.isParam = false ∧ c.key ≠ ['*']) :
    getNextLoop (c :: post) (c.key ++ rest) key ps mws brk =
      match getNextNode c (rest :: key) ps mws true with
      | .panic p => .panic p
      | .found n ps mws => .found n ps (mws ++ c.mws)
      | .notFound key ps mws => getNextLoop post (c.key ++ rest) key ps mws brk := by
  have hl : byteLen c.key ≠ 0 := fun e => hk (byteLen_eq_zero.1 e)
  have hl' : byteLen rest ≠ 0 := fun e => hr (byteLen_eq_zero.1 e)
  have e0 : matchCount c.key (c.key ++ rest) = byteLen c.key := by
    rw [matchCount_eq, lcp_self_append]
  rw [getNextLoop]
  have c1 : (!brk && c.isParam) = false := by
    cases brk with
    | true => rfl
    | false => rw [(hn rfl).1]; rfl
  have c2 : (!brk && decide (c.key = ['*'])) = false := by
    cases brk with
    | true => rfl
    | false => rw [decide_eq_false (hn rfl).2]; rfl
  simp only [c1, c2, Bool.false_eq_true, if_false, e0]
  rw [if_pos ⟨trivial, by rw [byteLen_append]; omega⟩, sliceFrom_append]
  simp only [ne_eq, hl, not_false_eq_true, if_true]
  generalize c.getNextNode (rest :: key) ps mws true = s
  cases s <;> rfl

theorem loop_param {c : Node M H} {post : List (Node M H)} {x curr : Str} (key : List Str) (ps : HMap Str Str) (mws : List M)
    (hk : c.key = ':' :: x) :
    getNextLoop (c :: post) curr key ps mws false =
      if key.isEmpty then
        match c.value with
        | some v => .found c (ps.insert x curr) (mws ++ v.middlewares)
        | none => getNextLoop post curr key ps mws false
      else
        match getNextNode c key ps mws false with
        | .panic p => .panic p
        | .found n ps mws => .found n (ps.insert x curr) (mws ++ c.mws)
        | .notFound key ps mws => getNextLoop post curr key ps mws false := by
  have c1 : c.isParam = true := by rw [isParam, hk]; rfl
  have e : sliceFrom c.key 1 = some x := by rw [hk]; exact sliceFrom_append [':'] x
  rw [getNextLoop]
  simp only [c1, Bool.not_false, Bool.and_self, if_true, e]
  generalize c.getNextNode key ps mws false = s
  cases s <;> rfl

theorem mws_some {c : Node M H} {v : RouteValue M H} (h : c.value = some v) : c.mws = v.middlewares := by
  rw [mws, h]

theorem getNextNode_cons (n : Node M H) (curr : Str) (key : List Str) (ps : HMap Str Str) (mws : List M) (brk : Bool) :
    n.getNextNode (curr :: key) ps mws brk = getNextLoop n.children curr key ps mws brk := by
  cases n; rw [getNextNode]; rfl

/-- The request makes the search take the way and bind the parameters of the match. -/
theorem Way.search {cs : List (Node M H)} {brk : Bool} {ss : List Str} {t : Node M H} {ms : List M}
    (h : Way cs brk ss t ms) {v : RouteValue M H} (hv : t.value = some v) :
    ∀ (curr : Str) (key : List Str) (b : List (Str × Str)) (ps : HMap Str Str) (mws : List M),
      Fits brk ss curr key b →
      ∃ ps', getNextLoop cs curr key ps mws brk = .found t ps' (mws ++ ms) ∧
        ∀ x, ps'.get x = match b.lookup x with | some y => some y | none => ps.get x := by
  induction h with
  | @whole pre post c brk hp =>
    intro curr key b ps mws hf
    have lit : curr = c.key → key = [] → b = [] → (brk = false → c.isParam = false) →
        ∃ ps', getNextLoop (pre ++ c :: post) curr key ps mws brk = .found c ps' (mws ++ c.mws) ∧
        ∀ x, ps'.get x = match b.lookup x with | some y => some y | none => ps.get x := by
      rintro rfl rfl rfl hn
      refine ⟨ps, ?_, fun x => rfl⟩
      rw [loop_skip _ _ _ hp.other hp.plain hp.ne, loop_whole _ _ _ hp.ne (fun hb => ⟨hn hb, hp.star hb⟩), hv, mws_some hv]
      rfl
    cases brk with
    | true =>
      obtain ⟨ss', e, hm⟩ := hf
      injection e with e1 e2; subst e2
      cases hm
      exact lit e1.symm rfl rfl (by simp)
    | false =>
      have hf : Matches [c.key] (curr :: key) b := hf
      generalize hk : c.key = k at hf
      cases hf with
      | static h1 h2 hm => cases hm; exact lit hk.symm rfl rfl (fun _ => isParam_false_iff.2 (by rw [hk]; exact h1))
      | @param x _ _ _ b' hm =>
        cases hm
        have : pre = [] := hp.param rfl (isParam_iff.2 (by rw [hk]; rfl))
        subst this
        refine ⟨ps.insert x curr, ?_, fun y => ?_⟩
        · rw [List.nil_append, loop_param _ _ _ hk, hv, mws_some hv]; rfl
        · rw [HMap.get_insert, List.lookup_cons]
          by_cases hy : y = x
          · rw [if_pos hy, hy]; simp
          · rw [if_neg hy, beq_false_of_ne hy]; rfl
      | wild => exact absurd hk (hp.star rfl)
  | @next pre post c t brk ss ms hp hw ih =>
    intro curr key b ps mws hf
    have cont : ∀ b', Matches ss key b' → ∃ ps', getNextNode c key ps mws false = .found t ps' (mws ++ ms) ∧
        (∀ x, ps'.get x = match b'.lookup x with | some y => some y | none => ps.get x) ∧ key.isEmpty = false := by
      intro b' hm
      cases key with
      | nil =>
        cases hm with
        | nil => exact absurd rfl hw.ne
        | wild => exact absurd rfl hw.not_star
      | cons k key =>
        obtain ⟨ps', e1, e2⟩ := ih hv k key b' ps mws hm
        exact ⟨ps', by rw [getNextNode_cons]; exact e1, e2, rfl⟩
    have lit : curr = c.key → Matches ss key b → (brk = false → c.isParam = false) →
        ∃ ps', getNextLoop (pre ++ c :: post) curr key ps mws brk = .found t ps' (mws ++ (ms ++ c.mws)) ∧
        ∀ x, ps'.get x = match b.lookup x with | some y => some y | none => ps.get x := by
      rintro rfl hm hn
      obtain ⟨ps', e1, e2, e3⟩ := cont b hm
      refine ⟨ps', ?_, e2⟩
      rw [loop_skip _ _ _ hp.other hp.plain hp.ne, loop_whole _ _ _ hp.ne (fun hb => ⟨hn hb, hp.star hb⟩), e3, e1]
      simp only [Bool.false_eq_true, if_false, List.append_assoc]
    cases brk with
    | true =>
      obtain ⟨ss', e, hm⟩ := hf
      injection e with e1 e2; subst e2
      exact lit e1.symm hm (by simp)
    | false =>
      have hf : Matches (c.key :: ss) (curr :: key) b := hf
      generalize hk : c.key = k at hf
      cases hf with
      | static h1 h2 hm => exact lit hk.symm hm (fun _ => isParam_false_iff.2 (by rw [hk]; exact h1))
      | @param x _ _ _ b' hm =>
        have : pre = [] := hp.param rfl (isParam_iff.2 (by rw [hk]; rfl))
        subst this
        obtain ⟨ps', e1, e2, e3⟩ := cont b' hm
        refine ⟨ps'.insert x curr, ?_, fun y => ?_⟩
        · rw [List.nil_append, loop_param _ _ _ hk, e3, e1]
          simp only [Bool.false_eq_true, if_false, List.append_assoc]
        · rw [HMap.get_insert, List.lookup_cons, e2]
          by_cases hy : y = x
          · rw [if_pos hy, hy]; simp
          · rw [if_neg hy, beq_false_of_ne hy]
      | wild => exact absurd hk (hp.star rfl)
  | @part pre post c t brk rest ss ms hp hn hr hw ih =>
    intro curr key b ps mws hf
    have lit : curr = c.key ++ rest → Matches ss key b →
        ∃ ps', getNextLoop (pre ++ c :: post) curr key ps mws brk = .found t ps' (mws ++ (ms ++ c.mws)) ∧
        ∀ x, ps'.get x = match b.lookup x with | some y => some y | none => ps.get x := by
      rintro rfl hm
      obtain ⟨ps', e1, e2⟩ := ih hv rest key b ps mws ⟨ss, rfl, hm⟩
      refine ⟨ps', ?_, e2⟩
      have hhd : (c.key ++ rest).head? = c.key.head? := by
        cases hk : c.key with
        | nil => exact absurd hk hp.ne
        | cons a k => rfl
      rw [loop_skip _ _ _ (fun d hd => ⟨(hp.other d hd).1, by rw [hhd]; exact (hp.other d hd).2⟩) hp.plain (by simp [hp.ne]),
        loop_part _ _ _ hp.ne hr (fun hb => ⟨hn hb, hp.star hb⟩), getNextNode_cons, e1]
      simp only [List.append_assoc]
    cases brk with
    | true =>
      obtain ⟨ss', e, hm⟩ := hf
      injection e with e1 e2; subst e2
      exact lit e1.symm hm
    | false =>
      have hf : Matches ((c.key ++ rest) :: ss) (curr :: key) b := hf
      generalize hk : c.key ++ rest = k at hf
      cases hf with
      | static h1 h2 hm => exact lit hk.symm hm
      | @param x _ _ _ b' hm =>
        exfalso
        have := isParam_false_iff.1 (hn rfl)
        cases hc : c.key with
        | nil => exact hp.ne hc
        | cons a l => rw [hc] at hk this; injection hk with hk; exact this (by rw [hk]; rfl)
      | wild =>
        exact absurd hk (append_ne_star hp.ne hr)

end Node
end Obsidian
