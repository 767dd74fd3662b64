import Verif.Proofs.RunRegs

/- The search agrees with the specification. -/
namespace Obsidian.Spec
open Obsidian
variable {M H : Type}

/-! ### Loops over siblings -/

open Node in
theorem matchCount_zero {k s : Str} (hk : k ≠ []) (hs : s ≠ []) (h : k.head? ≠ s.head?) :
    matchCount k s = 0 := by
  rw [matchCount_eq, (lcp_eq_nil hk hs).2 h]; rfl

theorem byteLen_ne_zero {s : Str} (h : s ≠ []) : byteLen s ≠ 0 := fun e => h (byteLen_eq_zero.1 e)

theorem loop_skip {node : Node M H} {rest : List (Node M H)} {curr : Str} {key : List Str}
    {params : HMap Str Str} {mws : List M} {brk : Bool} (hb : brk = false → node.isParam = false ∧
      node.key ≠ ['*']) (hk : node.key ≠ []) (h : ¬ node.key <+: curr) :
    Node.getNextLoop (node :: rest) curr key params mws brk =
      Node.getNextLoop rest curr key params mws brk := by
  have h1 : (!brk && node.isParam) = false := by
    cases brk
    · simp [(hb rfl).1]
    · simp
  have h2 : (!brk && decide (node.key = ['*'])) = false := by
    cases brk
    · simp [(hb rfl).2]
    · simp
  have h3 : matchCount node.key curr ≠ byteLen node.key := by
    rw [matchCount_eq]; exact fun e => h (lcp_eq_left.1 e)
  rw [Node.getNextLoop]
  simp [h1, h2, h3]

theorem loop_break {node : Node M H} {rest : List (Node M H)} {t : Str} {key : List Str}
    {params : HMap Str Str} {mws : List M} {brk : Bool} (hb : brk = false → node.isParam = false ∧
      node.key ≠ ['*']) (hk : node.key ≠ []) (ht : t ≠ []) :
    Node.getNextLoop (node :: rest) (node.key ++ t) key params mws brk =
      match Node.getNextNode node (t :: key) params mws true with
      | .panic p => .panic p
      | .found n params mws => .found n params (mws ++ node.mws)
      | .notFound key params mws => Node.getNextLoop rest (node.key ++ t) key params mws brk := by
  have h1 : (!brk && node.isParam) = false := by
    cases brk
    · simp [(hb rfl).1]
    · simp
  have h2 : (!brk && decide (node.key = ['*'])) = false := by
    cases brk
    · simp [(hb rfl).2]
    · simp
  have h3 : matchCount node.key (node.key ++ t) = byteLen node.key := by
    rw [matchCount_eq, lcp_self_append]
  have h4 : byteLen node.key ≠ byteLen (node.key ++ t) := by
    rw [byteLen_append]; have := byteLen_ne_zero ht; omega
  rw [Node.getNextLoop]
  simp only [h1, h2, h3, h4, sliceFrom_append, ne_eq, not_false_eq_true, and_self, if_true,
    byteLen_ne_zero hk, Bool.false_eq_true, if_false]
  rfl

/-- What happens when the node of a whole segment is reached. -/
def terminal (node : Node M H) (key : List Str) (params : HMap Str Str) (mws : List M)
    (next : List Str → HMap Str Str → List M → Search M H) : Search M H :=
  if key.isEmpty then
    match node.value with
    | some v => .found node params (mws ++ v.middlewares)
    | none =>
      match Node.starChild node.children with
      | some child => .found child params (mws ++ child.mws)
      | none => next key params mws
  else
    match Node.getNextNode node key params mws false with
    | .panic p => .panic p
    | .found n params mws => .found n params (mws ++ node.mws)
    | .notFound key params mws => next key params mws

theorem loop_full {node : Node M H} {rest : List (Node M H)} {key : List Str}
    {params : HMap Str Str} {mws : List M} {brk : Bool} (hb : brk = false → node.isParam = false ∧
      node.key ≠ ['*']) (hk : node.key ≠ []) :
    Node.getNextLoop (node :: rest) node.key key params mws brk =
      terminal node key params mws (fun key params mws =>
        Node.getNextLoop rest node.key key params mws brk) := by
  have h1 : (!brk && node.isParam) = false := by
    cases brk
    · simp [(hb rfl).1]
    · simp
  have h2 : (!brk && decide (node.key = ['*'])) = false := by
    cases brk
    · simp [(hb rfl).2]
    · simp
  have h3 : matchCount node.key node.key = byteLen node.key := by
    have := lcp_self_append node.key []
    rw [List.append_nil] at this
    rw [matchCount_eq, this]
  rw [Node.getNextLoop, terminal]
  simp only [h1, h2, h3, ne_eq, not_true_eq_false, and_false, if_false, byteLen_ne_zero hk,
    not_false_eq_true, and_true, if_true, Bool.false_eq_true]
  rfl

/-- The wildcard child. -/
def star (cs : List (Node M H)) : Option (Node M H) := cs.find? (fun c => c.key = ['*'])

theorem star_eq {cs : List (Node M H)} (hw : Node.WFL cs) : star cs = Node.subL cs ['*'] := by
  induction cs with
  | nil => simp [star, Node.subL]
  | cons c cs ih =>
    have hk := hw.ne c (by simp)
    rw [star, List.find?_cons]
    by_cases h : c.key = ['*']
    · simp [h, Node.subL]
    · have h' : ¬ c.key <+: ['*'] := by
        rintro ⟨t, ht⟩
        cases hc : c.key with
        | nil => exact hk hc
        | cons a k =>
          rw [hc] at ht; simp at ht
          exact h (by rw [hc, ht.1, ht.2.1])
      rw [Node.subL, if_neg h']
      simp only [h, decide_false]
      exact ih hw.tail

theorem starChild_eq {cs : List (Node M H)} (hw : Node.WFL cs) :
    Node.starChild cs = (star cs).filter (fun c => c.value.isSome) := by
  induction cs with
  | nil => rfl
  | cons c cs ih =>
    rw [Node.starChild, star, List.find?_cons]
    by_cases h : c.key = ['*']
    · have h5 : cs = [] := by rw [Node.WFL] at hw; exact hw.2.2.2.2.1 h
      subst h5
      cases hv : c.value <;> simp [h, hv, Node.starChild, Option.filter]
    · simp only [h, false_and, if_false, decide_false]
      exact ih hw.tail

/-- Siblings that do not match: only the wildcard child is left. -/
theorem loop_rest {l : List (Node M H)} {curr : Str} (hc : curr ≠ []) (hk : ∀ d ∈ l, d.key ≠ [])
    (hp : ∀ d ∈ l, d.isParam = false) (h : ∀ d ∈ l, d.key = ['*'] ∨ ¬ d.key <+: curr) (key : List Str)
    (params : HMap Str Str) (mws : List M) :
    Node.getNextLoop l curr key params mws false =
      match star l with
      | some c => .found c params (mws ++ c.mws)
      | none => .notFound key params mws := by
  induction l with
  | nil => simp [Node.getNextLoop, star]
  | cons c l ih =>
    have ih := ih (fun d hd => hk d (by simp [hd])) (fun d hd => hp d (by simp [hd]))
      (fun d hd => h d (by simp [hd]))
    by_cases hs : c.key = ['*']
    · rw [Node.getNextLoop, star]
      simp [hp c (by simp), hs]
    · rw [loop_skip (fun _ => ⟨hp c (by simp), hs⟩) (hk c (by simp))
        ((h c (by simp)).resolve_left hs), ih, star, star, List.find?_cons]
      simp [hs]

theorem loop_rest_brk {l : List (Node M H)} {curr : Str} (hk : ∀ d ∈ l, d.key ≠ [])
    (h : ∀ d ∈ l, ¬ d.key <+: curr) (key : List Str) (params : HMap Str Str) (mws : List M) :
    Node.getNextLoop l curr key params mws true = .notFound key params mws := by
  induction l with
  | nil => simp [Node.getNextLoop]
  | cons c l ih =>
    rw [loop_skip (by simp) (hk c (by simp)) (h c (by simp))]
    exact ih (fun d hd => hk d (by simp [hd])) (fun d hd => h d (by simp [hd]))

theorem loop_pre {l₁ l₂ : List (Node M H)} {curr : Str} {brk : Bool} (hk : ∀ d ∈ l₁, d.key ≠ [])
    (hb : brk = false → ∀ d ∈ l₁, d.isParam = false ∧ d.key ≠ ['*'])
    (h : ∀ d ∈ l₁, ¬ d.key <+: curr) (key : List Str) (params : HMap Str Str) (mws : List M) :
    Node.getNextLoop (l₁ ++ l₂) curr key params mws brk =
      Node.getNextLoop l₂ curr key params mws brk := by
  induction l₁ with
  | nil => rfl
  | cons c l ih =>
    rw [List.cons_append, loop_skip (fun e => hb e c (by simp)) (hk c (by simp)) (h c (by simp))]
    exact ih (fun d hd => hk d (by simp [hd])) (fun e d hd => hb e d (by simp [hd]))
      (fun d hd => h d (by simp [hd]))

theorem getNextNode_eq (n : Node M H) (curr : Str) (key : List Str) (params : HMap Str Str)
    (mws : List M) (brk : Bool) : n.getNextNode (curr :: key) params mws brk =
      Node.getNextLoop n.children curr key params mws brk := by
  cases n; rfl

/-! ### Middlewares on the way -/

theorem upTo_append (L : Log M H) (p a b : Str) :
    upTo L p (a ++ b) = upTo L (p ++ a) b ++ upTo L p a := by
  induction a generalizing p with
  | nil => simp [upTo]
  | cons c a ih => simp [upTo, ih]

theorem mwsAt_nil_of {L : Log M H} {q : Str} (h : hasEntry L q = false) : mwsAt L q = [] := by
  cases hm : mwsAt L q with
  | nil => rfl
  | cons m ms =>
    have : m ∈ mwsAt L q := by rw [hm]; simp
    obtain ⟨e, he, hq, hw⟩ := mem_mwsAt.1 this
    have := hasEntry_iff.2 ⟨e, he, hq, by rw [hw]; simp⟩
    rw [h] at this; simp at this

theorem hasEntry_known {L : Log M H} {q : Str} (h : hasEntry L q = true) : known L q = true := by
  obtain ⟨e, he, hq, _⟩ := hasEntry_iff.1 h
  rw [← hq]; exact known_flat he

/-- No place strictly inside the key of an edge has middlewares. -/
theorem upTo_gap {L : Log M H} {p k : Str} (hk : k ≠ [])
    (h : ∀ a b, k = a ++ b → a ≠ [] → b ≠ [] → known L (p ++ a) = false) :
    upTo L p k = mwsAt L (p ++ k) := by
  induction k generalizing p with
  | nil => simp at hk
  | cons c k ih =>
    cases k with
    | nil => simp [upTo]
    | cons d k =>
      have h1 : known L (p ++ [c]) = false := h [c] (d :: k) rfl (by simp) (by simp)
      have h2 : hasEntry L (p ++ [c]) = false := by
        cases he : hasEntry L (p ++ [c]) with
        | false => rfl
        | true => rw [hasEntry_known he] at h1; simp at h1
      rw [upTo, mwsAt_nil_of h2, List.append_nil, ih (by simp)]
      · simp
      · intro a b hab ha hb
        have := h (c :: a) b (by rw [hab]; rfl) (by simp) hb
        simpa using this

section main
variable {n₀ : Node M H} {L : Log M H}

theorem Rep.sub_isSome (h : Rep n₀ L) {q : Str} (hq : q ≠ []) :
    (n₀.sub q).isSome = known L q := by
  have := h.pos q
  simp only [hq, false_or] at this
  rw [Node.view, Option.isSome_map] at this
  exact Bool.eq_iff_iff.2 this

theorem Rep.at (h : Rep n₀ L) {q : Str} {n : Node M H} (hn : n₀.sub q = some n) :
    ValOK L q n.value ∧ ∀ x, n.pn = some x ↔ ∃ e ∈ L, HasSeg e.segs q (':' :: x) := by
  have hv : n₀.view q = some (n.value, n.pn) := by rw [Node.view, hn]; rfl
  exact ⟨h.val _ _ _ hv, h.par _ _ _ hv⟩

theorem Rep.mws_eq (h : Rep n₀ L) {q : Str} {n : Node M H} (hn : n₀.sub q = some n) :
    n.mws = mwsAt L q := by
  have := (h.at hn).1
  rw [Node.mws]
  cases hv : n.value with
  | none =>
    rw [hv] at this
    exact (mwsAt_nil_of (by simpa using this.1.symm)).symm
  | some v => exact (this.2 v hv).1

theorem Rep.paramAt (h : Rep n₀ L) {q : Str} {n : Node M H} (hn : n₀.sub q = some n) :
    n.pn = Spec.paramAt L q := by
  have := (h.at hn).2
  cases hp : Spec.paramAt L q with
  | none =>
    cases hx : n.pn with
    | none => rfl
    | some x =>
      obtain ⟨e, he, hs⟩ := (this x).1 hx
      exact absurd hs (paramAt_none hp e he x)
  | some x => exact (this x).2 (paramAt_some hp)

theorem subL_none_of {cs : List (Node M H)} (hw : Node.WFL cs) {c : Node M H} (hc : c ∈ cs)
    {a b : Str} (hk : c.key = a ++ b) (ha : a ≠ []) (hb : b ≠ []) : Node.subL cs a = none := by
  have hh : c.key.head? = a.head? := by rw [hk]; cases a <;> simp at ha ⊢
  obtain ⟨l₁, l₂, rfl⟩ := List.append_of_mem hc
  rcases hw.cases a with h | ⟨m₁, d, m₂, e, hd, h1, h2⟩
  · exact absurd hh (h c hc)
  · have : c = d := by
      rw [e] at hc
      rcases List.mem_append.1 hc with hc | hc
      · exact absurd hh (h1 c hc)
      · rcases List.mem_cons.1 hc with hc | hc
        · exact hc
        · exact absurd hh (h2 c hc)
    subst this
    rw [e, Node.subL_mid (by rw [← e]; exact hw.ne) h1 h2, if_neg]
    rintro ⟨t, ht⟩
    rw [hk] at ht
    have := congrArg List.length ht
    simp at this
    exact hb this.1

theorem subL_self {cs : List (Node M H)} (hw : Node.WFL cs) {c : Node M H} (hc : c ∈ cs)
    (t : Str) : Node.subL cs (c.key ++ t) = c.sub t := by
  have hk := hw.ne c hc
  have hh : c.key.head? = (c.key ++ t).head? := by cases h : c.key <;> simp [h] at hk ⊢
  rcases hw.cases (c.key ++ t) with h | ⟨m₁, d, m₂, e, hd, h1, h2⟩
  · exact absurd hh (h c hc)
  · have : c = d := by
      rw [e] at hc
      rcases List.mem_append.1 hc with hc | hc
      · exact absurd hh (h1 c hc)
      · rcases List.mem_cons.1 hc with hc | hc
        · exact hc
        · exact absurd hh (h2 c hc)
    subst this
    rw [e, Node.subL_mid (by rw [← e]; exact hw.ne) h1 h2, if_pos (by simp)]
    simp

/-- A child and its place. -/
theorem Rep.child (h : Rep n₀ L) {p : Str} {n c : Node M H} (hn : n₀.sub p = some n)
    (hc : c ∈ n.children) : n₀.sub (p ++ c.key) = some c ∧ upTo L p c.key = mwsAt L (p ++ c.key) := by
  have hw := Node.WF_iff.1 (h.wf.sub hn)
  have hk := hw.ne c hc
  refine ⟨?_, upTo_gap hk ?_⟩
  · rw [Node.sub_append h.wf hn, Node.sub_ne hk]
    have := subL_self hw hc []
    simpa using this
  · intro a b hab ha hb
    rw [← h.sub_isSome (by simp [ha]), Node.sub_append h.wf hn, Node.sub_ne ha,
      subL_none_of hw hc hab ha hb]
    rfl

/-- The parameters after binding. -/
def bind (params : HMap Str Str) (b : List (Str × Str)) : HMap Str Str :=
  b.foldr (fun xs ps => ps.insert xs.1 xs.2) params

/-- The search below the place `p` does what the specification says. -/
def Res (n₀ : Node M H) (L : Log M H) (p : Str) (params : HMap Str Str) (mws : List M)
    (o : Option (Str × List (Str × Str))) (r : Search M H) : Prop :=
  match o with
  | none => ∃ key, r = .notFound key params mws
  | some (q, b) => ∃ t node, q = p ++ t ∧ n₀.sub q = some node ∧
      r = .found node (bind params b) (mws ++ upTo L p t)

/-- The specification from a place that a whole segment leads to. -/
def fin (L : Log M H) (q : Str) (rest : List Str) : Option (Str × List (Str × Str)) :=
  if rest.isEmpty then
    if hasEntry L q then some (q, [])
    else if hasEntry L (q ++ ['*']) then some (q ++ ['*'], []) else none
  else find L q rest

/-- What is assumed about the remaining segments. -/
def IH (n₀ : Node M H) (L : Log M H) (rest : List Str) : Prop :=
  rest ≠ [] → ∀ p n, n₀.sub p = some n → ∀ params mws,
    Res n₀ L p params mws (find L p rest) (n.getNextNode rest params mws false)

/-- Either the search goes on with `next`, or it is done. -/
def Or (n₀ : Node M H) (L : Log M H) (p : Str) (params : HMap Str Str) (mws : List M)
    (o : Option (Str × List (Str × Str)))
    (next : List Str → HMap Str Str → List M → Search M H) (r : Search M H) : Prop :=
  match o with
  | none => ∃ key, r = next key params mws
  | some _ => Res n₀ L p params mws o r

theorem Rep.starAt (h : Rep n₀ L) {q : Str} {n : Node M H} (hn : n₀.sub q = some n) :
    star n.children = n₀.sub (q ++ ['*']) := by
  rw [star_eq (Node.WF_iff.1 (h.wf.sub hn)), Node.sub_append h.wf hn, Node.sub_ne (by simp)]

theorem star_mem {cs : List (Node M H)} {c : Node M H} (h : star cs = some c) :
    c ∈ cs ∧ c.key = ['*'] := by
  refine ⟨List.mem_of_find?_eq_some h, ?_⟩
  have := List.find?_some h
  simpa using this

theorem terminal_res (h : Rep n₀ L) {p : Str} {n c : Node M H} {rest : List Str}
    (hI : IH n₀ L rest) (hn : n₀.sub p = some n) (hc : c ∈ n.children) (params : HMap Str Str)
    (mws : List M) (next) :
    Or n₀ L p params mws (fin L (p ++ c.key) rest) next (terminal c rest params mws next) := by
  obtain ⟨h1, h2⟩ := h.child hn hc
  have hv := (h.at h1).1
  have hm := h.mws_eq h1
  rw [fin, terminal]
  split
  · split
    · next he =>
      cases hv' : c.value with
      | none => rw [hv'] at hv; simp [ValOK, he] at hv
      | some v =>
        rw [Node.mws, hv'] at hm
        refine ⟨c.key, c, rfl, h1, ?_⟩
        simp only at hm
        simp [bind, h2, hm]
    · next he =>
      cases hv' : c.value with
      | some v => rw [hv'] at hv; simp [ValOK, he] at hv
      | none =>
        have hst := h.starAt h1
        simp only
        rw [starChild_eq (Node.WF_iff.1 (h.wf.sub h1))]
        cases hs : star c.children with
        | none =>
          rw [hs] at hst
          have : hasEntry L (p ++ c.key ++ ['*']) = false := by
            cases hx : hasEntry L (p ++ c.key ++ ['*']) with
            | false => rfl
            | true =>
              have := hasEntry_known hx
              rw [← h.sub_isSome (by simp), ← hst] at this; simp at this
          rw [if_neg (by rw [this]; simp)]
          exact ⟨rest, rfl⟩
        | some d =>
          rw [hs] at hst
          have hv2 := (h.at hst.symm).1.1
          obtain ⟨hd, hdk⟩ := star_mem hs
          split
          · next hx =>
            rw [hx] at hv2
            have h4 := (h.child h1 hd).2
            rw [hdk] at h4
            refine ⟨c.key ++ ['*'], d, by simp, hst.symm, ?_⟩
            have hne : hasEntry L (p ++ c.key) = false := by simpa using he
            have hm' := h.mws_eq hst.symm
            simp only [List.append_assoc] at h4 hm'
            simp [hv2, bind, upTo_append, h4, h2, mwsAt_nil_of hne, hm', Option.filter]
          · next hx =>
            have : d.value.isSome = false := by rw [hv2]; simpa using hx
            refine ⟨rest, ?_⟩
            simp [Option.filter, this]
  · next hr =>
    have hI := hI (by simpa using hr) _ _ h1 params mws
    cases hf : find L (p ++ c.key) rest with
    | none =>
      rw [hf] at hI
      obtain ⟨k, hk⟩ := hI
      exact ⟨k, by rw [hk]⟩
    | some qb =>
      obtain ⟨q, b⟩ := qb
      rw [hf] at hI
      obtain ⟨t, node, h3, h4, h5⟩ := hI
      refine ⟨c.key ++ t, node, by rw [h3]; simp, h4, ?_⟩
      rw [h5]
      simp [upTo_append, h2, hm]

/-- One sibling that shares its first character with the text. -/
theorem one_child (h : Rep n₀ L) {rest : List Str} (hI : IH n₀ L rest) {curr : Str}
    (hW : ∀ curr' : Str, curr'.length < curr.length → curr' ≠ [] → ∀ p n, n₀.sub p = some n →
      ∀ params mws, Res n₀ L p params mws
        (if known L (p ++ curr') then fin L (p ++ curr') rest else none)
        (n.getNextNode (curr' :: rest) params mws true))
    {p : Str} {n : Node M H} (hn : n₀.sub p = some n) {l₁ l₂ : List (Node M H)} {c : Node M H}
    (hcs : n.children = l₁ ++ c :: l₂) (hc : c.key.head? = curr.head?)
    (hl1 : ∀ d ∈ l₁, d.key.head? ≠ curr.head?) (hl2 : ∀ d ∈ l₂, d.key.head? ≠ curr.head?)
    (hcurr : curr ≠ []) {brk : Bool} (hb : brk = false → c.isParam = false ∧ c.key ≠ ['*'])
    (params : HMap Str Str) (mws : List M) :
    Or n₀ L p params mws (if known L (p ++ curr) then fin L (p ++ curr) rest else none)
      (fun key params mws => Node.getNextLoop l₂ curr key params mws brk)
      (Node.getNextLoop (c :: l₂) curr rest params mws brk) := by
  have hcm : c ∈ n.children := by rw [hcs]; simp
  have hw := Node.WF_iff.1 (h.wf.sub hn)
  have hk := hw.ne c hcm
  obtain ⟨h1, h2⟩ := h.child hn hcm
  have hsub : n₀.sub (p ++ curr) =
      if c.key <+: curr then c.sub (curr.drop c.key.length) else none := by
    rw [Node.sub_append h.wf hn, Node.sub_ne hcurr, hcs]
    exact Node.subL_mid (by rw [← hcs]; exact hw.ne) hl1 hl2
  by_cases hp : c.key <+: curr
  · obtain ⟨t, rfl⟩ := hp
    by_cases ht : t = []
    · subst ht
      rw [List.append_nil] at hcurr ⊢
      have hkn : known L (p ++ c.key) = true := by
        rw [← h.sub_isSome (by simp [hcurr]), h1]; rfl
      rw [if_pos hkn, loop_full hb hk]
      exact terminal_res h hI hn hcm params mws _
    · rw [loop_break hb hk ht]
      have := hW t (by simp [List.length_pos_iff.2 hk]) ht _ _ h1 params mws
      rw [List.append_assoc] at this
      cases ho : (if known L (p ++ (c.key ++ t)) then fin L (p ++ (c.key ++ t)) rest else none) with
      | none =>
        rw [ho] at this
        obtain ⟨k, hk⟩ := this
        exact ⟨k, by rw [hk]⟩
      | some qb =>
        obtain ⟨q, b⟩ := qb
        rw [ho] at this
        obtain ⟨u, node, h3, h4, h5⟩ := this
        refine ⟨c.key ++ u, node, by rw [h3]; simp, h4, ?_⟩
        rw [h5]
        simp [upTo_append, h2, h.mws_eq h1]
  · have hkn : known L (p ++ curr) = false := by
      rw [← h.sub_isSome (by simp [hcurr]), hsub, if_neg hp]; rfl
    rw [loop_skip hb hk hp, hkn]
    exact ⟨rest, rfl⟩

theorem not_prefix_of_head {k s : Str} (hk : k ≠ []) (h : k.head? ≠ s.head?) : ¬ k <+: s :=
  fun hp => h (Node.head_of_prefix hk hp)

/-- Walking inside a segment. -/
theorem walk (h : Rep n₀ L) {rest : List Str} (hI : IH n₀ L rest) (N : Nat) :
    ∀ curr : Str, curr.length < N → curr ≠ [] → ∀ p n, n₀.sub p = some n →
      ∀ params mws, Res n₀ L p params mws
        (if known L (p ++ curr) then fin L (p ++ curr) rest else none)
        (n.getNextNode (curr :: rest) params mws true) := by
  induction N with
  | zero => intro _ h; omega
  | succ N ih =>
    intro curr hlen hcurr p n hn params mws
    have hw := Node.WF_iff.1 (h.wf.sub hn)
    rw [getNextNode_eq]
    rcases hw.cases curr with hno | ⟨l₁, c, l₂, hcs, hc, hl1, hl2⟩
    · have : known L (p ++ curr) = false := by
        rw [← h.sub_isSome (by simp [hcurr]), Node.sub_append h.wf hn, Node.sub_ne hcurr,
          Node.subL_none hw.ne hno]; rfl
      rw [this, loop_rest_brk hw.ne (fun d hd => not_prefix_of_head (hw.ne d hd) (hno d hd))]
      exact ⟨rest, rfl⟩
    · have hne : ∀ d ∈ l₁ ++ c :: l₂, d.key ≠ [] := by rw [← hcs]; exact hw.ne
      have := one_child h hI (fun curr' hl => ih curr' (by omega)) hn hcs hc hl1 hl2 hcurr
        (brk := true) (by simp) params mws
      rw [hcs, loop_pre (fun d hd => hne d (by simp [hd])) (by simp)
        (fun d hd => not_prefix_of_head (hne d (by simp [hd])) (hl1 d hd))]
      cases ho : (if known L (p ++ curr) then fin L (p ++ curr) rest else none) with
      | some qb => rw [ho] at this; exact this
      | none =>
        rw [ho] at this
        obtain ⟨k, hk⟩ := this
        refine ⟨k, ?_⟩
        rw [hk]; simp only
        rw [loop_rest_brk (fun d hd => hne d (by simp [hd]))
          (fun d hd => not_prefix_of_head (hne d (by simp [hd])) (hl2 d hd))]

theorem noParam {cs : List (Node M H)} (hw : Node.WFL cs) (h : Node.pnL cs = none) :
    ∀ d ∈ cs, d.isParam = false := by
  cases cs with
  | nil => simp
  | cons c cs =>
    intro d hd
    rw [Node.WFL] at hw
    rcases List.mem_cons.1 hd with rfl | hd
    · cases hp : d.isParam with
      | false => rfl
      | true => simp [Node.pnL, hp] at h
    · exact hw.2.2.2.2.2.1 d hd

theorem star_last {l₁ l₂ : List (Node M H)} {c : Node M H} (hw : Node.WFL (l₁ ++ c :: l₂)) :
    ∀ d ∈ l₁, d.key ≠ ['*'] := by
  induction l₁ with
  | nil => simp
  | cons a l ih =>
    rw [List.cons_append] at hw
    intro d hd
    rcases List.mem_cons.1 hd with rfl | hd
    · intro hs
      rw [Node.WFL] at hw
      have := hw.2.2.2.2.1 hs
      simp at this
    · exact ih hw.tail d hd

theorem keyOK_star {k : Str} (h : KeyOK k) (hh : k.head? = some '*') : k = ['*'] := by
  rcases h with ⟨x, rfl, _⟩ | h | ⟨h1, h2, h3⟩
  · simp at hh
  · exact h
  · cases k with
    | nil => simp at hh
    | cons a k => simp at hh; simp [hh] at h3

theorem static_res (h : Rep n₀ L) {rest : List Str} (hI : IH n₀ L rest) {curr : Str}
    (hcurr : curr ≠ []) {p : Str} {n : Node M H} (hn : n₀.sub p = some n) (hp : n.pn = none)
    (params : HMap Str Str) (mws : List M) :
    Res n₀ L p params mws
      (match (if curr.head? ≠ some '*' ∧ known L (p ++ curr) then fin L (p ++ curr) rest
          else none) with
        | some r => some r
        | none => if known L (p ++ ['*']) then some (p ++ ['*'], []) else none)
      (n.getNextNode (curr :: rest) params mws false) := by
  have hw := Node.WF_iff.1 (h.wf.sub hn)
  have hpar := noParam hw hp
  have hst := h.starAt hn
  have hks := h.sub_isSome (q := p ++ ['*']) (by simp)
  rw [getNextNode_eq]
  -- the end of the loop
  have hend : ∀ l key, (∃ l', n.children = l' ++ l) → star l = star n.children →
      (∀ d ∈ l, d.key = ['*'] ∨ ¬ d.key <+: curr) →
      Res n₀ L p params mws (if known L (p ++ ['*']) then some (p ++ ['*'], []) else none)
        (Node.getNextLoop l curr key params mws false) := by
    rintro l key ⟨l', hl'⟩ hsl hl
    have hmem : ∀ d ∈ l, d ∈ n.children := fun d hd => by rw [hl']; simp [hd]
    rw [loop_rest hcurr (fun d hd => hw.ne d (hmem d hd)) (fun d hd => hpar d (hmem d hd)) hl, hsl]
    rw [← hst] at hks
    cases hs : star n.children with
    | none =>
      rw [hs] at hks
      rw [← hks]
      exact ⟨key, rfl⟩
    | some c =>
      rw [hs] at hks hst
      rw [← hks]
      obtain ⟨hc, hck⟩ := star_mem hs
      have h2 := (h.child hn hc).2
      rw [hck] at h2
      refine ⟨['*'], c, rfl, hst.symm, ?_⟩
      simp [bind, h2, h.mws_eq hst.symm]
  by_cases hstar : curr.head? = some '*'
  · rw [if_neg (by simp [hstar])]
    refine hend n.children rest ⟨[], rfl⟩ rfl ?_
    intro d hd
    by_cases e : d.key.head? = some '*'
    · exact Or.inl (keyOK_star (hw.keyOK hd) e)
    · exact Or.inr (not_prefix_of_head (hw.ne d hd) (by rw [hstar]; exact e))
  · rcases hw.cases curr with hno | ⟨l₁, c, l₂, hcs, hc, hl1, hl2⟩
    · have : known L (p ++ curr) = false := by
        rw [← h.sub_isSome (by simp [hcurr]), Node.sub_append h.wf hn, Node.sub_ne hcurr,
          Node.subL_none hw.ne hno]; rfl
      rw [if_neg (by simp [this])]
      exact hend n.children rest ⟨[], rfl⟩ rfl
        (fun d hd => Or.inr (not_prefix_of_head (hw.ne d hd) (hno d hd)))
    · have hne : ∀ d ∈ l₁ ++ c :: l₂, d.key ≠ [] := by rw [← hcs]; exact hw.ne
      have hcstar : c.key ≠ ['*'] := fun e => hstar (by rw [← hc, e]; rfl)
      have h1star : ∀ d ∈ l₁, d.key ≠ ['*'] := star_last (by rw [← hcs]; exact hw)
      have hmem : ∀ d ∈ l₁ ++ c :: l₂, d.isParam = false := by rw [← hcs]; exact hpar
      have := one_child h hI (fun curr' hl => walk h hI curr.length curr' hl) hn hcs hc hl1 hl2 hcurr
        (brk := false) (fun _ => ⟨hmem c (by simp), hcstar⟩) params mws
      have hpre := loop_pre (l₂ := c :: l₂) (brk := false) (fun d hd => hne d (by simp [hd]))
        (fun _ d hd => ⟨hmem d (by simp [hd]), h1star d hd⟩)
        (fun d hd => not_prefix_of_head (hne d (by simp [hd])) (hl1 d hd)) rest params mws
      have hif : (if curr.head? ≠ some '*' ∧ known L (p ++ curr) then fin L (p ++ curr) rest
          else none) = if known L (p ++ curr) then fin L (p ++ curr) rest else none := by
        simp [hstar]
      rw [hif]
      rw [hcs, hpre]
      cases ho : (if known L (p ++ curr) then fin L (p ++ curr) rest else none) with
      | some qb => rw [ho] at this; exact this
      | none =>
        rw [ho] at this
        obtain ⟨k, hk⟩ := this
        rw [hk]
        refine hend l₂ k ⟨l₁ ++ [c], by simp [hcs]⟩ ?_
          (fun d hd => Or.inr (not_prefix_of_head (hne d (by simp [hd])) (hl2 d hd)))
        rw [hcs, star, star, List.find?_append]
        have : List.find? (fun c : Node M H => decide (c.key = ['*'])) l₁ = none := by
          rw [List.find?_eq_none]; intro d hd; simpa using h1star d hd
        rw [this]
        simp [hcstar]

theorem param_child {n : Node M H} {x : Str} (hw : n.WF) (h : n.pn = some x) :
    ∃ c, n.children = [c] ∧ c.key = ':' :: x := by
  rw [Node.WF_iff] at hw
  rw [Node.pn] at h
  cases hc : n.children with
  | nil => rw [hc] at h; simp [Node.pnL] at h
  | cons c cs =>
    rw [hc] at h hw
    rw [Node.WFL] at hw
    cases hp : c.isParam with
    | false => simp [Node.pnL, hp] at h
    | true =>
      refine ⟨c, by rw [hw.2.2.2.1 hp], ?_⟩
      simp [Node.pnL, hp] at h
      rw [← h]
      cases hk : c.key with
      | nil => exact absurd hk hw.1.ne_nil
      | cons a k =>
        have : a = ':' := by simpa [Node.isParam, Node.startsColon, hk] using hp
        rw [this]; rfl

/-- The search for a non-empty list of segments. -/
theorem search_res (h : Rep n₀ L) (segs : List Str) (hne : ∀ s ∈ segs, s ≠ []) : IH n₀ L segs := by
  induction segs with
  | nil => intro h; exact absurd rfl h
  | cons s rest ih =>
    intro _ p n hn params mws
    have hI := ih (fun x hx => hne x (by simp [hx]))
    have hs : s ≠ [] := hne s (by simp)
    have hpe := h.paramAt hn
    cases hp : n.pn with
    | none =>
      rw [find, ← hpe, hp]
      exact static_res h hI hs hn hp params mws
    | some x =>
      rw [find, ← hpe, hp]
      obtain ⟨c, hc, hk⟩ := param_child (h.wf.sub hn) hp
      have hcm : c ∈ n.children := by rw [hc]; simp
      obtain ⟨h1, h2⟩ := h.child hn hcm
      rw [hk] at h1 h2
      have hv := (h.at h1).1
      have hm := h.mws_eq h1
      have hpar : c.isParam = true := by simp [Node.isParam, Node.startsColon, hk]
      have hsl : sliceFrom c.key 1 = some x := by
        rw [hk]; exact sliceFrom_append [':'] x
      rw [getNextNode_eq, hc, Node.getNextLoop]
      simp only [hpar, Bool.not_false, Bool.and_self, if_true, hsl]
      split
      · split
        · next he =>
          cases hv' : c.value with
          | none => rw [hv'] at hv; simp [ValOK, he] at hv
          | some v =>
            rw [Node.mws, hv'] at hm
            refine ⟨':' :: x, c, rfl, h1, ?_⟩
            simp only at hm
            simp [bind, h2, hm]
        · next he =>
          cases hv' : c.value with
          | some v => rw [hv'] at hv; simp [ValOK, he] at hv
          | none => exact ⟨rest, by simp [Node.getNextLoop]⟩
      · next hr =>
        have hI := hI (by simpa using hr) _ _ h1 params mws
        cases hf : find L (p ++ ':' :: x) rest with
        | none =>
          rw [hf] at hI
          obtain ⟨k, hk⟩ := hI
          exact ⟨k, by rw [hk]; simp [Node.getNextLoop]⟩
        | some qb =>
          obtain ⟨q, b⟩ := qb
          rw [hf] at hI
          obtain ⟨t, node, h3, h4, h5⟩ := hI
          refine ⟨(':' :: x) ++ t, node, by rw [h3]; simp, h4, ?_⟩
          rw [h5]
          have : upTo L p ((':' :: x) ++ t) = upTo L (p ++ ':' :: x) t ++ upTo L p (':' :: x) :=
            upTo_append L p (':' :: x) t
          rw [this]
          simp [bind, h2, hm]

theorem bind_get (params : HMap Str Str) (b : List (Str × Str)) (x : Str) :
    (bind params b).get x = (b.lookup x).or (params.get x) := by
  induction b with
  | nil => simp [bind]
  | cons a b ih =>
    obtain ⟨y, v⟩ := a
    have : bind params ((y, v) :: b) = (bind params b).insert y v := rfl
    rw [this, HMap.get_insert, List.lookup_cons, ih]
    by_cases e : x = y
    · subst e; simp
    · have : (x == y) = false := by simpa using e
      rw [this, if_neg (by first | exact e | exact fun h => e h.symm)]

/-- **Refinement**: the lookup in a tree that represents a log is the lookup in the log. -/
theorem Rep.search {r : Router M H} (h : Rep r.routes.head L) (path : Str) :
    match lookup L path with
    | none => r.searchRoute path = .ok none
    | some (q, b) => ∃ v, r.searchRoute path = .ok (some v) ∧ Agrees L q b v := by
  have hfin : ∀ q node b, r.routes.head.sub q = some node →
      (hasEntry L q = false → RouteTrie.finish node (bind HMap.empty b) (chain L q) = none) ∧
      (hasEntry L q = true → ∃ v, RouteTrie.finish node (bind HMap.empty b) (chain L q) = some v ∧
          Agrees L q b v) := by
    intro q node b hq
    have hv := (h.at hq).1
    refine ⟨fun he => ?_, fun he => ?_⟩
    · have : node.value = none := by
        have := hv.1; rw [he] at this; simpa using this
      simp [RouteTrie.finish, this]
    · have h1 := hv.1; rw [he] at h1
      obtain ⟨v, hv'⟩ := Option.isSome_iff_exists.1 h1
      refine ⟨⟨⟨chain L q, v.route⟩, bind HMap.empty b⟩, by simp [RouteTrie.finish, hv'], rfl,
        (hv.2 v hv').2.1, ?_⟩
      intro x
      rw [RouteValueResult.getParams, bind_get]; simp
  have hmws : r.routes.head.mws = mwsAt L [] := h.mws_eq (q := []) (by simp)
  rw [lookup, Router.searchRoute, RouteTrie.searchRoute, segs_eq]
  by_cases h0 : segments path = []
  · simp only [h0, if_true]
    have := hfin [] r.routes.head [] (by simp)
    rw [show chain L [] = r.routes.head.mws from by simp [chain, upTo, hmws]] at this
    cases he : hasEntry L [] with
    | false => simpa [bind] using this.1 he
    | true => simpa [bind] using this.2 he
  · simp only [h0, if_false]
    have := search_res h (segments path) (segments_ne path) h0 [] r.routes.head (by simp)
      HMap.empty r.routes.head.mws
    cases hf : find L [] (segments path) with
    | none =>
      rw [hf] at this
      obtain ⟨k, hk⟩ := this
      simp [hk]
    | some qb =>
      obtain ⟨q, b⟩ := qb
      rw [hf] at this
      obtain ⟨t, node, h1, h2, h3⟩ := this
      rw [h3]
      simp at h1; subst h1
      have := hfin q node b h2
      rw [hmws]
      have hch : mwsAt L [] ++ upTo L [] q = chain L q := rfl
      rw [hch]
      cases he : hasEntry L q with
      | false => simpa [he] using this.1 he
      | true => simpa [he] using this.2 he

end main
end Obsidian.Spec
