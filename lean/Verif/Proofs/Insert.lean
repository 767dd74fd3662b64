import Verif.Proofs.View

/- What inserting one segment does to a well-formed tree. -/
namespace Obsidian

theorem lcp_diverge (s : Str) {a b : Char} (t u : Str) (h : a ≠ b) :
    lcp (s ++ b :: t) (s ++ a :: u) = s := by
  induction s with
  | nil => simp [lcp, h]
  | cons c s ih => simp [lcp, ih]

theorem KeyOK.star {k : Str} (h : KeyOK k) (hh : k.head? = some '*') : k = ['*'] := by
  rcases h with ⟨x, rfl, _⟩ | rfl | ⟨h1, h2, h3⟩
  · simp at hh
  · rfl
  · cases k with
    | nil => simp at hh
    | cons a k => simp at hh h3; exact absurd hh.symm h3.1

theorem startsColon_iff {k : Str} : Node.startsColon k = true ↔ k.head? = some ':' := by
  cases k with
  | nil => simp [Node.startsColon]
  | cons a k => simp [Node.startsColon]

theorem startsColon_false_iff {k : Str} : Node.startsColon k = false ↔ k.head? ≠ some ':' := by
  rw [Ne, ← startsColon_iff]; simp

/-- A static key: no `:`, no `*`. -/
def StaticKey (k : Str) : Prop := k ≠ [] ∧ ':' ∉ k ∧ '*' ∉ k

theorem KeyOK.static {k : Str} (h : KeyOK k) (h1 : k.head? ≠ some ':') (h2 : k ≠ ['*']) :
    StaticKey k := by
  rcases h with ⟨x, rfl, _⟩ | rfl | h
  · simp at h1
  · simp at h2
  · exact h

theorem StaticKey.keyOK {k : Str} (h : StaticKey k) : KeyOK k := Or.inr (Or.inr h)

theorem StaticKey.head {k : Str} (h : StaticKey k) : k.head? ≠ some ':' ∧ k ≠ ['*'] := by
  obtain ⟨h1, h2, h3⟩ := h
  cases k with
  | nil => simp at h1
  | cons a k =>
    constructor
    · simp; rintro rfl; simp at h2
    · intro e; rw [e] at h3; simp at h3

theorem StaticKey.left {s t : Str} (h : StaticKey (s ++ t)) (hs : s ≠ []) : StaticKey s :=
  ⟨hs, fun x => h.2.1 (by simp [x]), fun x => h.2.2 (by simp [x])⟩

theorem StaticKey.right {s t : Str} (h : StaticKey (s ++ t)) (hs : t ≠ []) : StaticKey t :=
  ⟨hs, fun x => h.2.1 (by simp [x]), fun x => h.2.2 (by simp [x])⟩

namespace Node
variable {M H : Type}

@[simp] theorem view_nil (n : Node M H) : n.view [] = some (n.value, n.pn) := by simp [view]

theorem view_mid {k v} {l₁ l₂ : List (Node M H)} {c : Node M H} {s : Str}
    (hk : ∀ d ∈ l₁ ++ c :: l₂, d.key ≠ []) (hs : s ≠ [])
    (h1 : ∀ d ∈ l₁, d.key.head? ≠ s.head?) (h2 : ∀ d ∈ l₂, d.key.head? ≠ s.head?) :
    (mk k v (l₁ ++ c :: l₂)).view s =
      if c.key <+: s then c.view (s.drop c.key.length) else none := by
  rw [view, sub_ne hs, children, subL_mid hk h1 h2]
  split <;> simp [view]

theorem view_none {k v} {cs : List (Node M H)} {s : Str} (hk : ∀ d ∈ cs, d.key ≠ []) (hs : s ≠ [])
    (h : ∀ d ∈ cs, d.key.head? ≠ s.head?) : (mk k v cs).view s = none := by
  rw [view, sub_ne hs, children, subL_none hk h]; rfl

theorem subL_other {l₁ l₂ : List (Node M H)} {c : Node M H} {s : Str} (hk : c.key ≠ [])
    (h : c.key.head? ≠ s.head?) : subL (l₁ ++ c :: l₂) s = subL (l₁ ++ l₂) s := by
  induction l₁ with
  | nil => simp [subL_skip hk h]
  | cons d l₁ ih => simp only [List.cons_append, subL, ih]

theorem view_other {k v} {l₁ l₂ : List (Node M H)} {c : Node M H} {s : Str} (hk : c.key ≠ [])
    (hs : s ≠ []) (h : c.key.head? ≠ s.head?) :
    (mk k v (l₁ ++ c :: l₂)).view s = (mk k v (l₁ ++ l₂)).view s := by
  rw [view, sub_ne hs, view, sub_ne hs, children, children, subL_other hk h]

/-- `s` is a new node position created by splitting an existing edge when `key` is inserted. -/
def Branch (n : Node M H) (key s : Str) : Prop :=
  s ≠ [] ∧ ∃ a b u t, key = s ++ a :: u ∧ a ≠ b ∧ (n.view (s ++ b :: t)).isSome

/-- Inserting the segment `key` below `n` is ambiguous. -/
def AmbSeg (n : Node M H) (key : Str) : Prop :=
  if startsColon key then (∃ r, r ≠ [] ∧ (n.view r).isSome) ∧ n.pn ≠ some key.tail
  else ∃ w u v x, key = w ++ u ∧ u ≠ [] ∧ n.view w = some (v, some x)

/-- `tgt` is the node reached by inserting `key` below `n`. -/
structure Target (n : Node M H) (key : Str) (tgt : Node M H) : Prop where
  wf : tgt.WF
  ext : ∀ r, r ≠ [] → tgt.view r = n.view (key ++ r)
  root : tgt.view [] = some ((n.view key).getD (none, none))

/-- `n'` is `n` after inserting `key` with the reached node replaced by `m`. -/
structure Inserted (n : Node M H) (key : Str) (m n' : Node M H) : Prop where
  wf : n'.WF
  keyEq : n'.key = n.key
  valueEq : n'.value = n.value
  below : ∀ r, n'.view (key ++ r) = m.view r
  pnEq : n'.pn = if startsColon key then some key.tail else n.pn
  keep : ∀ s v, ¬ key <+: s → s ≠ [] → n.view s = some v → n'.view s = some v
  split : ∀ s, ¬ key <+: s → s ≠ [] → n.view s = none → Branch n key s →
    n'.view s = some (none, none)
  absent : ∀ s, ¬ key <+: s → s ≠ [] → n.view s = none → ¬ Branch n key s → n'.view s = none

/-! ### The insertion action -/

theorem insertionActionFrom_skip {key : Str} (hkey : key ≠ []) (hc : startsColon key = false)
    {l₁ r : List (Node M H)} (i : Nat)
    (h : ∀ d ∈ l₁, d.isParam = false ∧ d.key ≠ [] ∧ d.key.head? ≠ key.head?) :
    insertionActionFrom key (l₁ ++ r) i = insertionActionFrom key r (i + l₁.length) := by
  induction l₁ generalizing i with
  | nil => simp
  | cons d l₁ ih =>
    obtain ⟨hp, hk, hh⟩ := h d (by simp)
    have hl := (lcp_eq_nil hk hkey).2 hh
    have e0 : byteLen (lcp d.key key) = 0 := by rw [hl]; rfl
    have hk' : byteLen d.key ≠ 0 := fun e => hk (byteLen_eq_zero.1 e)
    rw [List.cons_append, insertionActionFrom]
    simp only [hp, hc, Bool.or_self, Bool.false_eq_true, if_false, matchCount_eq, e0]
    rw [if_neg (by omega), if_neg (by omega), if_neg (by omega), ih _ (fun x hx => h x (by simp [hx]))]
    congr 1; simp; omega

theorem modifyChild_mid (f : Node M H → Out (Node M H)) (l₁ l₂ : List (Node M H)) (c : Node M H) :
    modifyChild f (l₁ ++ c :: l₂) l₁.length = (l₁ ++ (f c).1 :: l₂, (f c).2) := by
  induction l₁ with
  | nil => simp [modifyChild]
  | cons d l₁ ih => simp [modifyChild, ih]

theorem processInsertionAt_mid (path : Str) (f : Node M H → Out (Node M H))
    (l₁ l₂ : List (Node M H)) (c : Node M H) (key : Str) :
    processInsertionAt path (l₁ ++ c :: l₂) l₁.length key f =
      (l₁ ++ (processInsertion path c key f).1 :: l₂, (processInsertion path c key f).2) := by
  induction l₁ with
  | nil => simp [processInsertionAt]
  | cons d l₁ ih => simp [processInsertionAt, ih]

/-- The insertion of a segment is accepted, and does what `Target` and `Inserted` say. -/
def InsOK (path : Str) (n : Node M H) (key : Str) : Prop :=
  ∃ tgt, Target n key tgt ∧ ∀ f : Node M H → Out (Node M H), (f tgt).1.key = tgt.key →
    (processInsertion path n key f).2 = (f tgt).2 ∧
    ((f tgt).1.WF → Inserted n key (f tgt).1 (processInsertion path n key f).1)

@[simp] theorem key_mk (k : Str) (v) (cs : List (Node M H)) : (mk k v cs).key = k := rfl
@[simp] theorem value_mk (k : Str) (v) (cs : List (Node M H)) : (mk k v cs).value = v := rfl
@[simp] theorem children_mk (k : Str) (v) (cs : List (Node M H)) : (mk k v cs).children = cs := rfl
@[simp] theorem pn_mk (k : Str) (v) (cs : List (Node M H)) : (mk k v cs).pn = pnL cs := rfl
@[simp] theorem WF_mk (k : Str) (v) (cs : List (Node M H)) : (mk k v cs).WF ↔ WFL cs := by
  simp [WF]

theorem isParam_iff {c : Node M H} : c.isParam = true ↔ c.key.head? = some ':' := startsColon_iff
theorem isParam_false_iff {c : Node M H} : c.isParam = false ↔ c.key.head? ≠ some ':' :=
  startsColon_false_iff

theorem isParam_congr {c c' : Node M H} (h : c'.key.head? = c.key.head?) :
    c'.isParam = c.isParam := by
  rw [Bool.eq_iff_iff, isParam_iff, isParam_iff, h]

theorem pnL_none_of {cs : List (Node M H)} (h : ∀ d ∈ cs, d.isParam = false) : pnL cs = none := by
  cases cs with
  | nil => rfl
  | cons c cs => simp [pnL, h c (by simp)]

/-- No parameter child. -/
theorem WFL.noParam {cs : List (Node M H)} (h : WFL cs) (hp : pnL cs = none) :
    ∀ d ∈ cs, d.isParam = false := by
  cases cs with
  | nil => simp
  | cons c cs =>
    rw [WFL] at h
    intro d hd
    rcases List.mem_cons.1 hd with rfl | hd
    · simp only [pnL] at hp
      cases e : d.isParam with
      | false => rfl
      | true => simp [e] at hp
    · exact h.2.2.2.2.2.1 d hd

/-- A parameter child is an only child. -/
theorem WFL.param {cs : List (Node M H)} (h : WFL cs) {x : Str} (hp : pnL cs = some x) :
    ∃ c, cs = [c] ∧ c.key = ':' :: x := by
  cases cs with
  | nil => simp [pnL] at hp
  | cons c cs =>
    rw [WFL] at h
    simp only [pnL] at hp
    split at hp
    · next e =>
      refine ⟨c, by simp [h.2.2.2.1 e], ?_⟩
      have := isParam_iff.1 e
      cases hk : c.key with
      | nil => simp [hk] at this
      | cons a k => simp [hk] at this hp; simp [this, hp]
    · simp at hp

theorem pnL_replace {l₁ l₂ : List (Node M H)} {c c' : Node M H} (h : c'.isParam = c.isParam)
    (ht : c.isParam = true → c'.key = c.key) : pnL (l₁ ++ c' :: l₂) = pnL (l₁ ++ c :: l₂) := by
  cases l₁ with
  | nil => simp only [List.nil_append, pnL, h]; split
           · next e => rw [ht e]
           · rfl
  | cons d l₁ => rfl

theorem prefix_drop {k s : Str} (h : k <+: s) : k ++ s.drop k.length = s := by
  obtain ⟨t, rfl⟩ := h; simp

theorem view_mid_append {k v} {l₁ l₂ : List (Node M H)} {c : Node M H} (r : Str)
    (hk : ∀ d ∈ l₁ ++ c :: l₂, d.key ≠ [])
    (h1 : ∀ d ∈ l₁, d.key.head? ≠ c.key.head?) (h2 : ∀ d ∈ l₂, d.key.head? ≠ c.key.head?) :
    (mk k v (l₁ ++ c :: l₂)).view (c.key ++ r) = c.view r := by
  have hc : c.key ≠ [] := hk c (by simp)
  have hh : (c.key ++ r).head? = c.key.head? := (head_of_prefix hc (by simp)).symm
  rw [view_mid hk (by simp [hc]) (by rw [hh]; exact h1) (by rw [hh]; exact h2)]
  simp

/-- Case: an existing child has exactly the inserted key. -/
theorem insOK_next {path : Str} {k v} {l₁ l₂ : List (Node M H)} {c : Node M H}
    (hw : WFL (l₁ ++ c :: l₂))
    (h1 : ∀ d ∈ l₁, d.key.head? ≠ c.key.head?) (h2 : ∀ d ∈ l₂, d.key.head? ≠ c.key.head?)
    (hp : startsColon c.key = true → pnL (l₁ ++ c :: l₂) = some c.key.tail)
    (ha : insertionAction (l₁ ++ c :: l₂) c.key = .nextNode l₁.length) :
    InsOK path (mk k v (l₁ ++ c :: l₂)) c.key := by
  have hc : KeyOK c.key := hw.keyOK (by simp)
  refine ⟨c, ⟨hw.wf (by simp), ?_, ?_⟩, ?_⟩
  · intro r _; rw [view_mid_append r hw.ne h1 h2]
  · have := view_mid_append (k := k) (v := v) [] hw.ne h1 h2
    rw [List.append_nil] at this; rw [this]; simp
  · intro f hf
    have e : processInsertion path (mk k v (l₁ ++ c :: l₂)) c.key f =
        (mk k v (l₁ ++ (f c).1 :: l₂), (f c).2) := by
      simp only [processInsertion, ha, modifyChild_mid]
    rw [e]
    refine ⟨rfl, fun hwf => ?_⟩
    have hw' : WFL (l₁ ++ (f c).1 :: l₂) :=
      hw.replace (by rw [hf]; exact hc) hwf (by rw [hf]) (isParam_congr (by rw [hf]))
        (by rw [hf]; exact id)
    have hsame : ∀ s, ¬ c.key <+: s → s ≠ [] →
        (mk k v (l₁ ++ (f c).1 :: l₂)).view s = (mk k v (l₁ ++ c :: l₂)).view s := by
      intro s hs hs0
      by_cases hh : s.head? = c.key.head?
      · rw [view_mid hw.ne hs0 (by rw [hh]; exact h1) (by rw [hh]; exact h2),
          view_mid hw'.ne hs0 (by rw [hh]; exact h1) (by rw [hh]; exact h2), hf,
          if_neg hs, if_neg hs]
      · rw [view_other hc.ne_nil hs0 (fun x => hh x.symm),
          view_other (by rw [hf]; exact hc.ne_nil) hs0 (by rw [hf]; exact fun x => hh x.symm)]
    refine ⟨by simpa using hw', rfl, rfl, ?_, ?_, ?_, ?_, ?_⟩
    · intro r
      have := view_mid_append (k := k) (v := v) r hw'.ne (by rw [hf]; exact h1) (by rw [hf]; exact h2)
      rw [hf] at this; exact this
    · rw [pn_mk, pn_mk, pnL_replace (isParam_congr (by rw [hf])) (fun _ => hf)]
      split
      · next e => exact hp e
      · rfl
    · intro s v' hs hs0 hv; rw [hsame s hs hs0, hv]
    · intro s hs hs0 hv ⟨_, a, b, u, t, hk, hab, hvs⟩
      exfalso
      have hss : (s ++ b :: t).head? = c.key.head? := by
        rw [hk]; cases s with
        | nil => exact absurd rfl hs0
        | cons => simp
      rw [view_mid hw.ne (by simp) (by rw [hss]; exact h1) (by rw [hss]; exact h2)] at hvs
      split at hvs
      · next hpre =>
        rw [hk] at hpre
        simp at hpre; exact hab hpre.1
      · simp at hvs
    · intro s hs hs0 hv _; rw [hsame s hs hs0, hv]

theorem WFL.snocStar {cs : List (Node M H)} {c : Node M H} (h : WFL cs) (hk : c.key = ['*'])
    (hw : WF c) (hp : ∀ d ∈ cs, d.isParam = false) (hh : ∀ d ∈ cs, d.key.head? ≠ c.key.head?) :
    WFL (cs ++ [c]) := by
  induction cs with
  | nil =>
    simp only [List.nil_append, WFL]
    exact ⟨by rw [hk]; exact Or.inr (Or.inl rfl), hw, by simp, by simp, by simp, by simp, trivial⟩
  | cons d cs ih =>
    simp only [List.cons_append, WFL] at h ⊢
    obtain ⟨h1, h2, h3, h4, h5, h6, h7⟩ := h
    have hd := hp d (by simp)
    refine ⟨h1, h2, ?_, by simp [hd], ?_, ?_,
      ih h7 (fun x hx => hp x (by simp [hx])) (fun x hx => hh x (by simp [hx]))⟩
    · intro x hx
      rcases List.mem_append.1 hx with hx | hx
      · exact h3 x hx
      · rw [List.mem_singleton] at hx; subst hx; exact (hh d (by simp)).symm
    · intro e; exfalso; exact hh d (by simp) (by rw [e, hk])
    · intro x hx
      rcases List.mem_append.1 hx with hx | hx
      · exact h6 x hx
      · rw [List.mem_singleton] at hx; subst hx
        rw [isParam_false_iff, hk]; simp

/-- Case: a new child is created. -/
theorem insOK_create {path : Str} {k v} {l₁ l₂ : List (Node M H)} {key : Str} (hkey : KeyOK key)
    (hw : WFL (l₁ ++ l₂)) (hh : ∀ d ∈ l₁ ++ l₂, d.key.head? ≠ key.head?)
    (hw' : ∀ n' : Node M H, n'.key = key → n'.WF → WFL (l₁ ++ n' :: l₂))
    (hp : ∀ n' : Node M H, n'.key = key →
      pnL (l₁ ++ n' :: l₂) = if startsColon key then some key.tail else pnL (l₁ ++ l₂))
    (ha : ∀ f : Node M H → Out (Node M H), processInsertion path (mk k v (l₁ ++ l₂)) key f =
      (mk k v (l₁ ++ (f (Node.new key none)).1 :: l₂), (f (Node.new key none)).2)) :
    InsOK path (mk k v (l₁ ++ l₂)) key := by
  have hview : ∀ s, s.head? = key.head? → s ≠ [] → (mk k v (l₁ ++ l₂)).view s = none := by
    intro s hs hs0; exact view_none hw.ne hs0 (by rw [hs]; exact hh)
  have hkh : ∀ r, (key ++ r).head? = key.head? := by
    intro r; exact (head_of_prefix hkey.ne_nil (by simp)).symm
  refine ⟨Node.new key none, ⟨?_, ?_, ?_⟩, ?_⟩
  · simp [Node.new, WFL]
  · intro r hr
    rw [hview _ (hkh r) (by simp [hkey.ne_nil])]
    exact view_none (by simp) hr (by simp)
  · rw [hview key rfl hkey.ne_nil]; simp [Node.new, pnL]
  · intro f hf
    rw [ha f]
    refine ⟨rfl, fun hwf => ?_⟩
    have hf : (f (Node.new key none)).1.key = key := hf
    generalize (f (Node.new key none)).1 = n' at *
    have hw' := hw' n' hf hwf
    have h1 : ∀ d ∈ l₁, d.key.head? ≠ n'.key.head? := by
      rw [hf]; exact fun d hd => hh d (by simp [hd])
    have h2 : ∀ d ∈ l₂, d.key.head? ≠ n'.key.head? := by
      rw [hf]; exact fun d hd => hh d (by simp [hd])
    have hsame : ∀ s, ¬ key <+: s → s ≠ [] →
        (mk k v (l₁ ++ n' :: l₂)).view s = (mk k v (l₁ ++ l₂)).view s := by
      intro s hs hs0
      by_cases e : s.head? = key.head?
      · rw [hview s e hs0, view_mid hw'.ne hs0 (by rw [e, ← hf]; exact h1)
          (by rw [e, ← hf]; exact h2), hf, if_neg hs]
      · exact view_other (by rw [hf]; exact hkey.ne_nil) hs0 (by rw [hf]; exact fun x => e x.symm)
    refine ⟨by simpa using hw', rfl, rfl, ?_, by simpa using hp n' hf, ?_, ?_, ?_⟩
    · intro r
      have := view_mid_append (k := k) (v := v) r hw'.ne h1 h2
      rw [hf] at this; exact this
    · intro s v' hs hs0 hv; rw [hsame s hs hs0, hv]
    · intro s hs hs0 hv ⟨_, a, b, u, t, hk, hab, hvs⟩
      exfalso
      rw [hview (s ++ b :: t) ?_ (by simp)] at hvs
      · simp at hvs
      · rw [hk]; cases s with
        | nil => exact absurd rfl hs0
        | cons => simp
    · intro s hs hs0 hv _; rw [hsame s hs hs0, hv]

/-- Case: the inserted key goes on below a child whose key is a prefix of it. -/
theorem insOK_splitKey {path : Str} {k v} {l₁ l₂ : List (Node M H)} {c : Node M H} {key' : Str}
    (hw : WFL (l₁ ++ c :: l₂))
    (h1 : ∀ d ∈ l₁, d.key.head? ≠ c.key.head?) (h2 : ∀ d ∈ l₂, d.key.head? ≠ c.key.head?)
    (hstat : StaticKey (c.key ++ key')) (hk' : key' ≠ [])
    (ha : insertionAction (l₁ ++ c :: l₂) (c.key ++ key') = .splitKey (byteLen c.key) l₁.length)
    (ih : InsOK path c key') :
    InsOK path (mk k v (l₁ ++ c :: l₂)) (c.key ++ key') := by
  have hc : KeyOK c.key := hw.keyOK (by simp)
  have hks := hstat.right hk'
  have hkc : startsColon key' = false := startsColon_false_iff.2 hks.head.1
  have hkc' : startsColon (c.key ++ key') = false := startsColon_false_iff.2 hstat.head.1
  obtain ⟨tgt, ht, ih⟩ := ih
  have hv : ∀ r, (mk k v (l₁ ++ c :: l₂)).view (c.key ++ r) = c.view r :=
    fun r => view_mid_append r hw.ne h1 h2
  refine ⟨tgt, ⟨ht.wf, ?_, ?_⟩, ?_⟩
  · intro r hr; rw [ht.ext r hr, List.append_assoc, hv]
  · rw [ht.root, hv]
  · intro f hf
    have e : processInsertion path (mk k v (l₁ ++ c :: l₂)) (c.key ++ key') f =
        (mk k v (l₁ ++ (processInsertion path c key' f).1 :: l₂),
          (processInsertion path c key' f).2) := by
      rw [processInsertion, ha]
      simp only [sliceFrom_append, processInsertionAt_mid]
    rw [e]
    obtain ⟨ih1, ih2⟩ := ih f hf
    refine ⟨ih1, fun hwf => ?_⟩
    have I := ih2 hwf
    generalize (processInsertion path c key' f).1 = c' at *
    have hw' : WFL (l₁ ++ c' :: l₂) :=
      hw.replace (by rw [I.keyEq]; exact hc) I.wf (by rw [I.keyEq])
        (isParam_congr (by rw [I.keyEq])) (by rw [I.keyEq]; exact id)
    have hv' : ∀ r, (mk k v (l₁ ++ c' :: l₂)).view (c.key ++ r) = c'.view r := by
      intro r
      have := view_mid_append (k := k) (v := v) r hw'.ne (by rw [I.keyEq]; exact h1)
        (by rw [I.keyEq]; exact h2)
      rw [I.keyEq] at this; exact this
    -- away from `c` nothing changes
    have hsame : ∀ s, ¬ c.key <+: s → s ≠ [] →
        (mk k v (l₁ ++ c' :: l₂)).view s = (mk k v (l₁ ++ c :: l₂)).view s := by
      intro s hs hs0
      by_cases hh : s.head? = c.key.head?
      · rw [view_mid hw.ne hs0 (by rw [hh]; exact h1) (by rw [hh]; exact h2),
          view_mid hw'.ne hs0 (by rw [hh]; exact h1) (by rw [hh]; exact h2), I.keyEq,
          if_neg hs, if_neg hs]
      · rw [view_other hc.ne_nil hs0 (fun x => hh x.symm),
          view_other (by rw [I.keyEq]; exact hc.ne_nil) hs0
            (by rw [I.keyEq]; exact fun x => hh x.symm)]
    have hroot : c'.view [] = c.view [] := by
      rw [view_nil, view_nil, I.valueEq, I.pnEq, hkc]; rfl
    have hbr : ∀ s', s' ≠ [] → (Branch (mk k v (l₁ ++ c :: l₂)) (c.key ++ key') (c.key ++ s') ↔
        Branch c key' s') := by
      intro s' hs'
      constructor
      · rintro ⟨_, a, b, u, t, hk, hab, hvs⟩
        rw [List.append_assoc] at hk hvs
        rw [hv] at hvs
        exact ⟨hs', a, b, u, t, List.append_cancel_left hk, hab, hvs⟩
      · rintro ⟨_, a, b, u, t, hk, hab, hvs⟩
        refine ⟨by simp [hs'], a, b, u, t, by rw [hk, List.append_assoc], hab, ?_⟩
        rw [List.append_assoc, hv]; exact hvs
    refine ⟨by simpa using hw', rfl, rfl, ?_, ?_, ?_, ?_, ?_⟩
    · intro r; rw [List.append_assoc, hv', I.below]
    · rw [pn_mk, pn_mk, pnL_replace (isParam_congr (by rw [I.keyEq])) (fun _ => I.keyEq), hkc']; rfl
    · intro s v' hs hs0 hvs
      by_cases hcs : c.key <+: s
      · obtain ⟨s', rfl⟩ := hcs
        rw [hv] at hvs; rw [hv']
        by_cases hs' : s' = []
        · subst hs'; rw [hroot, hvs]
        · exact I.keep s' v' (fun hpre => hs ((List.prefix_append_right_inj _).2 hpre)) hs' hvs
      · rw [hsame s hcs hs0, hvs]
    · intro s hs hs0 hvs hb
      by_cases hcs : c.key <+: s
      · obtain ⟨s', rfl⟩ := hcs
        rw [hv] at hvs; rw [hv']
        by_cases hs' : s' = []
        · subst hs'; simp at hvs
        · exact I.split s' (fun hpre => hs ((List.prefix_append_right_inj _).2 hpre)) hs' hvs
            ((hbr s' hs').1 hb)
      · exfalso
        obtain ⟨_, a, b, u, t, hk, hab, hvs'⟩ := hb
        have hss : (s ++ b :: t).head? = c.key.head? := by
          have : (s ++ b :: t).head? = (s ++ a :: u).head? := by
            cases s with
            | nil => exact absurd rfl hs0
            | cons => simp
          rw [this, ← hk]; exact (head_of_prefix hc.ne_nil (by simp)).symm
        rw [view_mid hw.ne (by simp) (by rw [hss]; exact h1) (by rw [hss]; exact h2)] at hvs'
        split at hvs'
        · next hpre =>
          -- both `s ++ [a]` and `s ++ [b]` are prefixes of `c.key`
          have hpa : c.key <+: s ++ a :: u := by rw [← hk]; simp
          rcases List.prefix_or_prefix_of_prefix (List.prefix_append s (a :: u)) hpa with hsc | hsc
          · obtain ⟨q, hq⟩ := hsc
            rw [← hq] at hpa hpre
            cases q with
            | nil => simp at hq; exact hcs (hq ▸ List.prefix_rfl)
            | cons d q =>
              simp at hpa hpre
              exact hab (hpa.1.symm.trans hpre.1)
          · exact hcs hsc
        · simp at hvs'
    · intro s hs hs0 hvs hb
      by_cases hcs : c.key <+: s
      · obtain ⟨s', rfl⟩ := hcs
        rw [hv] at hvs; rw [hv']
        by_cases hs' : s' = []
        · subst hs'; simp at hvs
        · exact I.absent s' (fun hpre => hs ((List.prefix_append_right_inj _).2 hpre)) hs' hvs
            (fun h => hb ((hbr s' hs').2 h))
      · rw [hsame s hcs hs0, hvs]

theorem view_congr {n m : Node M H} (hv : n.value = m.value) (hc : n.children = m.children)
    (s : Str) : n.view s = m.view s := by
  cases n; cases m; simp at hv hc; subst hv hc
  cases s <;> simp [view, sub, pn]

theorem splitNode_eq {L ck nk : Str} (f : Node M H → Out (Node M H)) {c : Node M H}
    (hc : c.key = L ++ ck) :
    splitNode (byteLen L) (L ++ nk) f c =
      if nk = [] then f (mk L none [mk ck c.value c.children])
      else (mk L none [(f (Node.new nk none)).1, mk ck c.value c.children],
        (f (Node.new nk none)).2) := by
  rw [splitNode, hc, sliceFrom_append, sliceFrom_append, sliceTo_append]

/-- Case: the inserted key ends inside the key of a child. -/
theorem insOK_splitNodeEnd {path : Str} {k v} {l₁ l₂ : List (Node M H)} {c : Node M H} {L ck : Str}
    (hw : WFL (l₁ ++ c :: l₂))
    (h1 : ∀ d ∈ l₁, d.key.head? ≠ c.key.head?) (h2 : ∀ d ∈ l₂, d.key.head? ≠ c.key.head?)
    (hck : c.key = L ++ ck) (hck0 : ck ≠ []) (hL : L ≠ []) (hstat : StaticKey c.key)
    (ha : insertionAction (l₁ ++ c :: l₂) L = .splitNode (byteLen L) l₁.length) :
    InsOK path (mk k v (l₁ ++ c :: l₂)) L := by
  have hLs : StaticKey L := StaticKey.left (hck ▸ hstat) hL
  have hcs : StaticKey ck := StaticKey.right (hck ▸ hstat) hck0
  have hLh : L.head? = c.key.head? := head_of_prefix hL (by rw [hck]; simp)
  have hLc : startsColon L = false := startsColon_false_iff.2 hLs.head.1
  have hview : ∀ s, s ≠ [] → s.head? = c.key.head? → (mk k v (l₁ ++ c :: l₂)).view s =
      if c.key <+: s then c.view (s.drop c.key.length) else none := fun s h0 hs =>
    view_mid hw.ne h0 (by rw [hs]; exact h1) (by rw [hs]; exact h2)
  have hap : ∀ r, (L ++ r).head? = c.key.head? := fun r => by
    rw [← hLh]; exact (head_of_prefix hL (by simp)).symm
  have hnp : ∀ s, s <+: L → ¬ c.key <+: s := by
    intro s hs h
    have := (h.trans hs).length_le
    rw [hck, List.length_append] at this
    have : 0 < ck.length := List.length_pos_iff.2 hck0
    omega
  have hci : startsColon ck = false := startsColon_false_iff.2 hcs.head.1
  refine ⟨mk L none [mk ck c.value c.children], ⟨?_, ?_, ?_⟩, ?_⟩
  · simp only [WF_mk, WFL]
    refine ⟨hcs.keyOK, WF_iff.1 (hw.wf (by simp)), by simp, by simp, by simp,
      by simp, trivial⟩
  · intro r hr
    rw [hview (L ++ r) (by simp [hL]) (hap r)]
    have : (mk L none [mk ck c.value c.children]).view r =
        if ck <+: r then (mk ck c.value c.children).view (r.drop ck.length) else none := by
      rw [view, sub_ne hr, children, subL]; 
      by_cases hcr : ck <+: r
      · rw [if_pos (show (mk ck c.value c.children).key <+: r from hcr), if_pos hcr]; rfl
      · rw [if_neg (show ¬ (mk ck c.value c.children).key <+: r from hcr), if_neg hcr]; rfl
    rw [this, hck]
    by_cases hcr : ck <+: r
    · rw [if_pos hcr, if_pos ((List.prefix_append_right_inj _).2 hcr)]
      rw [view_congr (m := c) (by simp) (by simp)]; simp
    · rw [if_neg hcr, if_neg (fun h => hcr ((List.prefix_append_right_inj _).1 h))]
  · rw [hview L hL hLh, if_neg (hnp L List.prefix_rfl)]
    simp [pnL, isParam, hci]
  · intro f hf
    generalize hT : mk L none [mk ck c.value c.children] = T at *
    have e : processInsertion path (mk k v (l₁ ++ c :: l₂)) L f =
        (mk k v (l₁ ++ (f T).1 :: l₂), (f T).2) := by
      have := splitNode_eq (nk := []) f hck
      rw [List.append_nil, if_pos rfl, hT] at this
      simp only [processInsertion, ha, modifyChild_mid, this]
    rw [e]
    refine ⟨rfl, fun hwf => ?_⟩
    have hf : (f T).1.key = L := by rw [hf, ← hT]; rfl
    generalize (f T).1 = n' at *
    have hw' : WFL (l₁ ++ n' :: l₂) :=
      hw.replace (by rw [hf]; exact hLs.keyOK) hwf (by rw [hf]; exact hLh)
        (isParam_congr (by rw [hf]; exact hLh)) (by rw [hf]; exact fun x => absurd x hLs.head.2)
    have hsame : ∀ s, ¬ L <+: s → s ≠ [] →
        (mk k v (l₁ ++ n' :: l₂)).view s = (mk k v (l₁ ++ c :: l₂)).view s := by
      intro s hs hs0
      by_cases hh : s.head? = c.key.head?
      · rw [hview s hs0 hh, view_mid hw'.ne hs0 (by rw [hh]; exact h1) (by rw [hh]; exact h2), hf,
          if_neg hs, if_neg (fun h => hs ((by rw [hck]; simp : L <+: c.key).trans h))]
      · rw [view_other (hw.ne c (by simp)) hs0 (fun x => hh x.symm),
          view_other (by rw [hf]; exact hL) hs0 (by rw [hf, hLh]; exact fun x => hh x.symm)]
    refine ⟨by simpa using hw', rfl, rfl, ?_, ?_, ?_, ?_, ?_⟩
    · intro r
      have := view_mid_append (k := k) (v := v) r hw'.ne (by rw [hf, hLh]; exact h1)
        (by rw [hf, hLh]; exact h2)
      rw [hf] at this; exact this
    · rw [pn_mk, pn_mk, pnL_replace (c := c) (isParam_congr (by rw [hf]; exact hLh)) ?_, hLc]
      · rfl
      · intro hp; exact absurd (isParam_iff.1 hp) hstat.head.1
    · intro s v' hs hs0 hvs; rw [hsame s hs hs0, hvs]
    · rintro s hs hs0 hvs ⟨_, a, b, u, t, hk, hab, hvs'⟩
      exfalso
      have hh : (s ++ b :: t).head? = c.key.head? := by
        rw [← hLh, hk]; cases s with
        | nil => exact absurd rfl hs0
        | cons => simp
      rw [hview _ (by simp) hh] at hvs'
      split at hvs'
      · next hp =>
        rw [hck] at hp
        have := (List.prefix_append L ck).trans hp
        rw [hk] at this
        simp at this; exact hab this.1
      · simp at hvs'
    · intro s hs hs0 hvs _; rw [hsame s hs hs0, hvs]

/-- Case: the inserted key and the key of a child part ways. -/
theorem insOK_splitNodeFork {path : Str} {k v} {l₁ l₂ : List (Node M H)} {c : Node M H}
    {L : Str} {x y : Char} {ck nk : Str}
    (hw : WFL (l₁ ++ c :: l₂))
    (h1 : ∀ d ∈ l₁, d.key.head? ≠ c.key.head?) (h2 : ∀ d ∈ l₂, d.key.head? ≠ c.key.head?)
    (hck : c.key = L ++ x :: ck) (hL : L ≠ []) (hxy : y ≠ x) (hstat : StaticKey c.key)
    (hkey : StaticKey (L ++ y :: nk))
    (ha : insertionAction (l₁ ++ c :: l₂) (L ++ y :: nk) = .splitNode (byteLen L) l₁.length) :
    InsOK path (mk k v (l₁ ++ c :: l₂)) (L ++ y :: nk) := by
  have hLs : StaticKey L := StaticKey.left (hck ▸ hstat) hL
  have hcs : StaticKey (x :: ck) := StaticKey.right (hck ▸ hstat) (by simp)
  have hns : StaticKey (y :: nk) := StaticKey.right hkey (by simp)
  have hLh : L.head? = c.key.head? := head_of_prefix hL (by rw [hck]; simp)
  have hKc : startsColon (L ++ y :: nk) = false := startsColon_false_iff.2 hkey.head.1
  have hview : ∀ s, s ≠ [] → s.head? = c.key.head? → (mk k v (l₁ ++ c :: l₂)).view s =
      if c.key <+: s then c.view (s.drop c.key.length) else none := fun s h0 hs =>
    view_mid hw.ne h0 (by rw [hs]; exact h1) (by rw [hs]; exact h2)
  have hap : ∀ r, (L ++ r).head? = c.key.head? := fun r => by
    rw [← hLh]; exact (head_of_prefix hL (by simp)).symm
  have hnone : ∀ r, (mk k v (l₁ ++ c :: l₂)).view (L ++ y :: nk ++ r) = none := by
    intro r
    rw [List.append_assoc, hview _ (by simp [hL]) (hap _), if_neg]
    rw [hck, List.prefix_append_right_inj]; simp [hxy.symm]
  refine ⟨Node.new (y :: nk) none, ⟨by simp [Node.new, WFL], ?_, ?_⟩, ?_⟩
  · intro r hr; rw [hnone r]; exact view_none (by simp) hr (by simp)
  · have := hnone []; rw [List.append_nil] at this; rw [this]; simp [Node.new, pnL]
  · intro f hf
    generalize hT : Node.new (M := M) (H := H) (y :: nk) none = T at *
    have e : processInsertion path (mk k v (l₁ ++ c :: l₂)) (L ++ y :: nk) f =
        (mk k v (l₁ ++ mk L none [(f T).1, mk (x :: ck) c.value c.children] :: l₂), (f T).2) := by
      have := splitNode_eq (nk := y :: nk) f hck
      rw [if_neg (by simp), hT] at this
      simp only [processInsertion, ha, modifyChild_mid, this]
    rw [e]
    refine ⟨rfl, fun hwf => ?_⟩
    have hf : (f T).1.key = y :: nk := by rw [hf, ← hT]; rfl
    generalize (f T).1 = n' at *
    generalize hI : mk (x :: ck) c.value c.children = I at *
    have hIk : I.key = x :: ck := by rw [← hI]; rfl
    have hIw : I.WF := by rw [← hI, WF_mk, ← WF_iff]; exact hw.wf (by simp)
    have hIv : ∀ s, I.view s = c.view s := fun s => by
      rw [← hI]; exact view_congr (by simp) (by simp) s
    have hn'p : n'.isParam = false := by rw [isParam_false_iff, hf]; exact hns.head.1
    have hIp : I.isParam = false := by rw [isParam_false_iff, hIk]; exact hcs.head.1
    have hwD : WFL [n', I] := by
      simp only [WFL]
      refine ⟨by rw [hf]; exact hns.keyOK, hwf, ?_, by simp [hn'p], ?_, ?_, by rw [hIk]; exact hcs.keyOK,
        hIw, by simp, by simp, by simp, by simp, trivial⟩
      · simp only [List.mem_singleton]; rintro d rfl; rw [hIk, hf]; simpa using hxy.symm
      · rw [hf]; exact fun z => absurd z hns.head.2
      · simp only [List.mem_singleton]; rintro d rfl; exact hIp
    have hDn : ∀ r, (mk L none [n', I]).view (y :: nk ++ r) = n'.view r := by
      intro r
      have := view_mid_append (k := L) (v := none) (l₁ := []) (l₂ := [I]) (c := n') r hwD.ne
        (by simp) (by simp [hIk, hf, hxy.symm])
      rw [hf] at this; exact this
    have hDI : ∀ r, (mk L none [n', I]).view (x :: ck ++ r) = c.view r := by
      intro r
      have := view_mid_append (k := L) (v := none) (l₁ := [n']) (l₂ := []) (c := I) r hwD.ne
        (by simp [hIk, hf, hxy]) (by simp)
      rw [hIk] at this; rw [← hIv]; exact this
    have hD0 : ∀ r, r ≠ [] → ¬ (y :: nk) <+: r → ¬ (x :: ck) <+: r →
        (mk L none [n', I]).view r = none := by
      intro r hr hy hx
      rw [view, sub_ne hr, children, subL, if_neg (by rw [hf]; exact hy), subL,
        if_neg (by rw [hIk]; exact hx), subL]; rfl
    have hDp : (mk L none [n', I]).pn = none := by simp [pnL, hn'p]
    generalize hD : mk L none [n', I] = D at *
    have hDk : D.key = L := by rw [← hD]; rfl
    have hDv : D.value = none := by rw [← hD]; rfl
    have hDw : D.WF := by rw [← hD]; simpa using hwD
    have hw' : WFL (l₁ ++ D :: l₂) :=
      hw.replace (by rw [hDk]; exact hLs.keyOK) hDw (by rw [hDk]; exact hLh)
        (isParam_congr (by rw [hDk]; exact hLh)) (by rw [hDk]; exact fun x => absurd x hLs.head.2)
    have hv' : ∀ r, (mk k v (l₁ ++ D :: l₂)).view (L ++ r) = D.view r := by
      intro r
      have := view_mid_append (k := k) (v := v) r hw'.ne (by rw [hDk, hLh]; exact h1)
        (by rw [hDk, hLh]; exact h2)
      rw [hDk] at this; exact this
    have hsame : ∀ s, ¬ L ++ y :: nk <+: s → s ≠ [] → s ≠ L →
        (mk k v (l₁ ++ D :: l₂)).view s = (mk k v (l₁ ++ c :: l₂)).view s := by
      intro s hs hs0 hsL
      by_cases hh : s.head? = c.key.head?
      · rw [hview s hs0 hh]
        by_cases hLs : L <+: s
        · obtain ⟨r, rfl⟩ := hLs
          rw [hv']
          have hy : ¬ (y :: nk) <+: r := fun h => hs ((List.prefix_append_right_inj _).2 h)
          by_cases hx : (x :: ck) <+: r
          · obtain ⟨r', rfl⟩ := hx
            rw [hDI, ← List.append_assoc, ← hck, if_pos (by simp)]; simp
          · rw [hD0 r (by rintro rfl; simp at hsL) hy hx, if_neg]
            rw [hck, List.prefix_append_right_inj]; exact hx
        · rw [view_mid hw'.ne hs0 (by rw [hh]; exact h1) (by rw [hh]; exact h2), hDk, if_neg hLs,
            if_neg (fun h => hLs ((by rw [hck]; simp : L <+: c.key).trans h))]
      · rw [view_other (hw.ne c (by simp)) hs0 (fun x => hh x.symm),
          view_other (by rw [hDk]; exact hL) hs0 (by rw [hDk, hLh]; exact fun x => hh x.symm)]
    have hvL : (mk k v (l₁ ++ c :: l₂)).view L = none := by
      rw [hview L hL hLh, if_neg]
      intro h; have := h.length_le; rw [hck] at this; simp at this; omega
    have hvL' : (mk k v (l₁ ++ D :: l₂)).view L = some (none, none) := by
      have := hv' []; rw [List.append_nil] at this; rw [this, view_nil, hDv, hDp]
    refine ⟨by simpa using hw', rfl, rfl, ?_, ?_, ?_, ?_, ?_⟩
    · intro r; rw [List.append_assoc, hv', hDn]
    · rw [pn_mk, pn_mk, pnL_replace (c := c) (isParam_congr (by rw [hDk]; exact hLh)) ?_, hKc]
      · rfl
      · intro hp; exact absurd (isParam_iff.1 hp) hstat.head.1
    · intro s v' hs hs0 hvs
      rw [hsame s hs hs0 (by rintro rfl; rw [hvL] at hvs; simp at hvs), hvs]
    · rintro s hs hs0 hvs ⟨_, a, b, u, t, hk, hab, hvs'⟩
      have hh : (s ++ b :: t).head? = c.key.head? := by
        rw [← hap (y :: nk), hk]; cases s with
        | nil => exact absurd rfl hs0
        | cons => simp
      rw [hview _ (by simp) hh] at hvs'
      split at hvs'
      · next hp =>
        obtain ⟨z, hz⟩ := hp
        have e1 := lcp_diverge s t u hab
        have e2 := lcp_diverge L (ck ++ z) nk hxy
        rw [← hk, ← hz, hck, List.append_assoc, List.cons_append, e2] at e1
        rw [← e1]; exact hvL'
      · simp at hvs'
    · intro s hs hs0 hvs hb
      rw [hsame s hs hs0 ?_, hvs]
      rintro rfl
      refine hb ⟨hs0, y, x, nk, ck, rfl, hxy, ?_⟩
      rw [← hck, hview _ (hw.ne c (by simp)) rfl]; simp

theorem insertionAction_create {cs : List (Node M H)} {key : Str} (hkey : key ≠ [])
    (hc : startsColon key = false) (hp : ∀ d ∈ cs, d.isParam = false) (hne : ∀ d ∈ cs, d.key ≠ [])
    (hh : ∀ d ∈ cs, d.key.head? ≠ key.head?) : insertionAction cs key = .createNewNode := by
  have := insertionActionFrom_skip (l₁ := cs) (r := []) hkey hc 0
    (fun d hd => ⟨hp d hd, hne d hd, hh d hd⟩)
  rw [List.append_nil] at this
  rw [insertionAction, this]; rfl

theorem insertionAction_mid {l₁ l₂ : List (Node M H)} {c : Node M H} {key : Str} (hkey : key ≠ [])
    (hc : startsColon key = false) (hp : ∀ d ∈ l₁ ++ c :: l₂, d.isParam = false)
    (hne : ∀ d ∈ l₁ ++ c :: l₂, d.key ≠ [])
    (h1 : ∀ d ∈ l₁, d.key.head? ≠ key.head?) (hh : c.key.head? = key.head?) :
    insertionAction (l₁ ++ c :: l₂) key =
      if key = c.key then .nextNode l₁.length
      else if c.key <+: key then .splitKey (byteLen c.key) l₁.length
      else .splitNode (byteLen (lcp c.key key)) l₁.length := by
  rw [insertionAction, insertionActionFrom_skip hkey hc 0
    (fun d hd => ⟨hp d (by simp [hd]), hne d (by simp [hd]), h1 d hd⟩), insertionActionFrom]
  have hck : c.key ≠ [] := hne c (by simp)
  simp only [hp c (by simp), hc, Bool.or_self, Bool.false_eq_true, if_false, matchCount_eq,
    Nat.zero_add]
  by_cases e : key = c.key
  · rw [if_pos e, if_pos ⟨lcp_eq_right.2 (e ▸ List.prefix_rfl), lcp_eq_left.2 (e ▸ List.prefix_rfl)⟩]
  · rw [if_neg e, if_neg]
    · by_cases hpre : c.key <+: key
      · rw [if_pos hpre, if_pos (lcp_eq_left.2 hpre), lcp_eq_left.2 hpre]
      · rw [if_neg hpre, if_neg (fun h => hpre (lcp_eq_left.1 h)), if_pos]
        intro h
        exact absurd hh ((lcp_eq_nil hck hkey).1 (byteLen_eq_zero.1 h))
    · rintro ⟨ha, hb⟩
      have ha := lcp_eq_right.1 ha
      have hb := lcp_eq_left.1 hb
      exact e (ha.eq_of_length_le hb.length_le)

theorem processInsertion_spec_aux (path : Str) (N : Nat) : ∀ (n : Node M H) (key : Str),
    sizeOf n ≤ N → n.WF → KeyOK key →
    (¬ AmbSeg n key → InsOK path n key) ∧
    (AmbSeg n key → ∀ f, ∃ a b, processInsertion path n key f = (n, some (.ambiguous a b path))) := by
  induction N with
  | zero => intro n; cases n; simp
  | succ N ih =>
    intro n key hN hw hkey
    obtain ⟨k, v, cs⟩ := n
    rw [WF_mk] at hw
    by_cases hcol : startsColon key = true
    · -- a parameter
      have hamb : AmbSeg (mk k v cs) key ↔
          (∃ r, r ≠ [] ∧ ((mk k v cs).view r).isSome) ∧ (mk k v cs).pn ≠ some key.tail := by
        rw [AmbSeg, if_pos hcol]
      cases cs with
      | nil =>
        constructor
        · intro _
          refine insOK_create (l₁ := []) (l₂ := []) hkey hw (by simp) ?_ ?_ ?_
          · intro n' hk hwf
            simp only [List.nil_append, WFL]
            exact ⟨by rw [hk]; exact hkey, hwf, by simp, by simp, by simp, by simp, trivial⟩
          · intro n' hk; simp [pnL, isParam, hk, hcol]
          · intro f
            have : key ≠ ['*'] := by rintro rfl; simp [startsColon] at hcol
            simp [processInsertion, insertionAction, insertionActionFrom, this]
        · rw [hamb]; rintro ⟨⟨r, hr, h⟩, _⟩
          rw [view_none (by simp) hr (by simp)] at h; simp at h
      | cons c cs =>
        have hck : KeyOK c.key := hw.keyOK (by simp)
        by_cases e : key = c.key
        · subst e
          have hcs : cs = [] := by
            rw [WFL] at hw; exact hw.2.2.2.1 hcol
          subst hcs
          have hpn : pnL [c] = some (List.tail c.key) := by
            have : c.isParam = true := hcol
            simp [pnL, this]
          refine ⟨fun _ => insOK_next (l₁ := []) hw (by simp) (by simp) (fun _ => hpn) ?_, ?_⟩
          · simp [insertionAction, insertionActionFrom, hcol]
          · rw [hamb]; intro h; exact absurd hpn h.2
        · have hA : AmbSeg (mk k v (c :: cs)) key := by
            rw [hamb]
            refine ⟨⟨c.key, hck.ne_nil, ?_⟩, ?_⟩
            · have := view_mid_append (k := k) (v := v) (l₁ := []) (l₂ := cs) (c := c) []
                hw.ne (by simp) (by rw [WFL] at hw; exact hw.2.2.1)
              rw [List.append_nil, List.nil_append] at this
              rw [this]; simp
            · intro h
              obtain ⟨c', h1, h2⟩ := hw.param h
              simp at h1
              apply e
              rw [h1.1, h2]
              have := startsColon_iff.1 hcol
              cases key with
              | nil => simp at this
              | cons a key => simp at this; simp [this]
          refine ⟨fun h => absurd hA h, fun _ f => ⟨key, c.key, ?_⟩⟩
          simp [processInsertion, insertionAction, insertionActionFrom, hcol, e]
    · -- a static segment or `*`
      have hcol : startsColon key = false := by simpa using hcol
      have hamb : AmbSeg (mk k v cs) key ↔ ∃ w u v' x, key = w ++ u ∧ u ≠ [] ∧
          (mk k v cs).view w = some (v', some x) := by
        rw [AmbSeg, if_neg (by simp [hcol])]
      have hk0 := hkey.ne_nil
      cases hpn : pnL cs with
      | some x =>
        obtain ⟨c, rfl, hc⟩ := hw.param hpn
        have hA : AmbSeg (mk k v [c]) key := by
          rw [hamb]; exact ⟨[], key, v, x, by simp, hk0, by simp [hpn]⟩
        refine ⟨fun h => absurd hA h, fun _ f => ⟨key, c.key, ?_⟩⟩
        have hcp : c.isParam = true := by rw [isParam_iff, hc]; rfl
        have e : key ≠ c.key := by
          rintro rfl; exact startsColon_false_iff.1 hcol (by rw [hc]; rfl)
        simp [processInsertion, insertionAction, insertionActionFrom, hcp, e]
      | none =>
        have hp := hw.noParam hpn
        rcases hw.cases key with hh | ⟨l₁, c, l₂, rfl, hc, h1, h2⟩
        · -- create
          have hact := insertionAction_create hk0 hcol hp hw.ne hh
          constructor
          · intro _
            by_cases hst : key = ['*']
            · have := insOK_create (path := path) (k := k) (v := v) (l₁ := cs) (l₂ := []) hkey
                (by simpa using hw) (by simpa using hh)
                (fun n' hk hwf => hw.snocStar (hk.trans hst) hwf hp (by rw [hk]; exact hh)) ?_ ?_
              · simpa using this
              · intro n' hk
                rw [hcol, List.append_nil, hpn]
                apply pnL_none_of
                intro d hd
                rcases List.mem_append.1 hd with hd | hd
                · exact hp d hd
                · rw [List.mem_singleton] at hd; subst hd; rw [isParam, hk]; exact hcol
              · intro f
                simp only [List.append_nil, processInsertion, hact, if_pos hst]
            · have hstat := hkey.static (startsColon_false_iff.1 hcol) hst
              refine insOK_create (l₁ := []) (l₂ := cs) hkey hw hh ?_ ?_ ?_
              · intro n' hk hwf
                simp only [List.nil_append, WFL]
                refine ⟨by rw [hk]; exact hkey, hwf, by rw [hk]; exact hh, ?_, ?_, hp, hw⟩
                · rw [isParam, hk, hcol]; simp
                · rw [hk]; exact fun h => absurd h hst
              · intro n' hk
                rw [List.nil_append, List.nil_append, hcol, hpn]; simp [pnL, isParam, hk, hcol]
              · intro f
                simp only [List.nil_append, processInsertion, hact, if_neg hst]
          · rw [hamb]; rintro ⟨w, u, v', x, rfl, hu, h⟩
            by_cases hw0 : w = []
            · subst hw0; simp [hpn] at h
            · rw [view_none hw.ne hw0 ?_] at h
              · simp at h
              · rw [head_of_prefix hw0 (List.prefix_append w u)]; exact hh
        · -- a child shares the first character
          have hact := insertionAction_mid hk0 hcol hp hw.ne h1 hc
          have hcK : KeyOK c.key := hw.keyOK (by simp)
          rw [← hc] at h1 h2
          have hview : ∀ w u, key = w ++ u → w ≠ [] → (mk k v (l₁ ++ c :: l₂)).view w =
              if c.key <+: w then c.view (w.drop c.key.length) else none := by
            intro w u e hw0
            have : w.head? = c.key.head? := by
              rw [hc, e]; exact head_of_prefix hw0 (List.prefix_append w u)
            exact view_mid hw.ne hw0 (by rw [this]; exact h1) (by rw [this]; exact h2)
          by_cases e : key = c.key
          · subst e
            rw [if_pos rfl] at hact
            refine ⟨fun _ => insOK_next hw h1 h2 (by simp [hcol]) hact, ?_⟩
            rw [hamb]; rintro ⟨w, u, v', x, e, hu, h⟩
            by_cases hw0 : w = []
            · subst hw0; simp [hpn] at h
            · rw [hview w u e hw0, if_neg] at h
              · simp at h
              · intro hp; have := hp.length_le
                have hu := List.length_pos_iff.2 hu
                rw [e, List.length_append] at this; omega
          · rw [if_neg e] at hact
            have hst : key ≠ ['*'] := by
              intro hs; apply e; rw [hs]; exact (hcK.star (by rw [hc, hs]; rfl)).symm
            have hstat := hkey.static (startsColon_false_iff.1 hcol) hst
            have hcstat : StaticKey c.key := by
              apply hcK.static
              · rw [hc]; exact hstat.head.1
              · intro hs; apply hst; exact hkey.star (by rw [← hc, hs]; rfl)
            by_cases hpre : c.key <+: key
            · rw [if_pos hpre] at hact
              obtain ⟨key', rfl⟩ := hpre
              have hk' : key' ≠ [] := by rintro rfl; simp at e
              have hks := hstat.right hk'
              have hkc : startsColon key' = false := startsColon_false_iff.2 hks.head.1
              have hsz : sizeOf c ≤ N := by
                have : sizeOf c < sizeOf (l₁ ++ c :: l₂) := List.sizeOf_lt_of_mem (by simp)
                simp at hN; omega
              have hcc := ih c key' hsz (hw.wf (by simp)) hks.keyOK
              have hiff : AmbSeg (mk k v (l₁ ++ c :: l₂)) (c.key ++ key') ↔ AmbSeg c key' := by
                rw [hamb, AmbSeg, if_neg (by simp [hkc])]
                constructor
                · rintro ⟨w, u, v', x, e, hu, h⟩
                  by_cases hw0 : w = []
                  · subst hw0; simp [hpn] at h
                  · rw [hview w u e hw0] at h
                    split at h
                    · next hp =>
                      obtain ⟨w', rfl⟩ := hp
                      rw [List.append_assoc, List.append_cancel_left_eq] at e
                      exact ⟨w', u, v', x, e, hu, by simpa using h⟩
                    · simp at h
                · rintro ⟨w, u, v', x, e, hu, h⟩
                  refine ⟨c.key ++ w, u, v', x, by rw [e, List.append_assoc], hu, ?_⟩
                  rw [hview (c.key ++ w) u (by rw [e, List.append_assoc]) (by simp [hcK.ne_nil]),
                    if_pos (by simp)]
                  simpa using h
              refine ⟨fun h => insOK_splitKey hw h1 h2 hstat hk' hact (hcc.1 (fun x => h (hiff.2 x))), ?_⟩
              intro h f
              obtain ⟨a, b, hab⟩ := hcc.2 (hiff.1 h) f
              refine ⟨a, b, ?_⟩
              rw [processInsertion, hact]
              simp only [sliceFrom_append, processInsertionAt_mid, hab]
            · rw [if_neg hpre] at hact
              constructor
              · intro _
                obtain ⟨ck, nk, e1, e2, e3⟩ := lcp_split c.key key
                have hL : lcp c.key key ≠ [] := fun h =>
                  absurd hc ((lcp_eq_nil hcK.ne_nil hk0).1 h)
                generalize lcp c.key key = L at *
                have hck0 : ck ≠ [] := by
                  rintro rfl; apply hpre; rw [e1, e2]; simp
                subst e2
                cases nk with
                | nil =>
                  rw [List.append_nil] at hact ⊢
                  exact insOK_splitNodeEnd hw h1 h2 e1 hck0 hL hcstat hact
                | cons y nk =>
                  cases ck with
                  | nil => exact absurd rfl hck0
                  | cons x ck =>
                    refine insOK_splitNodeFork hw h1 h2 e1 hL ?_ hcstat hstat hact
                    simp at e3; exact fun h => e3 h.symm
              · rw [hamb]; rintro ⟨w, u, v', x, e, hu, h⟩
                by_cases hw0 : w = []
                · subst hw0; simp [hpn] at h
                · rw [hview w u e hw0, if_neg] at h
                  · simp at h
                  · intro hp; exact hpre (hp.trans (by rw [e]; simp))

/-- Inserting an unambiguous segment into a well-formed tree. -/
theorem processInsertion_ok (path : Str) {n : Node M H} {key : Str} (hw : n.WF) (hk : KeyOK key)
    (h : ¬ AmbSeg n key) : InsOK path n key :=
  (processInsertion_spec_aux path (sizeOf n) n key (Nat.le_refl _) hw hk).1 h

/-- Inserting an ambiguous segment into a well-formed tree. -/
theorem processInsertion_amb (path : Str) {n : Node M H} {key : Str} (hw : n.WF) (hk : KeyOK key)
    (h : AmbSeg n key) (f) : ∃ a b, processInsertion path n key f = (n, some (.ambiguous a b path)) :=
  (processInsertion_spec_aux path (sizeOf n) n key (Nat.le_refl _) hw hk).2 h f

end Node
end Obsidian
