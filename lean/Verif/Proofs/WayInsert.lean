import Verif.Proofs.Way
import Verif.Proofs.InsertLoop

/-
Insertions keep the ways of the tree and add the new one, for paths in any syntax.
-/
namespace Obsidian
namespace Node
open Spec
variable {M H : Type}

/-! ### Trees built by insertions -/

/-- Keys are not empty, and a star is a key of its own and comes last. -/
inductive SWL : List (Node M H) → Prop where
  | nil : SWL []
  | cons {c : Node M H} {cs : List (Node M H)} : c.key ≠ [] → ('*' ∈ c.key → c.key = ['*'] ∧ cs = []) →
      SWL c.children → SWL cs → SWL (c :: cs)

theorem SWL.mem {cs : List (Node M H)} (h : SWL cs) {c : Node M H} (hc : c ∈ cs) :
    c.key ≠ [] ∧ SWL c.children ∧ ('*' ∈ c.key → c.key = ['*']) := by
  induction h with
  | nil => simp at hc
  | cons h1 h2 h3 h4 _ ih =>
    rcases List.mem_cons.1 hc with rfl | hc
    · exact ⟨h1, h3, fun h => (h2 h).1⟩
    · exact ih hc

theorem SWL.before {pre post : List (Node M H)} {c : Node M H} (h : SWL (pre ++ c :: post)) :
    ∀ d ∈ pre, '*' ∉ d.key := by
  induction pre with
  | nil => simp
  | cons a pre ih =>
    cases h with
    | cons h1 h2 h3 h4 =>
      intro d hd
      rcases List.mem_cons.1 hd with rfl | hd
      · exact fun hs => absurd (h2 hs).2 (by simp)
      · exact ih h4 d hd

theorem SWL.replace {pre post : List (Node M H)} {c c' : Node M H} (h : SWL (pre ++ c :: post))
    (h1 : c'.key ≠ []) (h2 : '*' ∈ c'.key → '*' ∈ c.key ∧ c'.key = ['*']) (h3 : SWL c'.children) :
    SWL (pre ++ c' :: post) := by
  induction pre with
  | nil =>
    cases h with
    | cons g1 g2 g3 g4 => exact .cons h1 (fun hs => ⟨(h2 hs).2, (g2 (h2 hs).1).2⟩) h3 g4
  | cons a pre ih =>
    cases h with
    | cons g1 g2 g3 g4 => exact .cons g1 (fun hs => absurd (g2 hs).2 (by simp)) g3 (ih g4)

theorem SWL.snoc {cs : List (Node M H)} {c : Node M H} (h : SWL cs) (hk : c.key = ['*']) (h3 : SWL c.children)
    (hn : ∀ d ∈ cs, '*' ∉ d.key) : SWL (cs ++ [c]) := by
  induction h with
  | nil => exact .cons (by rw [hk]; simp) (fun _ => ⟨hk, rfl⟩) h3 .nil
  | cons g1 g2 g3 g4 _ ih =>
    exact .cons g1 (fun hs => absurd hs (hn _ (by simp))) g3 (ih (fun d hd => hn d (by simp [hd])))

/-! ### What the insertion decides -/

/-- The children before the one that is chosen by the insertion of `key`. -/
def Passed (pre : List (Node M H)) (key : Str) : Prop :=
  ∀ d ∈ pre, d.isParam = false ∧ d.key.head? ≠ key.head?

/-- What the insertion of a key does. -/
inductive Decides (cs : List (Node M H)) (key : Str) : Action → Prop where
  | create : Passed cs key → (startsColon key = true → cs = []) → Decides cs key .createNewNode
  | next {pre post : List (Node M H)} {c : Node M H} : cs = pre ++ c :: post → c.key = key → Passed pre key →
      (startsColon key = true → pre = []) → Decides cs key (.nextNode pre.length)
  | splitKey {pre post : List (Node M H)} {c : Node M H} {rest : Str} : cs = pre ++ c :: post →
      key = c.key ++ rest → rest ≠ [] → Passed pre key → c.isParam = false →
      Decides cs key (.splitKey (byteLen c.key) pre.length)
  | splitNode {pre post : List (Node M H)} {c : Node M H} {L ck nk : Str} : cs = pre ++ c :: post →
      c.key = L ++ ck → key = L ++ nk → L ≠ [] → ck ≠ [] → (nk = [] ∨ nk.head? ≠ ck.head?) → Passed pre key →
      c.isParam = false → Decides cs key (.splitNode (byteLen L) pre.length)
  | error {i : Nat} : Decides cs key (.error i)

theorem decides_colon {cs : List (Node M H)} {key : Str} (hc : startsColon key = true) :
    Decides cs key (insertionAction cs key) := by
  cases cs with
  | nil => exact .create (by intro d hd; simp at hd) (fun _ => rfl)
  | cons c cs =>
    rw [insertionAction, insertionActionFrom]
    simp only [hc, Bool.or_true, if_true]
    split
    · next h => exact .next (pre := []) rfl h.symm (by intro d hd; simp at hd) (fun _ => rfl)
    · exact .error

theorem decides_from {key : Str} (hk : key ≠ []) (hc : startsColon key = false) {cs : List (Node M H)} :
    ∀ (pre : List (Node M H)), (∀ c ∈ cs, c.key ≠ []) → Passed pre key →
      Decides (pre ++ cs) key (insertionActionFrom key cs pre.length) := by
  induction cs with
  | nil =>
    intro pre _ hp
    rw [List.append_nil]
    exact .create hp (fun h => by rw [hc] at h; cases h)
  | cons c cs ih =>
    intro pre hw hp
    have hck := hw c (by simp)
    have hw' : ∀ c ∈ cs, c.key ≠ [] := fun d hd => hw d (by simp [hd])
    rw [insertionActionFrom]
    cases hcp : c.isParam with
    | true =>
      simp only [Bool.true_or, if_true]
      split
      · next h =>
        rw [isParam, ← h, hc] at hcp; cases hcp
      · exact .error
    | false =>
      simp only [hc, Bool.or_self, Bool.false_eq_true, if_false, matchCount_eq]
      obtain ⟨ck, nk, e1, e2, e3⟩ := lcp_split c.key key
      split
      · next h =>
        have h1 := lcp_eq_right.1 h.1
        have h2 := lcp_eq_left.1 h.2
        exact .next rfl (h2.eq_of_length_le h1.length_le) hp (fun h => by rw [hc] at h; cases h)
      · next hne =>
        split
        · next h =>
          have h1 := lcp_eq_left.1 h
          obtain ⟨rest, hr⟩ := h1
          rw [h]
          refine .splitKey rfl hr.symm ?_ hp hcp
          rintro rfl
          rw [List.append_nil] at hr
          exact hne ⟨by rw [h, hr], h⟩
        · next hnl =>
          split
          · next h0 =>
            refine .splitNode rfl e1 e2 (fun h => h0 (by rw [h]; rfl)) ?_ ?_ hp hcp
            · rintro rfl
              rw [List.append_nil] at e1
              exact hnl (by rw [← e1])
            · rcases e3 with rfl | rfl | h
              · rw [List.append_nil] at e1
                exact absurd (by rw [← e1]) hnl
              · exact Or.inl rfl
              · exact Or.inr (fun h' => h h'.symm)
          · next h0 =>
            have h0 : lcp c.key key = [] := byteLen_eq_zero.1 (by simpa using h0)
            have := ih (pre ++ [c]) hw' (by
              intro d hd
              rcases List.mem_append.1 hd with hd | hd
              · exact hp d hd
              · rw [List.mem_singleton.1 hd]; exact ⟨hcp, (lcp_eq_nil hck hk).1 h0⟩)
            simpa using this

theorem decides_ne {cs : List (Node M H)} {key : Str} (hw : ∀ c ∈ cs, c.key ≠ []) (hk : key ≠ []) :
    Decides cs key (insertionAction cs key) := by
  cases hc : startsColon key with
  | true => exact decides_colon hc
  | false => exact decides_from hk hc [] hw (by intro d hd; simp at hd)

theorem decides {cs : List (Node M H)} {key : Str} (hw : SWL cs) (hk : key ≠ []) :
    Decides cs key (insertionAction cs key) := decides_ne (fun _ hc => (hw.mem hc).1) hk

/-! ### What an insertion keeps -/

/-- Nothing that was stored at a node is lost. -/
structure Le (v v' : Option (RouteValue M H)) : Prop where
  route : ∀ rv, v = some rv → ∀ m r, rv.route.getRoute m = some r →
    ∃ rv', v' = some rv' ∧ rv'.route.getRoute m = some r
  mws : ∀ rv, v = some rv → ∃ rv', v' = some rv' ∧ ∀ x ∈ rv.middlewares, x ∈ rv'.middlewares

theorem Le.refl (v : Option (RouteValue M H)) : Le v v :=
  ⟨fun rv h _ _ hr => ⟨rv, h, hr⟩, fun rv h => ⟨rv, h, fun _ hx => hx⟩⟩

theorem Le.trans {a b c : Option (RouteValue M H)} (h : Le a b) (h' : Le b c) : Le a c := by
  refine ⟨fun rv hv m r hr => ?_, fun rv hv => ?_⟩
  · obtain ⟨rv1, e1, e2⟩ := h.route rv hv m r hr
    exact h'.route rv1 e1 m r e2
  · obtain ⟨rv1, e1, e2⟩ := h.mws rv hv
    obtain ⟨rv2, e3, e4⟩ := h'.mws rv1 e1
    exact ⟨rv2, e3, fun x hx => e4 x (e2 x hx)⟩

theorem Le.none (v : Option (RouteValue M H)) : Le Option.none v :=
  ⟨fun _ h => by simp at h, fun _ h => by simp at h⟩

theorem Le.sub {n n' : Node M H} (h : Le n.value n'.value) : ∀ x ∈ n.mws, x ∈ n'.mws := by
  intro x hx
  rw [Node.mws] at hx
  split at hx
  · next v e =>
    obtain ⟨rv', e1, e2⟩ := h.mws v e
    rw [mws_some e1]; exact e2 x hx
  · simp at hx

/-- Every way is still there, and leads to what was stored at its end. -/
def Keeps (cs cs' : List (Node M H)) : Prop :=
  ∀ brk ss t ms, Way cs brk ss t ms →
    ∃ t' ms', Way cs' brk ss t' ms' ∧ Le t.value t'.value ∧ ∀ x ∈ ms, x ∈ ms'

theorem Keeps.refl (cs : List (Node M H)) : Keeps cs cs :=
  fun _ _ t ms h => ⟨t, ms, h, Le.refl _, fun _ hx => hx⟩

theorem Keeps.trans {a b c : List (Node M H)} (h : Keeps a b) (h' : Keeps b c) : Keeps a c := by
  intro brk ss t ms hw
  obtain ⟨t1, m1, w1, l1, s1⟩ := h brk ss t ms hw
  obtain ⟨t2, m2, w2, l2, s2⟩ := h' brk ss t1 m1 w1
  exact ⟨t2, m2, w2, l1.trans l2, fun x hx => s2 x (s1 x hx)⟩

theorem way_nil {brk : Bool} {ss : List Str} {t : Node M H} {ms : List M} (h : Way [] brk ss t ms) : False := by
  generalize hcs : ([] : List (Node M H)) = cs at h
  cases h <;> simp at hcs

theorem Keeps.nil (cs : List (Node M H)) : Keeps [] cs := fun _ _ _ _ h => (way_nil h).elim

/-- Where the chosen child of a way is, when the tree is changed at one child. -/
theorem mid_cases {pre post l₁ l₂ : List (Node M H)} {c d : Node M H} (h : l₁ ++ d :: l₂ = pre ++ c :: post) :
    (∃ l, l₁ = pre ++ c :: l ∧ post = l ++ d :: l₂) ∨ (l₁ = pre ∧ d = c ∧ l₂ = post) ∨
    (∃ l, pre = l₁ ++ d :: l ∧ l₂ = l ++ c :: post) := by
  induction l₁ generalizing pre with
  | nil =>
    cases pre with
    | nil => simp at h; exact Or.inr (Or.inl ⟨rfl, h.1, h.2⟩)
    | cons a pre => simp at h; exact Or.inr (Or.inr ⟨pre, by rw [h.1]; rfl, h.2⟩)
  | cons a l₁ ih =>
    cases pre with
    | nil => simp at h; exact Or.inl ⟨l₁, by rw [h.1]; rfl, h.2.symm⟩
    | cons b pre =>
      simp at h
      obtain ⟨rfl, h⟩ := h
      rcases ih h with ⟨l, e1, e2⟩ | ⟨e1, e2, e3⟩ | ⟨l, e1, e2⟩
      · exact Or.inl ⟨l, by rw [e1]; rfl, e2⟩
      · exact Or.inr (Or.inl ⟨by rw [e1], e2, e3⟩)
      · exact Or.inr (Or.inr ⟨l, by rw [e1]; rfl, e2⟩)

/-- The rest of a way, once the child `c` is chosen. -/
inductive Step (c : Node M H) (brk : Bool) : List Str → Node M H → List M → Prop where
  | whole : Step c brk [c.key] c c.mws
  | next {ss : List Str} {t : Node M H} {ms : List M} : Way c.children false ss t ms → Step c brk (c.key :: ss) t (ms ++ c.mws)
  | part {rest : Str} {ss : List Str} {t : Node M H} {ms : List M} : (brk = false → c.isParam = false) → rest ≠ [] →
      Way c.children true (rest :: ss) t ms → Step c brk ((c.key ++ rest) :: ss) t (ms ++ c.mws)

theorem Step.way {pre post : List (Node M H)} {c : Node M H} {brk : Bool} {ss : List Str} {t : Node M H} {ms : List M}
    (h : Step c brk ss t ms) (hp : Pick pre c brk) : Way (pre ++ c :: post) brk ss t ms := by
  cases h with
  | whole => exact .whole hp
  | next hw => exact .next hp hw
  | part h1 h2 hw => exact .part hp h1 h2 hw

theorem Way.step {cs : List (Node M H)} {brk : Bool} {ss : List Str} {t : Node M H} {ms : List M}
    (h : Way cs brk ss t ms) : ∃ pre c post, cs = pre ++ c :: post ∧ Pick pre c brk ∧ Step c brk ss t ms := by
  cases h with
  | whole hp => exact ⟨_, _, _, rfl, hp, .whole⟩
  | next hp hw => exact ⟨_, _, _, rfl, hp, .next hw⟩
  | part hp h1 h2 hw => exact ⟨_, _, _, rfl, hp, .part h1 h2 hw⟩

/-- One child is changed, and keeps its first character. -/
theorem keeps_mid {pre post : List (Node M H)} {c c' : Node M H} (hk : c'.key ≠ []) (hh : c'.key.head? = c.key.head?)
    (hs : c'.key = ['*'] ↔ c.key = ['*'])
    (hst : ∀ brk ss t ms, Step c brk ss t ms → ∃ t' ms', Step c' brk ss t' ms' ∧ Le t.value t'.value ∧ ∀ x ∈ ms, x ∈ ms') :
    Keeps (pre ++ c :: post) (pre ++ c' :: post) := by
  intro brk ss t ms hw
  obtain ⟨l₁, d, l₂, e, hp, hd⟩ := hw.step
  rcases mid_cases e with ⟨l, e1, e2⟩ | ⟨e1, e2, e3⟩ | ⟨l, e1, e2⟩
  · subst e1 e2
    exact ⟨t, ms, by simpa using hd.way (post := l ++ c' :: post) hp, Le.refl _, fun _ hx => hx⟩
  · subst e1 e2 e3
    obtain ⟨t', ms', h1, h2, h3⟩ := hst _ _ _ _ hd
    refine ⟨t', ms', h1.way ⟨hk, ?_, hp.plain, ?_, ?_⟩, h2, h3⟩
    · rw [hh]; exact hp.other
    · rw [isParam_congr hh]; exact hp.param
    · intro hb h; exact hp.star hb (hs.1 h)
  · subst e1 e2
    refine ⟨t, ms, ?_, Le.refl _, fun _ hx => hx⟩
    have := hd.way (pre := pre ++ c' :: l) (post := l₂) ⟨hp.ne, ?_, ?_, ?_, hp.star⟩
    · simpa using this
    · intro a ha
      have h0 := hp.other c (by simp)
      simp only [List.mem_append, List.mem_cons] at ha
      rcases ha with ha | rfl | ha
      · exact hp.other a (by simp [ha])
      · exact ⟨hk, by rw [hh]; exact h0.2⟩
      · exact hp.other a (by simp [ha])
    · intro hb a ha
      have h0 := hp.plain hb c (by simp)
      simp only [List.mem_append, List.mem_cons] at ha
      rcases ha with ha | rfl | ha
      · exact hp.plain hb a (by simp [ha])
      · exact ⟨by rw [isParam_congr hh]; exact h0.1, fun h => h0.2 (hs.1 h)⟩
      · exact hp.plain hb a (by simp [ha])
    · intro hb ha
      exact absurd (hp.param hb ha) (by simp)

theorem keeps_replace {pre post : List (Node M H)} {c c' : Node M H} (hne : c.key ≠ []) (hk : c'.key = c.key)
    (hv : Le c.value c'.value) (hc : Keeps c.children c'.children) : Keeps (pre ++ c :: post) (pre ++ c' :: post) := by
  refine keeps_mid (by rw [hk]; exact hne) (by rw [hk]) (by rw [hk]) ?_
  intro brk ss t ms hs
  cases hs with
  | whole => exact ⟨c', c'.mws, by rw [← hk]; exact .whole, hv, hv.sub⟩
  | next hw =>
    obtain ⟨t', ms', h1, h2, h3⟩ := hc _ _ _ _ hw
    refine ⟨t', ms' ++ c'.mws, by rw [← hk]; exact .next h1, h2, ?_⟩
    intro x hx
    simp only [List.mem_append] at hx ⊢
    exact hx.imp (h3 x) (hv.sub x)
  | part p1 p2 hw =>
    obtain ⟨t', ms', h1, h2, h3⟩ := hc _ _ _ _ hw
    refine ⟨t', ms' ++ c'.mws, by rw [← hk]; exact .part (fun hb => (isParam_congr (c := c) (c' := c') (by rw [hk])).trans (p1 hb)) p2 h1, h2, ?_⟩
    intro x hx
    simp only [List.mem_append] at hx ⊢
    exact hx.imp (h3 x) (hv.sub x)

theorem keeps_cons {cs : List (Node M H)} {n : Node M H} (hk : n.key ≠ []) (hs : n.key ≠ ['*']) (hp : Passed cs n.key)
    (hc : n.isParam = true → cs = []) : Keeps cs (n :: cs) := by
  intro brk ss t ms hw
  obtain ⟨pre, c, post, e, hpk, hst⟩ := hw.step
  subst e
  have hpc := hp c (by simp)
  have := hst.way (pre := n :: pre) (post := post) ⟨hpk.ne, ?_, ?_, ?_, hpk.star⟩
  · exact ⟨t, ms, by simpa using this, Le.refl _, fun _ hx => hx⟩
  · intro d hd
    rcases List.mem_cons.1 hd with rfl | hd
    · exact ⟨hk, hpc.2.symm⟩
    · exact hpk.other d hd
  · intro hb d hd
    rcases List.mem_cons.1 hd with rfl | hd
    · refine ⟨?_, hs⟩
      cases hn : d.isParam with
      | false => rfl
      | true => exact absurd (hc hn) (by simp)
    · exact hpk.plain hb d hd
  · intro hb h
    rw [hpc.1] at h; cases h

theorem keeps_snoc {cs : List (Node M H)} (n : Node M H) : Keeps cs (cs ++ [n]) := by
  intro brk ss t ms hw
  obtain ⟨pre, c, post, e, hpk, hst⟩ := hw.step
  subst e
  exact ⟨t, ms, by simpa using hst.way (post := post ++ [n]) hpk, Le.refl _, fun _ hx => hx⟩

/-- The child is split; its rest is one of the children of the new node. -/
theorem keeps_split {pre post q r : List (Node M H)} {c c' i : Node M H} {L ck : Str} (hck : c.key = L ++ ck) (hL : L ≠ [])
    (hn : ck ≠ []) (hstar : '*' ∉ c.key) (hcp : c.isParam = false) (hk : c'.key = L)
    (hi : i = mk ck c.value c.children) (hq : ∀ d ∈ q, d.key ≠ [] ∧ d.key.head? ≠ ck.head?)
    (hc : Keeps (q ++ i :: r) c'.children) : Keeps (pre ++ c :: post) (pre ++ c' :: post) := by
  have hh : c'.key.head? = c.key.head? := by
    rw [hk, hck]; exact head_of_prefix hL (List.prefix_append _ _)
  have hik : i.key = ck := by rw [hi]; rfl
  have him : i.mws = c.mws := by rw [hi]; rfl
  have hiv : i.value = c.value := by rw [hi]; rfl
  have hpick : Pick q i true := ⟨by rw [hik]; exact hn, by rw [hik]; exact hq, by simp, by simp, by simp⟩
  have hcp' : c'.isParam = false := by rw [isParam_congr hh]; exact hcp
  refine keeps_mid (by rw [hk]; exact hL) hh ⟨fun h => ?_, fun h => ?_⟩ ?_
  · rw [hk] at h; exact absurd (by rw [hck, h]; simp) hstar
  · exact absurd (by rw [h]; simp) hstar
  · intro brk ss t ms hs
    have main : ∀ rest ss t ms, rest ≠ [] → Way (q ++ i :: r) true (rest :: ss) t ms →
        ∃ t' ms', Step c' brk ((L ++ rest) :: ss) t' ms' ∧ Le t.value t'.value ∧ ∀ x ∈ ms, x ∈ ms' := by
      intro rest ss t ms hr hw
      obtain ⟨t', ms', h1, h2, h3⟩ := hc _ _ _ _ hw
      refine ⟨t', ms' ++ c'.mws, by rw [← hk]; exact .part (fun _ => hcp') hr h1, h2, fun x hx => ?_⟩
      simp [h3 x hx]
    cases hs with
    | whole =>
      have := main ck [] i i.mws hn (by rw [← hik]; exact .whole hpick)
      rw [hck, ← hiv, ← him]; exact this
    | next hw =>
      rw [hck, ← him]
      refine main ck _ t _ hn ?_
      rw [← hik]; exact .next hpick (by rw [hi]; exact hw)
    | part p1 p2 hw =>
      rw [hck, ← him, List.append_assoc]
      refine main _ _ t _ (by simp [p2]) ?_
      rw [← hik]; exact .part hpick (by simp) p2 (by rw [hi]; exact hw)

/-! ### The insertion of a segment -/

/-- What is done with the node of a segment: its key stays, nothing is lost. -/
def Mild (f : Node M H → Out (Node M H)) : Prop :=
  ∀ n : Node M H, SWL n.children → (f n).2 = none →
    (f n).1.key = n.key ∧ Le n.value (f n).1.value ∧ Keeps n.children (f n).1.children ∧ SWL (f n).1.children

/-- The node `t` is where the segments lead; everything below it is below the segments. -/
def Leads (cs : List (Node M H)) (ss : List Str) (t : Node M H) (ms : List M) : Prop :=
  Way cs false ss t ms ∧ ∀ ss' t' ms', Way t.children false ss' t' ms' → Way cs false (ss ++ ss') t' (ms' ++ ms)

theorem leads_pick {pre post : List (Node M H)} {c : Node M H} (hp : Pick pre c false) :
    Leads (pre ++ c :: post) [c.key] c c.mws :=
  ⟨.whole hp, fun _ _ _ h => .next hp h⟩

theorem Leads.part {pre post : List (Node M H)} {c t : Node M H} {rest : Str} {ss : List Str} {ms : List M} (hp : Pick pre c false)
    (hc : c.isParam = false) (hr : rest ≠ []) (h : Leads c.children (rest :: ss) t ms) :
    Leads (pre ++ c :: post) ((c.key ++ rest) :: ss) t (ms ++ c.mws) := by
  refine ⟨.part hp (fun _ => hc) hr (h.1.weaken true), fun ss' t' ms' hw => ?_⟩
  have := h.2 ss' t' ms' hw
  rw [← List.append_assoc]
  exact .part hp (fun _ => hc) hr (this.weaken true)

/-- What a successful insertion of `key` with `f` makes of the node `n`. -/
structure Grown (f : Node M H → Out (Node M H)) (n : Node M H) (seg : Str) (n' : Node M H) : Prop where
  key : n'.key = n.key
  value : n'.value = n.value
  sw : SWL n'.children
  keeps : Keeps n.children n'.children
  new : seg ≠ ['*'] → ∃ tgt ms, SWL tgt.children ∧ (f tgt).2 = none ∧ Leads n'.children [seg] (f tgt).1 ms

theorem pick_of {pre post : List (Node M H)} {c : Node M H} (hw : SWL (pre ++ c :: post)) (hp : Passed pre c.key)
    (hc : c.isParam = true → pre = []) (hs : c.key ≠ ['*']) : Pick pre c false := by
  refine ⟨(hw.mem (c := c) (by simp)).1, fun d hd => ⟨(hw.mem (c := d) (by simp [hd])).1, (hp d hd).2⟩, fun _ d hd => ?_,
    fun _ => hc, fun _ => hs⟩
  exact ⟨(hp d hd).1, fun h => hw.before d hd (by rw [h]; simp)⟩

theorem grown {path : Str} (N : Nat) : ∀ {key : Str}, key.length ≤ N → ∀ {n : Node M H} {f : Node M H → Out (Node M H)},
    SWL n.children → key ≠ [] → ('*' ∈ key → key = ['*']) → Mild f →
    (processInsertion path n key f).2 = none → Grown f n key (processInsertion path n key f).1 := by
  induction N with
  | zero =>
    intro key hl n f _ hk
    exact absurd (List.length_eq_zero_iff.1 (by omega)) hk
  | succ N ih =>
    intro key hl n f hw hk hst hf hok
    cases n with
    | mk k v cs =>
      simp only [children_mk] at hw
      have hdec := decides hw hk
      rw [processInsertion] at hok ⊢
      generalize insertionAction cs key = act at hdec hok ⊢
      cases hdec with
      | error =>
        simp only at hok
        split at hok <;> simp at hok
      | create hp hc =>
        simp only at hok ⊢
        by_cases hs : key = ['*']
        · simp only [if_pos hs] at hok ⊢
          obtain ⟨f1, f2, f3, f4⟩ := hf (Node.new key none) .nil hok
          refine ⟨rfl, rfl, ?_, keeps_snoc _, fun h => absurd hs h⟩
          refine SWL.snoc hw (by rw [f1]; exact hs) f4 (fun d hd hsd => ?_)
          refine (hp d hd).2 ?_
          rw [(hw.mem hd).2.2 hsd, hs]
        · simp only [if_neg hs] at hok ⊢
          obtain ⟨f1, f2, f3, f4⟩ := hf (Node.new key none) .nil hok
          have f1 : (f (Node.new key none)).1.key = key := f1
          have hsw : SWL ((f (Node.new key none)).1 :: cs) :=
            .cons (by rw [f1]; exact hk) (fun h => absurd (hst (by rw [← f1]; exact h)) hs) f4 hw
          refine ⟨rfl, rfl, hsw, ?_, fun _ => ?_⟩
          · refine keeps_cons (by rw [f1]; exact hk) (by rw [f1]; exact hs) (by rw [f1]; exact hp) ?_
            rw [isParam, f1]; exact hc
          · refine ⟨Node.new key none, (f (Node.new key none)).1.mws, .nil, hok, ?_⟩
            have := leads_pick (pre := []) (post := cs) (c := (f (Node.new key none)).1)
              (pick_of (post := cs) hsw (by intro d hd; simp at hd) (fun _ => rfl) (by rw [f1]; exact hs))
            rw [f1] at this
            exact this
      | @next pre post c e hck hp hc =>
        subst e
        simp only [modifyChild_mid] at hok ⊢
        have hcm := hw.mem (c := c) (by simp)
        obtain ⟨f1, f2, f3, f4⟩ := hf c hcm.2.1 hok
        have hsw := hw.replace (c' := (f c).1) (by rw [f1]; exact hcm.1) (by rw [f1]; exact fun h => ⟨h, hcm.2.2 h⟩) f4
        refine ⟨rfl, rfl, hsw, keeps_replace hcm.1 f1 f2 f3, fun hs => ⟨c, (f c).1.mws, hcm.2.1, hok, ?_⟩⟩
        have := leads_pick (pre := pre) (post := post) (c := (f c).1)
          (pick_of hsw (by rw [f1, hck]; exact hp) (by rw [isParam, f1, hck]; exact hc) (by rw [f1, hck]; exact hs))
        rw [f1, hck] at this
        exact this
      | @splitKey pre post c rest e hkey hr hp hcp =>
        subst e
        subst hkey
        simp only [sliceFrom_append, processInsertionAt_mid] at hok ⊢
        have hcm := hw.mem (c := c) (by simp)
        have hns : '*' ∉ c.key ++ rest := fun h => append_ne_star hcm.1 hr (hst h)
        have hns' : '*' ∉ c.key ∧ '*' ∉ rest := by simpa using hns
        have hlen : rest.length ≤ N := by
          have := List.length_pos_iff.2 hcm.1
          simp at hl; omega
        have g := ih hlen hcm.2.1 hr (fun h => absurd h hns'.2) hf hok
        have hsw := hw.replace (c' := (processInsertion path c rest f).1) (by rw [g.key]; exact hcm.1)
          (by rw [g.key]; exact fun h => absurd h hns'.1) g.sw
        refine ⟨rfl, rfl, hsw, keeps_replace hcm.1 g.key (by rw [g.value]; exact Le.refl _) g.keeps, fun _ => ?_⟩
        obtain ⟨tgt, ms, t1, t2, t3⟩ := g.new (fun h => hns'.2 (by rw [h]; simp))
        refine ⟨tgt, ms ++ (processInsertion path c rest f).1.mws, t1, t2, ?_⟩
        have hpc : (processInsertion path c rest f).1.isParam = false := by rw [isParam, g.key]; exact hcp
        have := t3.part (pre := pre) (post := post)
          (pick_of hsw (by
            rw [g.key]; intro d hd
            refine ⟨(hp d hd).1, ?_⟩
            rw [head_of_prefix hcm.1 (List.prefix_append c.key rest)]; exact (hp d hd).2)
            (by rw [hpc]; simp) (by rw [g.key]; exact fun h => hns'.1 (by rw [h]; simp))) hpc hr
        rw [g.key] at this
        exact this
      | @splitNode pre post c L ck nk e hck hkey hL hckn hnk hp hcp =>
        subst e
        subst hkey
        simp only [modifyChild_mid] at hok ⊢
        rw [splitNode_eq f hck] at hok ⊢
        have hcm := hw.mem (c := c) (by simp)
        have hstar : '*' ∉ c.key := by
          intro h
          have := hcm.2.2 h
          rw [hck] at this
          exact append_ne_star hL hckn this
        have hst' : '*' ∉ L ∧ '*' ∉ ck := by rw [hck] at hstar; simpa using hstar
        have hswi : SWL [mk ck c.value c.children] :=
          .cons hckn (fun h => absurd h hst'.2) hcm.2.1 .nil
        have hhead : c.key.head? = (L ++ nk).head? := by
          rw [hck, ← head_of_prefix hL (List.prefix_append L ck), ← head_of_prefix hL (List.prefix_append L nk)]
        have hLh : L.head? = (L ++ nk).head? := head_of_prefix hL (List.prefix_append L nk)
        have hLp : startsColon L = false := by
          rw [startsColon_false_iff, hLh, ← hhead]; exact isParam_false_iff.1 hcp
        have hpL : Passed pre L := fun d hd => ⟨(hp d hd).1, by rw [hLh]; exact (hp d hd).2⟩
        by_cases hnil : nk = []
        · subst hnil
          simp only [if_true, List.append_nil] at hok ⊢
          obtain ⟨f1, f2, f3, f4⟩ := hf (mk L none [mk ck c.value c.children]) hswi hok
          have f1 : (f (mk L none [mk ck c.value c.children])).1.key = L := f1
          have hsw := hw.replace (c' := (f (mk L none [mk ck c.value c.children])).1) (by rw [f1]; exact hL)
            (by rw [f1]; exact fun h => absurd h hst'.1) f4
          refine ⟨rfl, rfl, hsw, ?_, fun _ => ⟨mk L none [mk ck c.value c.children],
            (f (mk L none [mk ck c.value c.children])).1.mws, hswi, hok, ?_⟩⟩
          · exact keeps_split (q := []) (r := []) hck hL hckn hstar hcp f1 rfl (by simp) f3
          · have := leads_pick (pre := pre) (post := post) (c := (f (mk L none [mk ck c.value c.children])).1)
              (pick_of hsw (by rw [f1]; exact hpL) (by rw [isParam, f1, hLp]; simp)
                (by rw [f1]; exact fun h => hst'.1 (by rw [h]; simp)))
            rw [f1] at this
            exact this
        · simp only [if_neg hnil] at hok ⊢
          have hnk : nk.head? ≠ ck.head? := hnk.resolve_left hnil
          have hns : '*' ∉ L ++ nk := fun h => append_ne_star hL hnil (hst h)
          have hns' : '*' ∉ nk := fun h => hns (by simp [h])
          obtain ⟨f1, f2, f3, f4⟩ := hf (Node.new nk none) .nil hok
          have f1 : (f (Node.new nk none)).1.key = nk := f1
          have hsw2 : SWL [(f (Node.new nk none)).1, mk ck c.value c.children] :=
            .cons (by rw [f1]; exact hnil) (by rw [f1]; exact fun h => absurd h hns') f4 hswi
          have hsw := hw.replace (c' := mk L none [(f (Node.new nk none)).1, mk ck c.value c.children]) hL
            (fun h => absurd h hst'.1) hsw2
          refine ⟨rfl, rfl, hsw, ?_, fun _ => ⟨Node.new nk none,
            (f (Node.new nk none)).1.mws ++ (mk L none [(f (Node.new nk none)).1, mk ck c.value c.children]).mws, .nil, hok, ?_⟩⟩
          · refine keeps_split (q := [(f (Node.new nk none)).1]) (r := []) hck hL hckn hstar hcp rfl rfl ?_ (Keeps.refl _)
            intro d hd
            rw [List.mem_singleton.1 hd, f1]; exact ⟨hnil, hnk⟩
          · have h0 := leads_pick (pre := []) (post := [mk ck c.value c.children]) (c := (f (Node.new nk none)).1)
              (pick_of (post := [mk ck c.value c.children]) hsw2 (by intro d hd; simp at hd) (fun _ => rfl)
                (by rw [f1]; exact fun h => hns' (by rw [h]; simp)))
            rw [f1] at h0
            exact Leads.part (pre := pre) (post := post) (c := mk L none [(f (Node.new nk none)).1, mk ck c.value c.children])
              (pick_of hsw hpL (by rw [isParam, key_mk, hLp]; simp)
                (fun h => hst'.1 (by rw [key_mk] at h; rw [h]; simp))) (by rw [isParam, key_mk, hLp]) hnil h0

end Node
end Obsidian
