import Verif.Spec.Names
import Verif.Proofs.LogEq
import Verif.Proofs.RunRegs
import Verif.Proofs.Static
import Verif.Proofs.Bridge

/-
Paths as lists of characters and whole parameters.
-/
namespace Obsidian.Spec
open Obsidian
variable {M H : Type}

/-- A character of a path, or a parameter. -/
inductive Tok where
  | chr (c : Char)
  | par (x : Str)

def toksSeg : Str → List Tok
  | ':' :: x => [.par x]
  | t => t.map .chr

def toks (ss : List Str) : List Tok := ss.flatMap toksSeg

def Tok.text : Tok → Str
  | .chr c => [c]
  | .par x => ':' :: x

def render (T : List Tok) : Str := T.flatMap Tok.text

@[simp] theorem render_nil : render [] = [] := rfl
@[simp] theorem render_cons (t : Tok) (T : List Tok) : render (t :: T) = t.text ++ render T := by simp [render]
@[simp] theorem render_append (T T' : List Tok) : render (T ++ T') = render T ++ render T' := by simp [render]
@[simp] theorem toks_nil : toks [] = [] := rfl
@[simp] theorem toks_cons (t : Str) (ss : List Str) : toks (t :: ss) = toksSeg t ++ toks ss := by simp [toks]
@[simp] theorem toks_append (ss ss' : List Str) : toks (ss ++ ss') = toks ss ++ toks ss' := by simp [toks]

theorem text_ne (t : Tok) : t.text ≠ [] := by cases t <;> simp [Tok.text]

theorem render_chars (u : Str) : render (u.map .chr) = u := by
  induction u with
  | nil => rfl
  | cons c u ih => simp [Tok.text, ih]

/-- A segment that is no parameter. -/
theorem toksSeg_other {t : Str} (h : ∀ x, t ≠ ':' :: x) : toksSeg t = t.map .chr := by
  unfold toksSeg
  split
  · next x => exact absurd rfl (h x)
  · rfl

theorem seg_cases (t : Str) : (∃ x, t = ':' :: x) ∨ ∀ x, t ≠ ':' :: x := by
  cases t with
  | nil => exact .inr nofun
  | cons c u =>
    by_cases h : c = ':'
    · subst h; exact .inl ⟨u, rfl⟩
    · exact .inr fun x e => h (by injection e)

theorem render_toksSeg (t : Str) : render (toksSeg t) = t := by
  rcases seg_cases t with ⟨x, rfl⟩ | h
  · simp [toksSeg, Tok.text]
  · rw [toksSeg_other h, render_chars]

theorem render_toks (ss : List Str) : render (toks ss) = flat ss := by
  induction ss with
  | nil => rfl
  | cons t ss ih => rw [toks_cons, render_append, render_toksSeg, ih]; rfl

theorem render_eq_nil {T : List Tok} (h : render T = []) : T = [] := by
  cases T with
  | nil => rfl
  | cons t T =>
    rw [render_cons, List.append_eq_nil_iff] at h
    exact absurd h.1 (text_ne t)

/-- Beginnings of the same list are told apart by their characters. -/
theorem render_inj {P Q T : List Tok} (hP : P <+: T) (hQ : Q <+: T) (h : render P = render Q) : P = Q := by
  rcases List.prefix_or_prefix_of_prefix hP hQ with ⟨R, rfl⟩ | ⟨R, rfl⟩
  · rw [render_append, List.self_eq_append_right] at h
    rw [render_eq_nil h, List.append_nil]
  · rw [render_append] at h
    replace h := List.append_right_eq_self.1 h
    rw [render_eq_nil h, List.append_nil]

theorem toks_of_hasSeg {ss : List Str} {p x : Str} (h : HasSeg ss p (':' :: x)) :
    ∃ P R, toks ss = P ++ .par x :: R ∧ render P = p := by
  obtain ⟨pre, post, rfl, rfl⟩ := h
  exact ⟨toks pre, toks post, by simp [toksSeg], render_toks pre⟩

theorem hasSeg_of_toks {ss : List Str} {P R : List Tok} {x : Str} (h : toks ss = P ++ .par x :: R) :
    HasSeg ss (render P) (':' :: x) := by
  induction ss generalizing P with
  | nil => simp at h
  | cons t ss ih =>
    rw [toks_cons] at h
    rcases seg_cases t with ⟨y, rfl⟩ | ht
    · rw [show toksSeg (':' :: y) = [.par y] from rfl] at h
      cases P with
      | nil => simp at h; rw [h.1]; exact ⟨[], ss, rfl, rfl⟩
      | cons a P =>
        simp at h
        obtain ⟨rfl, h⟩ := h
        obtain ⟨pre, post, rfl, h2⟩ := ih h
        exact ⟨(':' :: y) :: pre, post, rfl, by rw [render_cons, ← h2]; rfl⟩
    · rw [toksSeg_other ht, List.append_eq_append_iff] at h
      rcases h with ⟨A, rfl, h⟩ | ⟨A, h1, h2⟩
      · obtain ⟨pre, post, rfl, h2⟩ := ih h
        exact ⟨t :: pre, post, rfl, by rw [render_append, render_chars, ← h2]; rfl⟩
      · cases A with
        | nil =>
          simp at h1 h2
          obtain ⟨pre, post, rfl, h3⟩ := ih (P := []) h2.symm
          refine ⟨t :: pre, post, rfl, ?_⟩
          rw [← h1, render_chars, flat_cons, h3]; simp
        | cons a A =>
          simp at h2
          have : Tok.par x ∈ t.map Tok.chr := by rw [h1, h2.1]; simp
          simp at this

/-! ### Paths that do not clash -/

/-- Two lists that part only at characters. -/
inductive Agree : List Tok → List Tok → Prop
  | nilL (T) : Agree [] T
  | nilR (T) : Agree T []
  | cons (a) {T T'} : Agree T T' → Agree (a :: T) (a :: T')
  | diff {c d : Char} (T T') : c ≠ d → Agree (.chr c :: T) (.chr d :: T')

/-- As above, but the first list may have a character other than a colon where the second one has a parameter. -/
inductive Sees : List Tok → List Tok → Prop
  | nilL (T) : Sees [] T
  | nilR (T) : Sees T []
  | cons (a) {T T'} : Sees T T' → Sees (a :: T) (a :: T')
  | diff {c d : Char} (T T') : c ≠ d → Sees (.chr c :: T) (.chr d :: T')
  | par {c : Char} (x : Str) (T T') : c ≠ ':' → Sees (.chr c :: T) (.par x :: T')

theorem Agree.sees {T T' : List Tok} (h : Agree T T') : Sees T T' := by
  induction h with
  | nilL T => exact .nilL T
  | nilR T => exact .nilR T
  | cons a _ ih => exact .cons a ih
  | diff T T' h => exact .diff T T' h

theorem Agree.symm {T T' : List Tok} (h : Agree T T') : Agree T' T := by
  induction h with
  | nilL T => exact .nilR T
  | nilR T => exact .nilL T
  | cons a _ ih => exact .cons a ih
  | diff T T' h => exact .diff T' T h.symm

theorem Agree.left {T T' P R : List Tok} (h : Agree T T') (e : T = P ++ R) : Agree P T' := by
  induction h generalizing P with
  | nilL T => cases P with
    | nil => exact .nilL T
    | cons => simp at e
  | nilR T => exact .nilR P
  | cons a _ ih => cases P with
    | nil => exact .nilL _
    | cons b P => simp at e; obtain ⟨rfl, e⟩ := e; exact .cons a (ih e)
  | diff T T' h => cases P with
    | nil => exact .nilL _
    | cons b P => simp at e; obtain ⟨rfl, e⟩ := e; exact .diff P T' h

theorem Agree.tail {P T T' : List Tok} (h : Agree (P ++ T) (P ++ T')) : Agree T T' := by
  induction P with
  | nil => exact h
  | cons a P ih =>
    cases h with
    | cons _ h => exact ih h
    | diff _ _ h => exact absurd rfl h

theorem Sees.left {T T' P R : List Tok} (h : Sees T T') (e : T = P ++ R) : Sees P T' := by
  induction h generalizing P with
  | nilL T => cases P with
    | nil => exact .nilL T
    | cons => simp at e
  | nilR T => exact .nilR P
  | cons a _ ih => cases P with
    | nil => exact .nilL _
    | cons b P => simp at e; obtain ⟨rfl, e⟩ := e; exact .cons a (ih e)
  | diff T T' h => cases P with
    | nil => exact .nilL _
    | cons b P => simp at e; obtain ⟨rfl, e⟩ := e; exact .diff P T' h
  | par x T T' h => cases P with
    | nil => exact .nilL _
    | cons b P => simp at e; obtain ⟨rfl, e⟩ := e; exact .par x P T' h

theorem Sees.add {Q T : List Tok} (h : Sees Q T) {s : Str} (hs : ':' ∉ s) : Sees (Q ++ s.map Tok.chr) T := by
  induction h with
  | nilL T =>
    rw [List.nil_append]
    induction s generalizing T with
    | nil => exact .nilL T
    | cons c s ih =>
      simp at hs
      cases T with
      | nil => exact .nilR _
      | cons a T =>
        cases a with
        | chr d =>
          by_cases hcd : c = d
          · subst hcd; exact .cons _ (ih hs.2 T)
          · exact .diff _ _ hcd
        | par x => exact .par x _ _ (fun e => hs.1 e.symm)
  | nilR T => exact .nilR _
  | cons a _ ih => exact .cons a ih
  | diff T T' h => exact .diff _ T' h
  | par x T T' h => exact .par x _ T' h

/-- The added text may begin with a colon where no parameter follows. -/
theorem Sees.add' {Q T : List Tok} (h : Sees Q T) {s : Str} (hs : ':' ∉ s.tail) (hT : Tok.chr ':' ∉ T)
    (hp : ∀ x R, T ≠ Q ++ .par x :: R) : Sees (Q ++ s.map .chr) T := by
  cases s with
  | nil => simpa using h
  | cons c s =>
    by_cases hc : c = ':'
    · subst hc
      induction h with
      | nilL T =>
        cases T with
        | nil => exact .nilR _
        | cons a T =>
          cases a with
          | chr d => exact .diff _ _ fun e => hT (by rw [← e]; simp)
          | par x => exact absurd rfl (hp x T)
      | nilR T => exact .nilR _
      | cons a _ ih =>
        exact .cons a (ih (fun h => hT (by simp [h])) (fun x R e => hp x R (by rw [e]; rfl)))
      | diff T T' h => exact .diff _ T' h
      | par x T T' h => exact .par x _ T' h
    · exact h.add (by simp at hs ⊢; exact ⟨fun e => hc e.symm, hs⟩)

/-- Beginnings by characters are beginnings by whole parameters. -/
theorem Sees.pre {Q T : List Tok} (h : Sees Q T) (hp : render Q <+: render T) : Q <+: T := by
  induction h with
  | nilL T => simp
  | nilR T => rw [render_eq_nil (List.prefix_nil.1 hp)]; simp
  | cons a _ ih =>
    rw [render_cons, render_cons, List.prefix_append_right_inj] at hp
    exact (List.prefix_append_right_inj [a]).2 (ih hp)
  | diff T T' h => simp [Tok.text] at hp; exact absurd hp.1 h
  | par x T T' h => simp [Tok.text] at hp; exact absurd hp.1 h

theorem Sees.pre' {Q T : List Tok} (h : Sees Q T) (hp : render T <+: render Q) : T <+: Q := by
  induction h with
  | nilL T => rw [render_eq_nil (List.prefix_nil.1 hp)]; simp
  | nilR T => simp
  | cons a _ ih =>
    rw [render_cons, render_cons, List.prefix_append_right_inj] at hp
    exact (List.prefix_append_right_inj [a]).2 (ih hp)
  | diff T T' h => simp [Tok.text] at hp; exact absurd hp.1.symm h
  | par x T T' h => simp [Tok.text] at hp; exact absurd hp.1.symm h

theorem prefix_render {P T : List Tok} (h : P <+: T) : render P <+: render T := by
  obtain ⟨R, rfl⟩ := h; simp

theorem Sees.pre_iff {Q T : List Tok} (h : Sees Q T) : render Q <+: render T ↔ Q <+: T := ⟨h.pre, prefix_render⟩

theorem Sees.eq_iff {Q T : List Tok} (h : Sees Q T) : render T = render Q ↔ T = Q := by
  constructor
  · intro e
    have := h.pre (by rw [e]; exact List.prefix_refl _)
    exact (render_inj this (List.prefix_refl T) e.symm).symm
  · rintro rfl; rfl

theorem Sees.next_iff {ss : List Str} {Q : List Tok} (h : Sees Q (toks ss)) {x : Str} :
    HasSeg ss (render Q) (':' :: x) ↔ ∃ R, toks ss = Q ++ .par x :: R := by
  constructor
  · intro hs
    obtain ⟨P, R, e, hP⟩ := toks_of_hasSeg hs
    have h1 : P <+: toks ss := by rw [e]; exact List.prefix_append _ _
    have h2 := h.pre (by rw [← hP]; exact prefix_render h1)
    rw [← render_inj h1 h2 hP]
    exact ⟨R, e⟩
  · rintro ⟨R, e⟩; exact hasSeg_of_toks e

theorem Agree.hasSeg {s t : List Str} (h : Agree (toks s) (toks t)) : ¬ Clash s t := by
  rintro ⟨p, x, h1, h2, h3, h4⟩
  obtain ⟨P, R, e, rfl⟩ := toks_of_hasSeg h1
  refine h4 ?_
  rw [← render_toks] at h2 h3
  suffices ∃ R', toks t = P ++ .par x :: R' by obtain ⟨R', e'⟩ := this; exact hasSeg_of_toks e'
  clear h1 h4
  generalize toks s = T at *
  generalize toks t = T' at *
  induction h generalizing P with
  | nilL T => simp at e
  | nilR T => rw [render_nil, List.prefix_nil] at h2; exact absurd (by rw [h2, render_nil]) h3
  | cons a _ ih =>
    cases P with
    | nil => simp at e; rw [e.1]; exact ⟨_, rfl⟩
    | cons b P =>
      simp at e
      obtain ⟨rfl, e⟩ := e
      rw [render_cons, render_cons, List.prefix_append_right_inj] at h2
      obtain ⟨R', e'⟩ := ih P e h2 (fun h => h3 (by rw [render_cons, render_cons, h]))
      exact ⟨R', by rw [e']; rfl⟩
  | diff T T' h =>
    cases P with
    | nil => simp at e
    | cons b P => simp at e; obtain ⟨rfl, e⟩ := e; simp [Tok.text] at h2; exact absurd h2.1 h

/-- A parameter where the other list continues differently. -/
def TClash (T T' : List Tok) : Prop :=
  ∃ P x R, T = P ++ .par x :: R ∧ render P <+: render T' ∧ render P ≠ render T' ∧
    ¬ ∃ P' R', T' = P' ++ .par x :: R' ∧ render P' = render P

theorem TClash.clash {s t : List Str} (h : TClash (toks s) (toks t)) : Clash s t := by
  obtain ⟨P, x, R, e, h1, h2, h3⟩ := h
  rw [render_toks] at h1 h2
  refine ⟨render P, x, hasSeg_of_toks e, h1, h2, fun hs => h3 ?_⟩
  obtain ⟨P', R', e', hP⟩ := toks_of_hasSeg hs
  exact ⟨P', R', e', hP⟩

theorem TClash.cons {a : Tok} {T T' : List Tok} (h : TClash T T') : TClash (a :: T) (a :: T') := by
  obtain ⟨P, x, R, rfl, h1, h2, h3⟩ := h
  refine ⟨a :: P, x, R, rfl, ?_, ?_, ?_⟩
  · rw [render_cons, render_cons, List.prefix_append_right_inj]; exact h1
  · rw [render_cons, render_cons]; exact fun e => h2 (List.append_cancel_left e)
  · rintro ⟨P', R', e, hP⟩
    cases P' with
    | nil => simp at hP; exact absurd hP.1 (text_ne a)
    | cons b P' =>
      simp at e
      obtain ⟨rfl, e⟩ := e
      rw [render_cons, render_cons] at hP
      exact h3 ⟨P', R', e, List.append_cancel_left hP⟩

theorem TClash.head {x : Str} {b : Tok} {T T' : List Tok} (h : Tok.par x ≠ b) : TClash (.par x :: T) (b :: T') := by
  refine ⟨[], x, T, rfl, by simp, ?_, ?_⟩
  · simp [text_ne b]
  · rintro ⟨P', R', e, hP⟩
    rw [render_eq_nil hP] at e
    simp at e
    exact h e.1.symm

theorem agree_of {T T' : List Tok} (h : ¬ TClash T T') (h' : ¬ TClash T' T) : Agree T T' := by
  induction T generalizing T' with
  | nil => exact .nilL _
  | cons a T ih =>
    cases T' with
    | nil => exact .nilR _
    | cons b T' =>
      by_cases hab : a = b
      · subst hab
        exact .cons a (ih (fun c => h c.cons) (fun c => h' c.cons))
      · cases a with
        | par x => exact absurd (TClash.head hab) h
        | chr c =>
          cases b with
          | par x => exact absurd (TClash.head (Ne.symm hab)) h'
          | chr d => exact .diff _ _ (fun e => hab (by rw [e]))

/-- Clashes, in terms of whole parameters. -/
theorem agree_iff {s t : List Str} : Agree (toks s) (toks t) ↔ ¬ Clash s t ∧ ¬ Clash t s :=
  ⟨fun h => ⟨h.hasSeg, h.symm.hasSeg⟩, fun h => agree_of (fun c => h.1 c.clash) (fun c => h.2 c.clash)⟩

/-! ### Other names -/

def renTok (ρ : Str → Str) : Tok → Tok
  | .chr c => .chr c
  | .par x => .par (ρ x)

theorem renSeg_other (ρ : Str → Str) {t : Str} (h : ∀ x, t ≠ ':' :: x) : renSeg ρ t = t := by
  unfold renSeg
  split
  · next x => exact absurd rfl (h x)
  · rfl

theorem toksSeg_ren (ρ : Str → Str) (t : Str) : toksSeg (renSeg ρ t) = (toksSeg t).map (renTok ρ) := by
  rcases seg_cases t with ⟨x, rfl⟩ | h
  · rfl
  · rw [renSeg_other ρ h, toksSeg_other h]; simp [renTok]

theorem toks_ren (ρ : Str → Str) (ss : List Str) :
    toks (ss.map (renSeg ρ)) = (toks ss).map (renTok ρ) := by
  induction ss with
  | nil => rfl
  | cons t ss ih => simp only [List.map_cons, toks_cons, toksSeg_ren, ih, List.map_append]

theorem renTok_inj {ρ : Str → Str} (h : Renaming ρ) {a b : Tok} (e : renTok ρ a = renTok ρ b) : a = b := by
  cases a <;> cases b <;> simp [renTok] at e ⊢
  · exact e
  · exact h.inj _ _ e

theorem renToks_inj {ρ : Str → Str} (h : Renaming ρ) {T T' : List Tok} :
    T.map (renTok ρ) = T'.map (renTok ρ) ↔ T = T' :=
  ⟨fun e => (List.map_inj_right (fun _ _ => renTok_inj h)).1 e, fun e => by rw [e]⟩

theorem Sees.ren {ρ : Str → Str} {T T' : List Tok} (h : Sees T T') : Sees (T.map (renTok ρ)) (T'.map (renTok ρ)) := by
  induction h with
  | nilL T => exact .nilL _
  | nilR T => exact .nilR _
  | cons a _ ih => exact .cons _ ih
  | diff T T' h => exact .diff _ _ h
  | par x T T' h => exact .par _ _ _ h

theorem par_agree {x y : Str} {T T' : List Tok} (h : Agree (.par x :: T) (.par y :: T')) : x = y := by
  cases h; rfl

theorem agree_ren {ρ : Str → Str} (hρ : Renaming ρ) {T T' : List Tok} :
    Agree (T.map (renTok ρ)) (T'.map (renTok ρ)) ↔ Agree T T' := by
  constructor
  · intro h
    induction T generalizing T' with
    | nil => exact .nilL _
    | cons a T ih =>
      cases T' with
      | nil => exact .nilR _
      | cons b T' =>
        by_cases hab : a = b
        · subst hab
          refine .cons a (ih ?_)
          exact Agree.tail (P := [renTok ρ a]) h
        · have hne : renTok ρ a ≠ renTok ρ b := fun e => hab (renTok_inj hρ e)
          cases a <;> cases b <;> simp only [List.map_cons, renTok] at h hne
          · cases h with
            | cons => exact absurd rfl hne
            | diff _ _ h => exact .diff _ _ h
          · cases h
          · cases h
          · exact absurd (by rw [par_agree h]) hne
  · intro h
    induction h with
    | nilL T => exact .nilL _
    | nilR T => exact .nilR _
    | cons a _ ih => exact .cons _ ih
    | diff T T' h => exact .diff _ _ h

theorem prefix_ren {ρ : Str → Str} (hρ : Renaming ρ) {P T : List Tok} :
    P.map (renTok ρ) <+: T.map (renTok ρ) ↔ P <+: T := by
  constructor
  · intro h
    induction P generalizing T with
    | nil => simp
    | cons a P ih =>
      cases T with
      | nil => simp at h
      | cons b T =>
        simp only [List.map_cons, List.cons_prefix_cons] at h
        rw [renTok_inj hρ h.1, List.cons_prefix_cons]
        exact ⟨rfl, ih h.2⟩
  · exact fun h => h.map _

/-! ### The log -/

def renEntry (ρ : Str → Str) (e : Entry M H) : Entry M H := ⟨e.segs.map (renSeg ρ), e.what⟩

def renLog (ρ : Str → Str) (L : Log M H) : Log M H := L.map (renEntry ρ)

theorem renSeg_ne {ρ : Str → Str} {t : Str} (h : t ≠ []) : renSeg ρ t ≠ [] := by
  rcases seg_cases t with ⟨x, rfl⟩ | ht
  · simp [renSeg]
  · rw [renSeg_other ρ ht]; exact h

theorem mem_renSeg {ρ : Str → Str} {t : Str} {c : Char} (h : ∀ x, c ∈ ρ x ↔ c ∈ x) : c ∈ renSeg ρ t ↔ c ∈ t := by
  rcases seg_cases t with ⟨x, rfl⟩ | ht
  · simp [renSeg, h]
  · rw [renSeg_other ρ ht]

theorem segments_ren {ρ : Str → Str} (hρ : Renaming ρ) (p : Str) :
    segments (renPath ρ p) = (segments p).map (renSeg ρ) := by
  refine segments_pathOf fun s hs => ?_
  obtain ⟨t, ht, rfl⟩ := List.mem_map.1 hs
  obtain ⟨h1, h2⟩ := segments_names p t ht
  exact ⟨renSeg_ne h1, fun h => h2 ((mem_renSeg hρ.slash).1 h)⟩

theorem cleanPath_ren {ρ : Str → Str} (hρ : Renaming ρ) {p : Str} (h : CleanPath p) : CleanPath (renPath ρ p) := by
  intro s hs
  rw [segments_ren hρ] at hs
  obtain ⟨t, ht, rfl⟩ := List.mem_map.1 hs
  have := h t ht
  rcases seg_cases t with ⟨x, rfl⟩ | h'
  · simp [renSeg, hρ.colon] at this ⊢; exact this
  · rw [renSeg_other ρ h']; exact this

mutual
theorem cleanReg_ren {ρ : Str → Str} (hρ : Renaming ρ) : ∀ {c : Reg M H}, CleanReg c → CleanReg (renReg ρ c)
  | .get _ _, h | .post _ _, h | .put _ _, h | .patch _ _, h | .delete _ _, h => cleanPath_ren hρ h
  | .useService _, _ => trivial
  | .useServiceTo _ _, h => cleanPath_ren hρ h
  | .useRouter _ _, h => ⟨cleanPath_ren hρ h.1, cleanRegs_ren hρ h.2⟩
  | .scope _ _, h => ⟨cleanPath_ren hρ h.1, cleanRegs_ren hρ h.2⟩
theorem cleanRegs_ren {ρ : Str → Str} (hρ : Renaming ρ) :
    ∀ {cs : List (Reg M H)}, CleanRegs cs → CleanRegs (renRegs ρ cs)
  | [], _ => trivial
  | _ :: _, h => ⟨cleanReg_ren hρ h.1, cleanRegs_ren hρ h.2⟩
end

theorem mountLog_ren (ρ : Str → Str) (ss : List Str) (L S : Log M H) :
    mountLog (ss.map (renSeg ρ)) (renLog ρ L) (renLog ρ S) = renLog ρ (mountLog ss L S) := by
  by_cases h : ss = []
  · simp [mountLog, h]
  · simp [mountLog, h, renLog, renEntry, Entry.under, Function.comp_def]

mutual
theorem logReg_ren {ρ : Str → Str} (hρ : Renaming ρ) :
    ∀ (c : Reg M H) (L : Log M H), logReg (renReg ρ c) (renLog ρ L) = renLog ρ (logReg c L)
  | .get _ _, L | .post _ _, L | .put _ _, L | .patch _ _, L | .delete _ _, L => by
    simp [renReg, logReg, renLog, renEntry, segments_ren hρ]
  | .useService _, L => by simp [renReg, logReg, renLog, renEntry]
  | .useServiceTo p _, L => by
    by_cases h : segments p = []
    · simp [renReg, logReg, segments_ren hρ, h]
    · simp [renReg, logReg, renLog, renEntry, segments_ren hρ, h]
  | .useRouter p sub, L => by
    have := logRegs_ren hρ sub []
    simp only [renReg, logReg, segments_ren hρ]
    rw [show renLog ρ ([] : Log M H) = [] from rfl] at this
    rw [this, mountLog_ren]
  | .scope p sub, L => by
    have := logRegs_ren hρ sub []
    simp only [renReg, logReg, segments_ren hρ]
    rw [show renLog ρ ([] : Log M H) = [] from rfl] at this
    rw [this, mountLog_ren]
theorem logRegs_ren {ρ : Str → Str} (hρ : Renaming ρ) :
    ∀ (cs : List (Reg M H)) (L : Log M H), logRegs (renRegs ρ cs) (renLog ρ L) = renLog ρ (logRegs cs L)
  | [], _ => rfl
  | c :: cs, L => by
    simp only [renRegs, logRegs]
    rw [logReg_ren hρ c L, logRegs_ren hρ cs]
end

theorem logOf_ren {ρ : Str → Str} (hρ : Renaming ρ) (prog : List (Reg M H)) :
    logOf (renRegs ρ prog) = renLog ρ (logOf prog) := logRegs_ren hρ prog []

/-! ### Acceptance -/

theorem starsOK_ren {ρ : Str → Str} (hρ : Renaming ρ) {ss : List Str} :
    StarsOK (ss.map (renSeg ρ)) ↔ StarsOK ss := by
  have hone : ∀ t, renSeg ρ t = ['*'] ↔ t = ['*'] := by
    intro t
    rcases seg_cases t with ⟨x, rfl⟩ | ht
    · simp [renSeg]
    · rw [renSeg_other ρ ht]
  constructor
  · intro h pre s post e hs
    obtain ⟨h1, h2⟩ := h (pre.map (renSeg ρ)) (renSeg ρ s) (post.map (renSeg ρ)) (by rw [e]; simp)
      ((mem_renSeg hρ.star).2 hs)
    exact ⟨(hone s).1 h1, List.map_eq_nil_iff.1 h2⟩
  · intro h pre s post e hs
    obtain ⟨pre', post', rfl, rfl, e2⟩ := List.map_eq_append_iff.1 e
    obtain ⟨t, post'', rfl, rfl, rfl⟩ := List.map_eq_cons_iff.1 e2
    obtain ⟨h1, h2⟩ := h pre' t post'' rfl ((mem_renSeg hρ.star).1 hs)
    exact ⟨(hone t).2 h1, by rw [h2]; rfl⟩

theorem noClash_agree {L : Log M H} {ss : List Str} :
    NoClash L ss ↔ ∀ e ∈ L, Agree (toks e.segs) (toks ss) := by
  simp only [NoClash, agree_iff]

theorem noClash_ren {ρ : Str → Str} (hρ : Renaming ρ) {L : Log M H} {ss : List Str} :
    NoClash (renLog ρ L) (ss.map (renSeg ρ)) ↔ NoClash L ss := by
  simp only [noClash_agree, renLog, List.forall_mem_map, renEntry, toks_ren, agree_ren hρ]

/-- The place is seen the same way from all entries. -/
def Near (L : Log M H) (Q : List Tok) : Prop := ∀ e ∈ L, Sees Q (toks e.segs)

theorem Near.ren {ρ : Str → Str} {L : Log M H} {Q : List Tok} (h : Near L Q) :
    Near (renLog ρ L) (Q.map (renTok ρ)) := by
  intro e he
  obtain ⟨e', he', rfl⟩ := List.mem_map.1 he
  rw [renEntry, toks_ren]
  exact (h e' he').ren

theorem NoClash.near {L : Log M H} {ss : List Str} (h : NoClash L ss) : Near L (toks ss) :=
  fun e he => ((noClash_agree.1 h e he).symm).sees

theorem Near.at {ρ : Str → Str} (hρ : Renaming ρ) {L : Log M H} {Q : List Tok} (h : Near L Q)
    {e : Entry M H} (he : e ∈ L) :
    (renEntry ρ e).isAt (render (Q.map (renTok ρ))) = e.isAt (render Q) := by
  rw [Bool.eq_iff_iff, isAt_iff, isAt_iff, renEntry, ← render_toks, ← render_toks, toks_ren,
    (h e he).ren.eq_iff, (h e he).eq_iff, renToks_inj hρ]

theorem filterMap_ext {α β : Type} {f g : α → Option β} {l : List α} (h : ∀ a ∈ l, f a = g a) :
    l.filterMap f = l.filterMap g := by
  induction l with
  | nil => rfl
  | cons a l ih =>
    rw [List.filterMap_cons, List.filterMap_cons, h a (by simp), ih fun b hb => h b (by simp [hb])]

theorem Near.mwsAt {ρ : Str → Str} (hρ : Renaming ρ) {L : Log M H} {Q : List Tok} (h : Near L Q) :
    mwsAt (renLog ρ L) (render (Q.map (renTok ρ))) = mwsAt L (render Q) := by
  rw [Spec.mwsAt, Spec.mwsAt, renLog, List.filterMap_map]
  exact filterMap_ext fun e he => by simp only [Function.comp, h.at hρ he]; rfl

theorem Near.routeAt {ρ : Str → Str} (hρ : Renaming ρ) {L : Log M H} {Q : List Tok} (h : Near L Q)
    (m : Method) : routeAt (renLog ρ L) (render (Q.map (renTok ρ))) m = routeAt L (render Q) m := by
  rw [Spec.routeAt, Spec.routeAt, renLog, List.filterMap_map]
  exact congrArg _ (filterMap_ext fun e he => by simp only [Function.comp, h.at hρ he]; rfl)

theorem Near.hasEntry {ρ : Str → Str} (hρ : Renaming ρ) {L : Log M H} {Q : List Tok} (h : Near L Q) :
    hasEntry (renLog ρ L) (render (Q.map (renTok ρ))) = hasEntry L (render Q) := by
  rw [Bool.eq_iff_iff]
  simp only [Spec.hasEntry, List.any_eq_true, Bool.and_eq_true, renLog, List.mem_map]
  constructor
  · rintro ⟨_, ⟨e, he, rfl⟩, h1, h2⟩
    exact ⟨e, he, by rw [← h.at hρ he]; exact h1, h2⟩
  · rintro ⟨e, he, h1, h2⟩
    exact ⟨_, ⟨e, he, rfl⟩, by rw [h.at hρ he]; exact h1, h2⟩

theorem flat_ren (ρ : Str → Str) (ss : List Str) :
    flat (ss.map (renSeg ρ)) = render ((toks ss).map (renTok ρ)) := by rw [← render_toks, toks_ren]

theorem free_ren {ρ : Str → Str} (hρ : Renaming ρ) {L : Log M H} {ss : List Str} (h : NoClash L ss) :
    Free (renLog ρ L) (flat (ss.map (renSeg ρ))) ↔ Free L (flat ss) := by
  have hn := h.near
  rw [Free, Free, flat_ren, ← render_toks, hn.hasEntry hρ]
  refine and_congr Iff.rfl ?_
  simp only [renLog, List.forall_mem_map]
  refine forall_congr' fun e => forall_congr' fun he => ?_
  have h1 := hn e he
  rw [renEntry, flat_ren, ← render_toks, h1.ren.pre_iff, h1.ren.eq_iff, h1.pre_iff, h1.eq_iff,
    prefix_ren hρ, renToks_inj hρ]

theorem routeOK_ren {ρ : Str → Str} (hρ : Renaming ρ) {L : Log M H} {m : Method} {ss : List Str} :
    RouteOK (renLog ρ L) m (ss.map (renSeg ρ)) ↔ RouteOK L m ss := by
  rw [RouteOK, RouteOK, starsOK_ren hρ, noClash_ren hρ]
  refine and_congr_right fun _ => and_congr_right fun h => ?_
  rw [flat_ren, h.near.routeAt hρ, render_toks]

mutual
theorem regOK_ren {ρ : Str → Str} (hρ : Renaming ρ) :
    ∀ (c : Reg M H) (L : Log M H), RegOK (renReg ρ c) (renLog ρ L) ↔ RegOK c L
  | .get _ _, L | .post _ _, L | .put _ _, L | .patch _ _, L | .delete _ _, L => by
    simp only [renReg, RegOK, segments_ren hρ, routeOK_ren hρ]
  | .useService _, L => by simp only [renReg, RegOK]
  | .useServiceTo p _, L => by
    simp only [renReg, RegOK, segments_ren hρ, starsOK_ren hρ, noClash_ren hρ]
  | .useRouter p sub, L => by
    have := regsOK_ren hρ sub []
    rw [show renLog ρ ([] : Log M H) = [] from rfl] at this
    simp only [renReg, RegOK, segments_ren hρ, starsOK_ren hρ, noClash_ren hρ, this, List.map_eq_nil_iff]
    refine and_congr_right fun _ => and_congr_right fun _ => or_congr Iff.rfl (and_congr_right fun h => ?_)
    exact free_ren hρ h
  | .scope p sub, L => by
    have := regsOK_ren hρ sub []
    rw [show renLog ρ ([] : Log M H) = [] from rfl] at this
    simp only [renReg, RegOK, segments_ren hρ, starsOK_ren hρ, noClash_ren hρ, this, List.map_eq_nil_iff]
    refine and_congr_right fun _ => and_congr_right fun _ => or_congr Iff.rfl (and_congr_right fun h => ?_)
    exact free_ren hρ h
theorem regsOK_ren {ρ : Str → Str} (hρ : Renaming ρ) :
    ∀ (cs : List (Reg M H)) (L : Log M H), RegsOK (renRegs ρ cs) (renLog ρ L) ↔ RegsOK cs L
  | [], _ => by simp only [renRegs, RegsOK]
  | c :: cs, L => by
    simp only [renRegs, RegsOK]
    rw [logReg_ren hρ c L, regOK_ren hρ c L, regsOK_ren hρ cs]
end

theorem build_ren {ρ : Str → Str} (hρ : Renaming ρ) {prog : List (Reg M H)} (hc : CleanRegs prog) :
    (build (renRegs ρ prog)).2 = none ↔ (build prog).2 = none := by
  rw [build_iff hc, build_iff (cleanRegs_ren hρ hc)]
  exact regsOK_ren hρ prog []

/-! ### Lookup -/

theorem tidy_agree {L : Log M H} (h : Tidy L) {e e' : Entry M H} (he : e ∈ L) (he' : e' ∈ L) :
    Agree (toks e.segs) (toks e'.segs) := agree_iff.2 ⟨h.noClash e he e' he', h.noClash e' he' e he⟩

theorem Near.add {L : Log M H} {Q : List Tok} (h : Near L Q) {s : Str} (hs : ':' ∉ s) :
    Near L (Q ++ s.map Tok.chr) := fun e he => (h e he).add hs

theorem Near.left {L : Log M H} {P R : List Tok} (h : Near L (P ++ R)) : Near L P :=
  fun e he => (h e he).left rfl

theorem tidy_colon {L : Log M H} (h : Tidy L) {e : Entry M H} (he : e ∈ L) : Tok.chr ':' ∉ toks e.segs := by
  intro hm
  obtain ⟨t, ht, hm⟩ := List.mem_flatMap.1 hm
  rcases seg_cases t with ⟨x, rfl⟩ | h'
  · simp [toksSeg] at hm
  · rw [toksSeg_other h'] at hm
    simp at hm
    rcases h.clean e he t ht with ⟨x, rfl, _⟩ | rfl | ⟨_, hx, _⟩
    · exact h' x rfl
    · simp at hm
    · exact hx hm

theorem Near.add' {L : Log M H} (hL : Tidy L) {Q : List Tok} (h : Near L Q) {s : Str} (hs : ':' ∉ s.tail)
    (hp : paramAt L (render Q) = none) : Near L (Q ++ s.map .chr) := fun e he =>
  (h e he).add' hs (tidy_colon hL he) fun x _ e1 => paramAt_none hp e he x (hasSeg_of_toks e1)

theorem near_nil (L : Log M H) : Near L [] := fun _ _ => .nilL _

theorem Near.param {L : Log M H} (hL : Tidy L) {Q : List Tok} (h : Near L Q) {x : Str}
    (hx : paramAt L (render Q) = some x) : Near L (Q ++ [.par x]) := by
  obtain ⟨e, he, hs⟩ := paramAt_some hx
  obtain ⟨R, e1⟩ := ((h e he).next_iff).1 hs
  intro e' he'
  exact ((tidy_agree hL he he').left (P := Q ++ [.par x]) (R := R) (by rw [e1]; simp)).sees

theorem Near.paramAt {ρ : Str → Str} (hρ : Renaming ρ) {L : Log M H} (hL : Tidy L) (hL' : Tidy (renLog ρ L))
    {Q : List Tok} (h : Near L Q) :
    paramAt (renLog ρ L) (render (Q.map (renTok ρ))) = (paramAt L (render Q)).map ρ := by
  refine opt_eq fun y => ?_
  rw [hL'.paramAt_iff, Option.map_eq_some_iff]
  constructor
  · rintro ⟨_, h0, hs⟩
    obtain ⟨e, he, rfl⟩ := List.mem_map.1 h0
    rw [renEntry] at hs
    have h1 : Sees (Q.map (renTok ρ)) (toks (e.segs.map (renSeg ρ))) := by rw [toks_ren]; exact (h e he).ren
    obtain ⟨R, e1⟩ := h1.next_iff.1 hs
    rw [toks_ren] at e1
    obtain ⟨P, R', e2, e3, e4⟩ := List.map_eq_append_iff.1 e1
    obtain ⟨a, R'', rfl, e5, e6⟩ := List.map_eq_cons_iff.1 e4
    rw [renToks_inj hρ] at e3
    subst e3
    cases a with
    | chr c => simp [renTok] at e5
    | par x =>
      simp [renTok] at e5
      exact ⟨x, hL.paramAt_iff.2 ⟨e, he, (h e he).next_iff.2 ⟨_, e2⟩⟩, e5⟩
  · rintro ⟨x, hx, rfl⟩
    obtain ⟨e, he, hs⟩ := paramAt_some hx
    obtain ⟨R, e1⟩ := (h e he).next_iff.1 hs
    refine ⟨_, List.mem_map.2 ⟨e, he, rfl⟩, ?_⟩
    rw [renEntry]
    exact hasSeg_of_toks (R := R.map (renTok ρ)) (by rw [toks_ren, e1]; simp [renTok])

theorem segEnd_toks {ss : List Str} {Q : List Tok} (h : Sees Q (toks ss)) :
    SegEnd ss (render Q) ↔ ∃ pre post, ss = pre ++ post ∧ toks pre = Q := by
  constructor
  · rintro ⟨pre, post, rfl, e⟩
    refine ⟨pre, post, rfl, ?_⟩
    have h1 : toks pre <+: toks (pre ++ post) := by rw [toks_append]; exact List.prefix_append _ _
    have e' : render (toks pre) = render Q := by rw [render_toks, e]
    exact render_inj h1 (h.pre (by rw [← e']; exact prefix_render h1)) e'
  · rintro ⟨pre, post, rfl, rfl⟩; exact ⟨pre, post, rfl, (render_toks pre).symm⟩

theorem segEnd_ren {ρ : Str → Str} (hρ : Renaming ρ) {ss : List Str} {Q : List Tok} (h : Sees Q (toks ss)) :
    SegEnd (ss.map (renSeg ρ)) (render (Q.map (renTok ρ))) ↔ SegEnd ss (render Q) := by
  rw [segEnd_toks h, segEnd_toks (by rw [toks_ren]; exact h.ren)]
  constructor
  · rintro ⟨pre, post, e, e2⟩
    obtain ⟨pre', post', rfl, rfl, rfl⟩ := List.map_eq_append_iff.1 e
    rw [toks_ren, renToks_inj hρ] at e2
    exact ⟨pre', post', rfl, e2⟩
  · rintro ⟨pre, post, rfl, rfl⟩
    exact ⟨pre.map (renSeg ρ), post.map (renSeg ρ), by simp, toks_ren ρ pre⟩

/-- Two entries part at the place, at characters. -/
def TFork (L : Log M H) (Q : List Tok) : Prop := ∃ e ∈ L, ∃ e' ∈ L, ∃ c d R R',
  toks e.segs = Q ++ .chr c :: R ∧ toks e'.segs = Q ++ .chr d :: R' ∧ c ≠ d

theorem Near.fork {L : Log M H} (hL : Tidy L) {Q : List Tok} (h : Near L Q) : Fork L (render Q) ↔ TFork L Q := by
  constructor
  · rintro ⟨e, he, e', he', a, b, u, v, h1, h2, hab⟩
    obtain ⟨R, e1⟩ := (h e he).pre (by rw [render_toks, h1]; exact List.prefix_append _ _)
    obtain ⟨R', e2⟩ := (h e' he').pre (by rw [render_toks, h2]; exact List.prefix_append _ _)
    have hf := tidy_agree hL he he'
    rw [← e1, ← e2] at hf
    have hf := hf.tail
    rw [← render_toks, ← e1, render_append, List.append_cancel_left_eq] at h1
    rw [← render_toks, ← e2, render_append, List.append_cancel_left_eq] at h2
    cases hf with
    | nilL => simp at h1
    | nilR => simp at h2
    | cons t =>
      exfalso
      rw [render_cons] at h1 h2
      cases t <;> simp [Tok.text] at h1 h2 <;> exact hab (h1.1.symm.trans h2.1)
    | diff T T' hcd => exact ⟨e, he, e', he', _, _, _, _, e1.symm, e2.symm, hcd⟩
  · rintro ⟨e, he, e', he', c, d, R, R', h1, h2, hcd⟩
    exact ⟨e, he, e', he', c, d, render R, render R', by rw [← render_toks, h1]; simp [Tok.text],
      by rw [← render_toks, h2]; simp [Tok.text], hcd⟩

theorem map_split {ρ : Str → Str} (hρ : Renaming ρ) {T Q R : List Tok} {c : Char}
    (h : T.map (renTok ρ) = Q.map (renTok ρ) ++ .chr c :: R) : ∃ R', T = Q ++ .chr c :: R' := by
  obtain ⟨P, R', e2, e3, e4⟩ := List.map_eq_append_iff.1 h
  obtain ⟨a, R'', rfl, e5, e6⟩ := List.map_eq_cons_iff.1 e4
  rw [renToks_inj hρ] at e3
  subst e3
  cases a with
  | chr d => simp [renTok] at e5; subst e5; exact ⟨_, e2⟩
  | par x => simp [renTok] at e5

theorem tfork_ren {ρ : Str → Str} (hρ : Renaming ρ) {L : Log M H} {Q : List Tok} :
    TFork (renLog ρ L) (Q.map (renTok ρ)) ↔ TFork L Q := by
  constructor
  · rintro ⟨_, h0, _, h0', c, d, R, R', h1, h2, hcd⟩
    obtain ⟨e, he, rfl⟩ := List.mem_map.1 h0
    obtain ⟨e', he', rfl⟩ := List.mem_map.1 h0'
    rw [renEntry, toks_ren] at h1 h2
    obtain ⟨S, e1⟩ := map_split hρ h1
    obtain ⟨S', e2⟩ := map_split hρ h2
    exact ⟨e, he, e', he', c, d, S, S', e1, e2, hcd⟩
  · rintro ⟨e, he, e', he', c, d, R, R', h1, h2, hcd⟩
    exact ⟨_, List.mem_map.2 ⟨e, he, rfl⟩, _, List.mem_map.2 ⟨e', he', rfl⟩, c, d, R.map (renTok ρ),
      R'.map (renTok ρ), by rw [renEntry, toks_ren, h1]; simp [renTok],
      by rw [renEntry, toks_ren, h2]; simp [renTok], hcd⟩

theorem Near.known {ρ : Str → Str} (hρ : Renaming ρ) {L : Log M H} (hL : Tidy L) (hL' : Tidy (renLog ρ L))
    {Q : List Tok} (h : Near L Q) :
    known (renLog ρ L) (render (Q.map (renTok ρ))) = known L (render Q) := by
  rw [Bool.eq_iff_iff, known_iff, known_iff, h.fork hL, h.ren.fork hL', tfork_ren hρ]
  refine or_congr ?_ Iff.rfl
  constructor
  · rintro ⟨_, h0, hs⟩
    obtain ⟨e, he, rfl⟩ := List.mem_map.1 h0
    exact ⟨e, he, (segEnd_ren hρ (h e he)).1 hs⟩
  · rintro ⟨e, he, hs⟩
    exact ⟨_, List.mem_map.2 ⟨e, he, rfl⟩, (segEnd_ren hρ (h e he)).2 hs⟩

/-- The bindings with the other names. -/
def renBinds (ρ : Str → Str) (b : List (Str × Str)) : List (Str × Str) := b.map fun xv => (ρ xv.1, xv.2)

/-- The same result, up to the names. -/
def SameFind (ρ : Str → Str) (L : Log M H) (r r' : Option (Str × List (Str × Str))) : Prop :=
  (r = none ∧ r' = none) ∨ ∃ Q b, Near L Q ∧ r = some (render Q, b) ∧
    r' = some (render (Q.map (renTok ρ)), renBinds ρ b)

theorem render_add (ρ : Str → Str) (Q : List Tok) (s : Str) :
    render (Q ++ s.map Tok.chr) = render Q ++ s ∧
      render ((Q ++ s.map Tok.chr).map (renTok ρ)) = render (Q.map (renTok ρ)) ++ s := by
  constructor
  · rw [render_append, render_chars]
  · rw [List.map_append, render_append]
    congr 1
    rw [List.map_map]
    exact render_chars s

theorem render_add_par (ρ : Str → Str) (Q : List Tok) (x : Str) :
    render (Q ++ [Tok.par x]) = render Q ++ ':' :: x ∧
      render ((Q ++ [Tok.par x]).map (renTok ρ)) = render (Q.map (renTok ρ)) ++ ':' :: ρ x := by
  simp [Tok.text, renTok]

theorem find_ren {ρ : Str → Str} (hρ : Renaming ρ) {L : Log M H} (hL : Tidy L) (hL' : Tidy (renLog ρ L))
    (req : List Str) (hreq : ∀ s ∈ req, ':' ∉ s.tail) (Q : List Tok) (h : Near L Q) :
    SameFind ρ L (find L (render Q) req) (find (renLog ρ L) (render (Q.map (renTok ρ))) req) := by
  induction req generalizing Q with
  | nil => exact .inl ⟨rfl, rfl⟩
  | cons s rest ih =>
    have hs := hreq s (by simp)
    have hstar : Near L (Q ++ ['*'].map Tok.chr) := h.add (by simp)
    have hk := hstar.known hρ hL hL'
    obtain ⟨s1, s2⟩ := render_add ρ Q ['*']
    rw [s1, s2] at hk
    have hfall : SameFind ρ L (if known L (render Q ++ ['*']) then some (render Q ++ ['*'], []) else none)
        (if known (renLog ρ L) (render (Q.map (renTok ρ)) ++ ['*']) then
          some (render (Q.map (renTok ρ)) ++ ['*'], []) else none) := by
      rw [hk]
      split
      · exact .inr ⟨_, [], hstar, by rw [s1], by rw [s2]; rfl⟩
      · exact .inl ⟨rfl, rfl⟩
    rw [find, find, h.paramAt hρ hL hL']
    cases hp : Spec.paramAt L (render Q) with
    | some x =>
      have hq := h.param hL hp
      obtain ⟨r1, r2⟩ := render_add_par ρ Q x
      have he := hq.hasEntry hρ
      have hr := ih (fun t ht => hreq t (by simp [ht])) _ hq
      rw [r1, r2] at he hr
      simp only [Option.map_some]
      rw [he]
      split
      · split
        · exact .inr ⟨_, _, hq, by rw [r1], by rw [r2]; rfl⟩
        · exact .inl ⟨rfl, rfl⟩
      · rcases hr with ⟨a1, a2⟩ | ⟨Q2, b, a1, a2, a3⟩
        · rw [a1, a2]; exact .inl ⟨rfl, rfl⟩
        · rw [a2, a3]; exact .inr ⟨Q2, _, a1, rfl, rfl⟩
    | none =>
      have hq := h.add' hL hs hp
      obtain ⟨r1, r2⟩ := render_add ρ Q s
      have he := hq.hasEntry hρ
      have hkq := hq.known hρ hL hL'
      have hr := ih (fun t ht => hreq t (by simp [ht])) _ hq
      have hqs : Near L ((Q ++ s.map Tok.chr) ++ ['*'].map Tok.chr) := hq.add (by simp)
      obtain ⟨t1, t2⟩ := render_add ρ (Q ++ s.map Tok.chr) ['*']
      have hes := hqs.hasEntry hρ
      rw [t1, t2] at hes
      rw [r1, r2] at he hr hkq hes
      rw [r1] at t1
      rw [r2] at t2
      simp only [Option.map_none]
      rw [he, hkq, hes]
      by_cases hc : s.head? ≠ some '*' ∧ Spec.known L (render Q ++ s) = true
      · rw [if_pos hc, if_pos hc]
        by_cases h1 : rest.isEmpty = true
        · rw [if_pos h1, if_pos h1]
          by_cases h2 : Spec.hasEntry L (render Q ++ s) = true
          · rw [if_pos h2, if_pos h2]
            exact .inr ⟨_, [], hq, by rw [r1], by rw [r2]; rfl⟩
          · rw [if_neg h2, if_neg h2]
            by_cases h3 : Spec.hasEntry L (render Q ++ s ++ ['*']) = true
            · rw [if_pos h3, if_pos h3]
              exact .inr ⟨_, [], hqs, by rw [t1], by rw [t2]; rfl⟩
            · rw [if_neg h3, if_neg h3]; exact hfall
        · rw [if_neg h1, if_neg h1]
          rcases hr with ⟨a1, a2⟩ | ⟨Q2, b, a1, a2, a3⟩
          · rw [a1, a2]; exact hfall
          · rw [a2, a3]; exact .inr ⟨Q2, _, a1, rfl, rfl⟩
      · rw [if_neg hc, if_neg hc]; exact hfall

theorem lookup_ren {ρ : Str → Str} (hρ : Renaming ρ) {L : Log M H} (hL : Tidy L) (hL' : Tidy (renLog ρ L))
    {path : Str} (hp : CleanPath path) : SameFind ρ L (lookup L path) (lookup (renLog ρ L) path) := by
  have hf : SameFind ρ L (if segments path = [] then some ([], []) else find L [] (segments path))
      (if segments path = [] then some ([], []) else find (renLog ρ L) [] (segments path)) := by
    split
    · exact .inr ⟨[], [], near_nil L, rfl, rfl⟩
    · exact find_ren hρ hL hL' _ hp [] (near_nil L)
  rw [lookup, lookup]
  rcases hf with ⟨a1, a2⟩ | ⟨Q, b, a1, a2, a3⟩
  · simp only [a1, a2]; exact .inl ⟨rfl, rfl⟩
  · simp only [a2, a3, a1.hasEntry hρ]
    split
    · exact .inr ⟨Q, b, a1, rfl, rfl⟩
    · exact .inl ⟨rfl, rfl⟩

/-! ### Chains -/

/-- Nothing is registered inside a name of a parameter. -/
theorem Near.inside {L : Log M H} {P R : List Tok} {x : Str} (h : Near L (P ++ .par x :: R)) {w v : Str}
    (hw : w ≠ []) (hv : v ≠ []) (e : ':' :: x = w ++ v) : Spec.hasEntry L (render P ++ w) = false := by
  cases he : Spec.hasEntry L (render P ++ w) with
  | false => rfl
  | true =>
    exfalso
    obtain ⟨e', hm, hf, _⟩ := hasEntry_iff.1 he
    have hpre : toks e'.segs <+: P ++ .par x :: R := by
      refine (h e' hm).pre' ?_
      rw [render_toks, hf, render_append, render_cons, show Tok.text (.par x) = w ++ v from e]
      simp
    have hr : render (toks e'.segs) = render P ++ w := by rw [render_toks, hf]
    rcases List.prefix_or_prefix_of_prefix hpre (List.prefix_append P (.par x :: R)) with h1 | h1
    · have := (prefix_render h1).length_le
      rw [hr] at this
      have := List.length_pos_iff.2 hw
      rw [List.length_append] at *
      omega
    · obtain ⟨S, hS⟩ := h1
      rw [← hS, List.prefix_append_right_inj] at hpre
      rw [← hS, render_append, List.append_cancel_left_eq] at hr
      cases S with
      | nil => simp at hr; exact hw hr
      | cons a S =>
        rw [List.cons_prefix_cons] at hpre
        rw [hpre.1, render_cons, show Tok.text (.par x) = w ++ v from e] at hr
        have := congrArg List.length hr
        have := List.length_pos_iff.2 hv
        simp only [List.length_append] at *
        omega

theorem upTo_inside {L : Log M H} (y : Str) (p : Str) (hy : y ≠ [])
    (h : ∀ w v, w ≠ [] → v ≠ [] → y = w ++ v → Spec.hasEntry L (p ++ w) = false) :
    upTo L p y = Spec.mwsAt L (p ++ y) := by
  induction y generalizing p with
  | nil => exact absurd rfl hy
  | cons c y ih =>
    cases y with
    | nil => simp [upTo]
    | cons d y =>
      rw [upTo, ih (p ++ [c]) (by simp) fun w v hw hv e => by
        have := h (c :: w) v (by simp) hv (by rw [e]; rfl)
        rw [List.append_assoc]; exact this]
      rw [mwsAt_nil_of (h [c] (d :: y) (by simp) (by simp) rfl)]
      simp

theorem upTo_ren {ρ : Str → Str} (hρ : Renaming ρ) {L : Log M H} (R P : List Tok) (h : Near L (P ++ R)) :
    upTo (renLog ρ L) (render (P.map (renTok ρ))) (render (R.map (renTok ρ))) = upTo L (render P) (render R) := by
  induction R generalizing P with
  | nil => rfl
  | cons a R ih =>
    have hP : Near L (P ++ [a]) := Near.left (R := R) (by simpa using h)
    have hr := ih (P ++ [a]) (by simpa using h)
    rw [List.map_append, render_append, render_append] at hr
    have hm := hP.mwsAt hρ
    rw [List.map_append, render_append, render_append] at hm
    rw [List.map_cons, render_cons, render_cons, upTo_append, upTo_append]
    have e1 : ∀ t : Tok, render [t] = t.text := fun t => by simp
    rw [List.map_singleton, e1, e1] at hr hm
    rw [hr]
    congr 1
    cases a with
    | chr c => simp only [upTo, renTok, Tok.text, List.nil_append] at hm ⊢; exact hm
    | par x =>
      have h' := h.ren (ρ := ρ)
      rw [List.map_append, List.map_cons] at h'
      have i1 := upTo_inside (L := L) (Tok.text (.par x)) (render P) (text_ne _)
        fun w v hw hv e => h.inside hw hv e
      have i2 := upTo_inside (L := renLog ρ L) (Tok.text (.par (ρ x))) (render (P.map (renTok ρ))) (text_ne _)
        fun w v hw hv e => h'.inside hw hv e
      exact i2.trans (hm.trans i1.symm)

theorem chain_ren {ρ : Str → Str} (hρ : Renaming ρ) {L : Log M H} {Q : List Tok} (h : Near L Q) :
    Spec.chain (renLog ρ L) (render (Q.map (renTok ρ))) = Spec.chain L (render Q) := by
  rw [Spec.chain, Spec.chain]
  have h1 := (near_nil L).mwsAt hρ
  have h2 := upTo_ren hρ Q [] h
  rw [show render ([].map (renTok ρ)) = [] from rfl, show render [] = [] from rfl] at h1 h2
  rw [h1, h2]

theorem lookup_renBinds {ρ : Str → Str} (hρ : Renaming ρ) (b : List (Str × Str)) (x : Str) :
    (renBinds ρ b).lookup (ρ x) = b.lookup x := by
  induction b with
  | nil => rfl
  | cons yv b ih =>
    obtain ⟨y, v⟩ := yv
    rw [renBinds, List.map_cons, List.lookup_cons, List.lookup_cons]
    by_cases h : x = y
    · subst h; simp
    · have h' : ρ x ≠ ρ y := fun e => h (hρ.inj _ _ e)
      rw [show (ρ x == ρ y) = false by simpa using h', show (x == y) = false by simpa using h]
      exact ih

/-- Lookups with the other names. -/
theorem router_ren {ρ : Str → Str} (hρ : Renaming ρ) {prog : List (Reg M H)} (hc : CleanRegs prog)
    {r r' : Router M H} (h : build prog = (r, none)) (h' : build (renRegs ρ prog) = (r', none))
    {path : Str} (hp : CleanPath path) :
    isFound r' path = isFound r path ∧ (∀ m, handlerFor r' m path = handlerFor r m path) ∧
      chainFor r' path = chainFor r path ∧ ∀ x, paramFor r' path (ρ x) = paramFor r path x := by
  have hr := build_rep hc h
  have hr' := build_rep (cleanRegs_ren hρ hc) h'
  rw [logOf_ren hρ] at hr'
  rcases lookup_ren hρ hr.tidy hr'.tidy hp with ⟨l1, l2⟩ | ⟨Q, b, hn, l1, l2⟩
  · obtain ⟨a1, a2, a3, a4⟩ := hr.obs_none l1
    obtain ⟨b1, b2, b3, b4⟩ := hr'.obs_none l2
    exact ⟨by rw [a1, b1], fun m => by rw [a2, b2], by rw [a3, b3], fun x => by rw [a4, b4]⟩
  · obtain ⟨a1, a2, a3, a4⟩ := hr.obs_some l1
    obtain ⟨b1, b2, b3, b4⟩ := hr'.obs_some l2
    exact ⟨by rw [a1, b1], fun m => by rw [a2, b2, hn.routeAt hρ], by rw [a3, b3, chain_ren hρ hn],
      fun x => by rw [a4, b4, lookup_renBinds hρ]⟩

end Obsidian.Spec
