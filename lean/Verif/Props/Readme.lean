import Verif.Spec.Answers
import Verif.Props.Respond
import Verif.Props.State
import Verif.Spec.Pages

/-
C77: applications made of pages at fixed paths.  C78: the programs of the README.
-/
namespace Obsidian.Props
open Obsidian Spec
variable {M H : Type} {U : Univ} {σ : Type}

/-! ### The log of the pages -/

theorem logRegs_pages (ps : List (Page H)) (L : Log M H) :
    logRegs (Page.calls ps) L = L ++ ps.map (fun p => ⟨segments p.path, .route p.verb.method p.what⟩) := by
  induction ps generalizing L with
  | nil => simp [Page.calls, logRegs]
  | cons p ps ih =>
    have : logRegs (Page.calls (p :: ps)) L = logRegs (Page.calls ps) (logReg (p.verb.reg p.path p.what) L) := by
      rw [Page.calls, List.map_cons, logRegs]; rfl
    rw [this, ih, logReg_verb]; simp

theorem log_pages (ps : List (Page H)) :
    logOf (M := M) (Page.calls ps) = ps.map (fun p => ⟨segments p.path, .route p.verb.method p.what⟩) := by
  rw [logOf, logRegs_pages]; rfl

theorem mem_log_pages {ps : List (Page H)} {e : Entry M H} (he : e ∈ logOf (Page.calls ps)) :
    ∃ p ∈ ps, e.segs = segments p.path ∧ e.what = .route p.verb.method p.what := by
  rw [log_pages] at he
  obtain ⟨p, hp, rfl⟩ := List.mem_map.1 he
  exact ⟨p, hp, rfl, rfl⟩

theorem page_mem_log {ps : List (Page H)} {p : Page H} (hp : p ∈ ps) :
    (⟨segments p.path, .route p.verb.method p.what⟩ : Entry M H) ∈ logOf (Page.calls ps) := by
  rw [log_pages]; exact List.mem_map_of_mem hp

theorem clean_pages {ps : List (Page H)} (hf : ∀ p ∈ ps, Fixed p.path) : CleanRegs (M := M) (Page.calls ps) := by
  induction ps with
  | nil => simp [Page.calls, CleanRegs]
  | cons p ps ih =>
    rw [Page.calls, List.map_cons, CleanRegs]
    refine ⟨?_, ih fun q hq => hf q (by simp [hq])⟩
    have : CleanPath p.path := fun x hx hc => (hf p (by simp) x hx).2 (List.mem_of_mem_tail hc)
    cases p.verb <;> simpa only [Verb.reg, CleanReg] using this

theorem verb_method_inj {v w : Verb} (h : v.method = w.method) : v = w := by
  cases v <;> cases w <;> first | rfl | exact absurd h (by decide)

theorem noParam_fixed {path : Str} (h : Fixed path) : NoParam (segments path) := by
  intro t ht hc
  cases t with
  | nil => simp at hc
  | cons c t => simp at hc; subst hc; exact (h _ ht).2 (by simp)

theorem regOK_verb (v : Verb) (p : Str) (h : H) (L : Log M H) :
    RegOK (v.reg p h) L ↔ RouteOK L v.method (segments p) := by
  cases v <;> simp [Verb.reg, RegOK, Verb.method]

theorem regsOK_pages (ps qs : List (Page H)) (hf : ∀ p ∈ ps ++ qs, Fixed p.path) :
    RegsOK (Page.calls qs) (logOf (M := M) (Page.calls ps)) ↔
      (∀ p ∈ ps, ∀ q ∈ qs, ¬ p.same q) ∧ qs.Pairwise (fun p q => ¬ p.same q) := by
  induction qs generalizing ps with
  | nil => simp [Page.calls, RegsOK]
  | cons q qs ih =>
    have e1 : RegsOK (M := M) (Page.calls (q :: qs)) (logOf (Page.calls ps)) ↔
        RegOK (q.verb.reg q.path q.what) (logOf (M := M) (Page.calls ps)) ∧
        RegsOK (Page.calls qs) (logReg (q.verb.reg q.path q.what) (logOf (M := M) (Page.calls ps))) := by
      rw [Page.calls, List.map_cons, RegsOK]; rfl
    have e2 : logReg (q.verb.reg q.path q.what) (logOf (M := M) (Page.calls ps)) =
        logOf (Page.calls (ps ++ [q])) := by
      rw [logReg_verb, log_pages, log_pages]; simp
    rw [e1, e2, ih (ps ++ [q]) (by simpa using hf), regOK_verb]
    have e3 : RouteOK (logOf (M := M) (Page.calls ps)) q.verb.method (segments q.path) ↔ ∀ p ∈ ps, ¬ p.same q := by
      constructor
      · rintro ⟨_, _, h3⟩ p hp ⟨h4, h5⟩
        have : (logOf (M := M) (Page.calls ps)).filterMap (fun e => if e.isAt (flat (segments q.path)) then match e.what with
            | .route m' h => if m' = q.verb.method then some h else none
            | _ => none
          else none) = [] := List.getLast?_eq_none_iff.1 h3
        rw [List.filterMap_eq_nil_iff] at this
        have := this _ (page_mem_log hp)
        simp [Entry.isAt, h5, h4] at this
      · intro h
        refine ⟨fun pre x post e hx => absurd hx (hf q (by simp) x (by rw [e]; simp)).1, ?_, ?_⟩
        · intro e he
          obtain ⟨p, hp, h1, _⟩ := mem_log_pages he
          rw [h1]
          exact ⟨(noParam_fixed (hf p (by simp [hp]))).not_clash, (noParam_fixed (hf q (by simp))).not_clash⟩
        · cases hr : routeAt (logOf (M := M) (Page.calls ps)) (flat (segments q.path)) q.verb.method with
          | none => rfl
          | some k =>
            obtain ⟨e, he, h1, h2⟩ := routeAt_mem hr
            obtain ⟨p, hp, h3, h4⟩ := mem_log_pages he
            rw [h2] at h4
            simp only [What.route.injEq] at h4
            exact absurd ⟨(verb_method_inj h4.1).symm, by rw [← h3, h1]⟩ (h p hp)
    rw [e3, List.pairwise_cons]
    constructor
    · rintro ⟨h1, h2, h3⟩
      refine ⟨fun p hp x hx => ?_, fun x hx => h2 q (by simp) x hx, h3⟩
      rcases List.mem_cons.1 hx with rfl | hx
      · exact h1 p hp
      · exact h2 p (by simp [hp]) x hx
    · rintro ⟨h1, h2, h3⟩
      refine ⟨fun p hp => h1 p hp q (by simp), fun p hp x hx => ?_, h3⟩
      rcases List.mem_append.1 hp with hp | hp
      · exact h1 p hp x (by simp [hx])
      · simp at hp; subst hp; exact h2 x hx

/-! ### Where requests lead -/

theorem known_pages {ps : List (Page H)} {q : Str} : known (logOf (M := M) (Page.calls ps)) q = true ↔ Stop ps q := by
  rw [known_iff, Stop]
  constructor
  · rintro (⟨e, he, pre, post, h1, h2⟩ | ⟨e, he, e', he', a, b, u, v, h1, h2, h3⟩)
    · obtain ⟨p, hp, hs, _⟩ := mem_log_pages he
      exact Or.inl ⟨p, hp, pre, post, by rw [← hs]; exact h1, h2⟩
    · obtain ⟨p, hp, hs, _⟩ := mem_log_pages he
      obtain ⟨p', hp', hs', _⟩ := mem_log_pages he'
      exact Or.inr ⟨p, hp, p', hp', a, b, u, v, by rw [← hs]; exact h1, by rw [← hs']; exact h2, h3⟩
  · rintro (⟨p, hp, pre, post, h1, h2⟩ | ⟨p, hp, p', hp', a, b, u, v, h1, h2, h3⟩)
    · exact Or.inl ⟨_, page_mem_log hp, pre, post, h1, h2⟩
    · exact Or.inr ⟨_, page_mem_log hp, _, page_mem_log hp', a, b, u, v, h1, h2, h3⟩

theorem mem_flat {c : Char} {ss : List Str} (h : c ∈ flat ss) : ∃ x ∈ ss, c ∈ x := by
  induction ss with
  | nil => simp [flat] at h
  | cons a ss ih =>
    rw [flat, List.mem_append] at h
    rcases h with h | h
    · exact ⟨a, by simp, h⟩
    · obtain ⟨x, hx, hc⟩ := ih h; exact ⟨x, by simp [hx], hc⟩

theorem stop_chars {ps : List (Page H)} (hf : ∀ p ∈ ps, Fixed p.path) {q : Str}
    (h : known (logOf (M := M) (Page.calls ps)) q = true) : '*' ∉ q := by
  obtain ⟨e, he, t, ht⟩ := known_prefix h
  obtain ⟨p, hp, hs, _⟩ := mem_log_pages he
  intro hq
  have : '*' ∈ flat (segments p.path) := by rw [← hs, ← ht]; simp [hq]
  obtain ⟨x, hx, h1⟩ := mem_flat this
  exact (hf p hp x hx).1 h1

theorem paramAt_pages {ps : List (Page H)} (hf : ∀ p ∈ ps, Fixed p.path) (q : Str) :
    paramAt (logOf (M := M) (Page.calls ps)) q = none := by
  cases h : paramAt (logOf (M := M) (Page.calls ps)) q with
  | none => rfl
  | some x =>
    obtain ⟨e, he, hx⟩ := paramAt_some h
    obtain ⟨p, hp, hs, _⟩ := mem_log_pages he
    rw [hs] at hx
    exact absurd rfl (noParam_fixed (hf p hp) _ hx.mem)

theorem find_pages {ps : List (Page H)} (hf : ∀ p ∈ ps, Fixed p.path) (rest : List Str) (p : Str)
    (q : Str) (b : List (Str × Str)) :
    find (logOf (M := M) (Page.calls ps)) p rest = some (q, b) ↔
      rest ≠ [] ∧ b = [] ∧ q = p ++ flat rest ∧ hasEntry (logOf (M := M) (Page.calls ps)) q = true ∧
      ∀ pre post, rest = pre ++ post → pre ≠ [] → known (logOf (M := M) (Page.calls ps)) (p ++ flat pre) = true := by
  have hstar : ∀ q, known (logOf (M := M) (Page.calls ps)) (q ++ ['*']) = false := by
    intro q
    cases h : known (logOf (M := M) (Page.calls ps)) (q ++ ['*']) with
    | false => rfl
    | true => exact absurd (by simp) (stop_chars hf h)
  have hstar' : ∀ q, hasEntry (logOf (M := M) (Page.calls ps)) (q ++ ['*']) = false := by
    intro q
    cases h : hasEntry (logOf (M := M) (Page.calls ps)) (q ++ ['*']) with
    | false => rfl
    | true => have := hasEntry_known h; rw [hstar] at this; simp at this
  induction rest generalizing p with
  | nil => simp [find]
  | cons x rest ih =>
    rw [find, paramAt_pages hf]
    simp only [hstar, hstar', Bool.false_eq_true, if_false]
    by_cases hk : known (logOf (M := M) (Page.calls ps)) (p ++ x) = true
    · have hx : x.head? ≠ some '*' := by
        intro hx
        refine stop_chars hf hk ?_
        cases x with
        | nil => simp at hx
        | cons c x => simp at hx; subst hx; simp
      cases rest with
      | nil =>
        simp only [hx, hk, ne_eq, not_false_eq_true, and_self, if_true, List.isEmpty_nil]
        by_cases he : hasEntry (logOf (M := M) (Page.calls ps)) (p ++ x) = true
        · simp only [he, if_true, Option.some.injEq, Prod.mk.injEq]
          constructor
          · rintro ⟨rfl, rfl⟩
            refine ⟨by simp, rfl, by simp [flat], he, ?_⟩
            intro pre post h1 h2
            cases pre with
            | nil => simp at h2
            | cons c pre => simp at h1; obtain ⟨rfl, rfl, rfl⟩ := h1; simpa [flat] using hk
          · rintro ⟨_, rfl, rfl, _⟩; simp [flat]
        · simp only [he]
          constructor
          · intro h; simp at h
          · rintro ⟨_, rfl, rfl, h, _⟩; simp [flat] at h; exact absurd h he
      | cons y rest =>
        simp only [hx, hk, ne_eq, not_false_eq_true, and_self, if_true, List.isEmpty_cons, Bool.false_eq_true, if_false]
        refine Iff.trans ?_ ((ih (p ++ x)).trans ?_)
        · generalize find (logOf (M := M) (Page.calls ps)) (p ++ x) (y :: rest) = o
          cases o <;> exact Iff.rfl
        constructor
        · rintro ⟨_, rfl, rfl, h1, h2⟩
          refine ⟨by simp, rfl, by simp [flat], h1, ?_⟩
          intro pre post h3 h4
          cases pre with
          | nil => simp at h4
          | cons c pre =>
            simp only [List.cons_append, List.cons.injEq] at h3
            obtain ⟨rfl, h3⟩ := h3
            by_cases hp : pre = []
            · subst hp; simpa [flat] using hk
            · have := h2 pre post h3 hp; simpa [flat] using this
        · rintro ⟨_, rfl, rfl, h1, h2⟩
          refine ⟨by simp, rfl, by simp [flat], h1, ?_⟩
          intro pre post h3 h4
          have := h2 (x :: pre) post (by rw [h3]; rfl) (by simp)
          simpa [flat] using this
    · simp only [hk]
      constructor
      · intro h; simp at h
      · rintro ⟨_, rfl, rfl, _, h⟩
        have := h [x] rest rfl (by simp)
        simp [flat] at this
        exact absurd this hk

theorem lookup_pages {ps : List (Page H)} (hf : ∀ p ∈ ps, Fixed p.path) (path q : Str) (b : List (Str × Str)) :
    lookup (logOf (M := M) (Page.calls ps)) path = some (q, b) ↔
      b = [] ∧ q = flat (segments path) ∧ (∃ p ∈ ps, p.Answers ps path) := by
  have hent : hasEntry (logOf (M := M) (Page.calls ps)) (flat (segments path)) = true ↔
      ∃ p ∈ ps, flat (segments p.path) = flat (segments path) := by
    rw [hasEntry_iff]
    constructor
    · rintro ⟨e, he, h1, _⟩
      obtain ⟨p, hp, hs, _⟩ := mem_log_pages he
      exact ⟨p, hp, by rw [← hs]; exact h1⟩
    · rintro ⟨p, hp, h⟩; exact ⟨_, page_mem_log hp, h, by simp⟩
  rw [lookup]
  by_cases h0 : segments path = []
  · simp only [h0, if_true]
    rw [h0] at hent
    simp only [flat] at hent
    by_cases he : hasEntry (logOf (M := M) (Page.calls ps)) [] = true
    · simp only [he, if_true, Option.some.injEq, Prod.mk.injEq]
      obtain ⟨p, hp, h⟩ := hent.1 he
      constructor
      · rintro ⟨rfl, rfl⟩
        refine ⟨rfl, by simp [flat], p, hp, by rw [h0]; exact h, ?_⟩
        intro pre post h1 h2; rw [h0] at h1; cases pre <;> simp at h1 h2
      · rintro ⟨rfl, rfl, _⟩; simp [flat]
    · simp only [he]
      constructor
      · intro h; simp at h
      · rintro ⟨_, _, p, hp, h1, _⟩
        rw [h0] at h1
        exact absurd (hent.2 ⟨p, hp, h1⟩) he
  · simp only [h0, if_false]
    have hfind := find_pages (M := M) hf (segments path) [] 
    constructor
    · intro h
      cases hr : find (logOf (M := M) (Page.calls ps)) [] (segments path) with
      | none => rw [hr] at h; simp at h
      | some r =>
        obtain ⟨q', b'⟩ := r
        rw [hr] at h
        simp only at h
        obtain ⟨_, rfl, rfl, h3, h4⟩ := (hfind q' b').1 hr
        rw [if_pos h3] at h
        simp only [Option.some.injEq, Prod.mk.injEq] at h
        obtain ⟨rfl, rfl⟩ := h
        rw [List.nil_append] at h3
        obtain ⟨p, hp, h5⟩ := hent.1 h3
        exact ⟨rfl, by simp, p, hp, h5, fun pre post e1 e2 => known_pages.1 (by simpa using h4 pre post e1 e2)⟩
    · rintro ⟨rfl, rfl, p, hp, h1, h2⟩
      have h3 := hent.2 ⟨p, hp, h1⟩
      rw [(hfind (flat (segments path)) []).2 ⟨h0, rfl, by simp, h3, fun pre post e1 e2 => by
        simpa using known_pages.2 (h2 pre post e1 e2)⟩]
      simp [h3]

/-! ### C77 -/

/-- A page answers the requests that have its segments. -/
theorem answers_own {ps : List (Page H)} {p : Page H} (hp : p ∈ ps) {path : Str}
    (h : segments path = segments p.path) : p.Answers ps path :=
  ⟨by rw [h], fun pre post e _ => Or.inl ⟨p, hp, pre, post, by rw [← h]; exact e, rfl⟩⟩

/-- **C77**: pages at fixed paths are accepted exactly if no two with the same method have the same
characters, slashes aside. -/
theorem C77_accepted (ps : List (Page H)) (hf : ∀ p ∈ ps, Fixed p.path) :
    (build (M := M) (Page.calls ps)).2 = none ↔ ps.Pairwise (fun p q => ¬ p.same q) := by
  rw [build_iff (clean_pages hf)]
  have := regsOK_pages (M := M) [] ps (by simpa using hf)
  simpa [Page.calls, logOf, logRegs] using this

/-- **C77 is false**: the only page is `/a/b`, but the request `/ab` is answered with it. -/
theorem C77_false : ∃ (ps : List (Page Nat)) (r : Router Nat Nat) (path : Str), (∀ p ∈ ps, Fixed p.path) ∧
    build (Page.calls ps) = (r, none) ∧ (∀ p ∈ ps, segments p.path ≠ segments path) ∧
    handlerFor r .get path = some 1 := by
  refine ⟨[⟨.get, s "/a/b", 1⟩], _, s "/ab", by decide +kernel, build_eq (by decide +kernel), by decide +kernel,
    by decide +kernel⟩

/-- **C77, what holds**: of a table of pages, a page answers a request if and only if the method is its
own and the path agrees with its path character for character, except for slashes, where each slash of
the request (other than leading, trailing and doubled ones) has to be at a place where a slash of some
page is or where two pages part.  In particular, requests that have the segments of a page get that page, and
requests whose characters are those of no page get nothing.  Missing: that the slashes of the request
have to be those of the page, which is false. -/
theorem C77_pages_partial {ps : List (Page H)} (hf : ∀ p ∈ ps, Fixed p.path) {r : Router M H}
    (hb : build (Page.calls ps) = (r, none)) (m : Method) (path : Str) :
    (∀ h, handlerFor r m path = some h ↔
      ∃ p ∈ ps, p.verb.method = m ∧ p.Answers ps path ∧ p.what = h) ∧
    (∀ p ∈ ps, p.verb.method = m → segments path = segments p.path → handlerFor r m path = some p.what) ∧
    (∀ p ∈ ps, p.Answers ps path → chainFor r path = some []) := by
  have hc := clean_pages (M := M) hf
  have hg := build_good hc hb
  have hr := build_rep hc hb
  have main : ∀ h, handlerFor r m path = some h ↔
      ∃ p ∈ ps, p.verb.method = m ∧ p.Answers ps path ∧ p.what = h := by
    intro h
    constructor
    · intro hh
      obtain ⟨q, b, hl, hq⟩ := hr.handler hh
      obtain ⟨rfl, rfl, p', hp', ha⟩ := (lookup_pages hf _ _ _).1 hl
      obtain ⟨e, he, h1, h2⟩ := routeAt_mem hq
      obtain ⟨p, hp, h3, h4⟩ := mem_log_pages he
      rw [h2] at h4
      simp only [What.route.injEq] at h4
      exact ⟨p, hp, h4.1.symm, ⟨by rw [← h3, h1], ha.2⟩, h4.2.symm⟩
    · rintro ⟨p, hp, rfl, ha, rfl⟩
      have hl := (lookup_pages (M := M) hf path _ _).2 ⟨rfl, rfl, p, hp, ha⟩
      rw [(hr.obs_some hl).2.1, ← ha.1]
      exact hg.uniq _ (page_mem_log hp) _ _ rfl
  refine ⟨main, ?_, ?_⟩
  · rintro p hp rfl hs
    exact (main _).2 ⟨p, hp, rfl, answers_own hp hs, rfl⟩
  · intro p hp ha
    have hl := (lookup_pages (M := M) hf path _ _).2 ⟨rfl, rfl, p, hp, ha⟩
    refine chain_nil hc hb ?_ (hr.obs_some hl).1
    intro e he x
    obtain ⟨p, _, _, h⟩ := mem_log_pages he
    rw [h]; simp

theorem lastValue_one (k₀ : HeaderName) (v : Str) (k : HeaderName) :
    lastValue [(k₀, v)] k = if k = k₀ then some v else none := by
  rw [lastValue]
  by_cases h : k₀ = k
  · subst h; simp
  · have h' : ¬ k = k₀ := fun e => h e.symm
    simp [h, h']

theorem stop_textPages {parse : ParseName} {ps : List (Page Str)} {q : Str} :
    Stop (textPages (U := U) (σ := σ) parse ps) q ↔ Stop ps q := by
  constructor
  · rintro (⟨p, hp, h⟩ | ⟨p, hp, p', hp', h⟩)
    · obtain ⟨x, hx, rfl⟩ := List.mem_map.1 hp
      exact Or.inl ⟨x, hx, h⟩
    · obtain ⟨x, hx, rfl⟩ := List.mem_map.1 hp
      obtain ⟨y, hy, rfl⟩ := List.mem_map.1 hp'
      exact Or.inr ⟨x, hx, y, hy, h⟩
  · rintro (⟨p, hp, h⟩ | ⟨p, hp, p', hp', h⟩)
    · exact Or.inl ⟨_, List.mem_map_of_mem hp, h⟩
    · exact Or.inr ⟨_, List.mem_map_of_mem hp, _, List.mem_map_of_mem hp', h⟩

/-- **C77** for applications whose handlers answer with texts: what the client gets. -/
theorem C77_texts_partial {parse : ParseName} {ps : List (Page Str)} (hf : ∀ p ∈ ps, Fixed p.path)
    {a : App U σ} (hb : build (Page.calls (textPages parse ps)) = (a.router, none)) (req : Request U) :
    (∀ p ∈ ps, p.verb.method = req.method → p.Answers ps req.path → AnswersText (a.serve req) p.what) ∧
    ((∀ p ∈ ps, p.verb.method = req.method → ¬ p.Answers ps req.path) →
      AnswersOnly (a.serve req) 404 "404 Not Found") := by
  have hf' : ∀ p ∈ textPages (U := U) (σ := σ) parse ps, Fixed p.path := by
    intro p hp
    obtain ⟨p', hp', rfl⟩ := List.mem_map.1 hp
    exact hf p' hp'
  obtain ⟨h1, _, h3⟩ := C77_pages_partial hf' hb req.method req.path
  constructor
  · intro p hp hm ha w
    have hp' : (⟨p.verb, p.path, textHandler parse p.what⟩ : Page (Handler U σ)) ∈ textPages parse ps :=
      List.mem_map_of_mem hp
    have ha' : (⟨p.verb, p.path, textHandler parse p.what⟩ : Page (Handler U σ)).Answers (textPages parse ps) req.path :=
      ⟨ha.1, fun pre post e1 e2 => stop_textPages.2 (ha.2 pre post e1 e2)⟩
    obtain ⟨sent, g1, g2, g3, g4, g5⟩ := C58_build_on_the_wire (a := a) (req := req) (parse := parse)
      (res := .str p.what) (os := []) ((h1 _).2 ⟨_, hp', hm, ha', rfl⟩) (h3 _ hp' ha') (by simp)
      (by intro e he; simp [wire] at he; subst he; decide +kernel) w
    refine ⟨sent, g1, g2, g3, g4 (by simp), fun k => ?_⟩
    rw [g5]
    simp only [wire, List.map_nil, List.flatMap_nil, List.append_nil]
    exact lastValue_one _ _ k
  · intro h
    refine C24_no_handler a req ?_
    cases hh : handlerFor a.router req.method req.path with
    | none => rfl
    | some k =>
      obtain ⟨p, hp, hm, ha, _⟩ := (h1 _).1 hh
      obtain ⟨p', hp', rfl⟩ := List.mem_map.1 hp
      exact absurd ⟨ha.1, fun pre post e1 e2 => stop_textPages.1 (ha.2 pre post e1 e2)⟩ (h p' hp' hm)

/-- A small site. -/
def demoSite : List (Page Str) :=
  [⟨.get, s "/", s "home"⟩, ⟨.get, s "/about", s "about us"⟩, ⟨.get, s "/docs/intro", s "welcome"⟩,
   ⟨.post, s "/docs/intro", s "thanks"⟩]

theorem demoSite_fixed : ∀ p ∈ demoSite, Fixed p.path := by decide +kernel

theorem demoSite_distinct : demoSite.Pairwise (fun p q => ¬ p.same q) := by decide +kernel

theorem pairwise_textPages {parse : ParseName} {ps : List (Page Str)} (h : ps.Pairwise (fun p q => ¬ p.same q)) :
    (textPages (U := U) (σ := σ) parse ps).Pairwise (fun p q => ¬ p.same q) := List.pairwise_map.2 h

theorem build_textPages {parse : ParseName} {ps : List (Page Str)} (hf : ∀ p ∈ ps, Fixed p.path)
    (h : ps.Pairwise (fun p q => ¬ p.same q)) :
    (build (M := Middleware U σ) (Page.calls (textPages (U := U) (σ := σ) parse ps))).2 = none := by
  refine (C77_accepted _ fun p hp => ?_).2 (pairwise_textPages h)
  obtain ⟨p', hp', rfl⟩ := List.mem_map.1 hp
  exact hf p' hp'

/-- The request `/docs//intro/` gets the page, in every application that has the pages. -/
example (req : Request demoU) (hm : req.method = .get) (hp : req.path = s "/docs//intro/") :
    AnswersText ((appOf (build_textPages (U := demoU) (σ := W) (parse := lowerNames) demoSite_fixed demoSite_distinct)).serve req)
      (s "welcome") := by
  refine (C77_texts_partial demoSite_fixed (appOf_build _) req).1 ⟨.get, s "/docs/intro", s "welcome"⟩
    (by simp [demoSite]) (by rw [hm]; rfl) (answers_own (by simp [demoSite]) (by rw [hp]; decide +kernel))

/-! ### C78 -/

theorem segmentsFrom_nil {cur path : Str} : segmentsFrom cur path = [] ↔ cur = [] ∧ ∀ c ∈ path, c = '/' := by
  induction path generalizing cur with
  | nil => by_cases h : cur = [] <;> simp [segmentsFrom, h]
  | cons c path ih =>
    rw [segmentsFrom]
    by_cases hc : c = '/'
    · by_cases h : cur = []
      · simp [hc, h, ih]
      · simp [hc, h]
    · simp [hc, ih]

/-- The path consists of slashes only. -/
theorem segments_nil_iff {path : Str} : segments path = [] ↔ ∀ c ∈ path, c = '/' := by
  rw [segments, segmentsFrom_nil]; simp

theorem root_segments : segments (s "/") = [] := by decide +kernel

theorem root_fixed : Fixed (s "/") := by decide +kernel

theorem answers_root {ps : List (Page H)} {p : Page H} (hp : p ∈ ps) (h : p.path = s "/") {path : Str} :
    p.Answers ps path ↔ ∀ c ∈ path, c = '/' := by
  constructor
  · intro ha
    have h1 := ha.1
    rw [h, root_segments] at h1
    rw [← segments_nil_iff]
    cases hs : segments path with
    | nil => rfl
    | cons x xs =>
      rw [hs] at h1
      have := segments_ne path x (by rw [hs]; simp)
      simp [flat] at h1
      exact absurd h1.1 this
  · intro hc
    exact answers_own hp (by rw [h, root_segments, segments_nil_iff.2 hc])

theorem run_one {c : Reg (Middleware U σ) (Handler U σ)} {r : Router (Middleware U σ) (Handler U σ)}
    (hb : build [c] = (r, none)) : c.run Router.new = (r, none) := by
  rw [build, runRegs] at hb
  generalize c.run Router.new = o at hb
  obtain ⟨r', _ | e⟩ := o
  · simpa [runRegs] using hb
  · simp at hb

theorem calls_reg {t : U.Ty} {c : Reg (Middleware U σ) (Handler U σ)} {r : Router (Middleware U σ) (Handler U σ)}
    {a : App U σ} {cs : List (AppCall U σ t)} (hr : c.run a.router = (r, none)) :
    App.calls (.reg c :: cs) a = App.calls cs { a with router := r } := by
  rw [App.calls, hr]

theorem calls_one {t : U.Ty} {c : Reg (Middleware U σ) (Handler U σ)} {r : Router (Middleware U σ) (Handler U σ)}
    (hb : build [c] = (r, none)) : App.calls (t := t) [.reg c] App.new = (⟨r, none⟩, none) := by
  rw [calls_reg (a := App.new) (run_one hb), App.calls]; rfl

/-- **C78**, the program "Hello World" of the README: it starts, answers every `GET` request for `/` with
the text, and every other request with 404. -/
theorem C78_hello_world (parse : ParseName) (t : U.Ty) :
    ∃ a : App U σ, App.calls (t := t) [.reg (.get (s "/") (textHandler parse (s "Hello World")))] App.new = (a, none) ∧
      ∀ req, (req.method = .get ∧ (∀ c ∈ req.path, c = '/') → AnswersText (a.serve req) (s "Hello World")) ∧
        (¬ (req.method = .get ∧ ∀ c ∈ req.path, c = '/') → AnswersOnly (a.serve req) 404 "404 Not Found") := by
  have hf : ∀ p ∈ ([⟨.get, s "/", s "Hello World"⟩] : List (Page Str)), Fixed p.path := by decide +kernel
  obtain ⟨r, hb⟩ : ∃ r, build (M := Middleware U σ) (Page.calls (textPages (U := U) (σ := σ) parse [⟨.get, s "/", s "Hello World"⟩])) = (r, none) :=
    ⟨_, build_eq (build_textPages (U := U) (σ := σ) (parse := parse) hf (by decide +kernel))⟩
  have hb' : build [.get (s "/") (textHandler (U := U) (σ := σ) parse (s "Hello World"))] = (r, none) := by
    rw [← hb]; rfl
  refine ⟨⟨r, none⟩, calls_one hb', fun req => ?_⟩
  have := C77_texts_partial (a := ⟨r, none⟩) hf hb req
  refine ⟨fun ⟨h1, h2⟩ => this.1 ⟨.get, s "/", s "Hello World"⟩ (by simp) h1.symm ((answers_root (by simp) rfl).2 h2), fun h => this.2 ?_⟩
  intro p hp hm ha
  simp at hp; subst hp
  exact h ⟨hm.symm, (answers_root (by simp) rfl).1 ha⟩

/-- **C78**, the program of `examples/app_state.rs`: whatever state is set, it starts, answers every
`GET` request for `/` with the text of that state, and every other request with 404; a state that came
with the request does not matter. -/
theorem C78_app_state (t : U.Ty) (text : U.Val t → Str) (v : U.Val t) :
    ∃ a : App U σ, App.calls [.setAppState v, .reg (.get (s "/") (stateHandler t text))] App.new = (a, none) ∧
      ∀ req, (req.method = .get ∧ (∀ c ∈ req.path, c = '/') →
          AnswersText (a.serve req) (s "connection string: " ++ text v)) ∧
        (¬ (req.method = .get ∧ ∀ c ∈ req.path, c = '/') → AnswersOnly (a.serve req) 404 "404 Not Found") := by
  have hf : ∀ p ∈ ([⟨.get, s "/", stateHandler t text⟩] : List (Page (Handler U σ))), Fixed p.path := by
    intro p hp; simp at hp; subst hp; exact root_fixed
  obtain ⟨r, hb⟩ : ∃ r, build (M := Middleware U σ) (Page.calls [⟨.get, s "/", stateHandler (σ := σ) t text⟩]) = (r, none) :=
    ⟨_, build_eq ((C77_accepted _ hf).2 (by simp))⟩
  have hb' : build [.get (s "/") (stateHandler (U := U) (σ := σ) t text)] = (r, none) := by
    rw [← hb]; rfl
  have hcalls : App.calls [.setAppState v, .reg (.get (s "/") (stateHandler t text))] App.new =
      ((⟨r, some ⟨t, v⟩⟩ : App U σ), none) := by
    rw [App.calls, calls_reg (a := App.setAppState App.new t v) (run_one hb'), App.calls]; rfl
  refine ⟨⟨r, some ⟨t, v⟩⟩, hcalls, fun req => ?_⟩
  obtain ⟨h1, _, h3⟩ := C77_pages_partial hf hb req.method req.path
  have mem : (⟨.get, s "/", stateHandler t text⟩ : Page (Handler U σ)) ∈
      ([⟨.get, s "/", stateHandler t text⟩] : List (Page (Handler U σ))) := by simp
  constructor
  · rintro ⟨hm, hp⟩ w
    have ha := (answers_root mem rfl).2 hp
    have hh := (h1 (stateHandler t text)).2 ⟨_, mem, hm.symm, ha, rfl⟩
    obtain ⟨chain, c, g1, g2, g3, g4, _⟩ := C32_state_reaches_requests (a := ⟨r, some ⟨t, v⟩⟩) (Or.inl hcalls) req hh
    rw [show chainFor (App.router ⟨r, some ⟨t, v⟩⟩) req.path = some [] from h3 _ mem ha] at g1
    simp only [Option.some.injEq] at g1
    subst g1
    rw [g3, execNext, stateHandler, g4 v rfl]
    have hb := bytes_ofStr (s "connection string: " ++ text v)
    obtain ⟨m, f1, f2⟩ := finish_response
      (c := { c with response := some (Responder.option (some (s "connection string: " ++ text v))).respondTo }) rfl
      (by
        intro e he
        have he' : e ∈ [(s "content-type", s "text/plain; charset=utf-8")] := he
        simp at he'; subst he'; decide +kernel)
    refine ⟨⟨200, m, Body.ofStr (s "connection string: " ++ text v)⟩, ?_, rfl, hb.1, hb.2, fun k => ?_⟩
    · simp only [Act.ret_bind]
      have : (c.build (.option (some (s "connection string: " ++ text v)))).ok =
        .ok { c with response := some (Responder.option (some (s "connection string: " ++ text v))).respondTo } := rfl
      rw [this, f1]; rfl
    · rw [f2]; exact lastValue_one _ _ k
  · intro hn
    refine C24_no_handler _ req ?_
    cases hh : handlerFor r req.method req.path with
    | none => rfl
    | some k =>
      obtain ⟨p, hp, hm, ha, _⟩ := (h1 _).1 hh
      simp at hp; subst hp
      exact absurd ⟨hm.symm, (answers_root (by simp) rfl).1 ha⟩ hn

end Obsidian.Props
