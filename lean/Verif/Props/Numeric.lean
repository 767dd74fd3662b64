import Verif.Spec.Answers
import Verif.Props.Exact
import Verif.Props.Readme
import Verif.Props.Form
import Verif.Props.Solo

/-
C80: an application with one route that has an integer parameter, for every request.
-/
namespace Obsidian.Props
open Obsidian Spec
variable {U : Univ} {σ M H : Type}

theorem _root_.Obsidian.Spec.Follows.cons {stop : Str → Prop} {ss : List Str} {p x : Str} {rest : List Str}
    {b : List (Str × Str)} (h : Follows stop ss true p (x :: rest) b) :
    ((∀ y, ¬ HasSeg ss p (':' :: y)) ∧ stop (p ++ x) ∧ Follows stop ss true (p ++ x) rest b) ∨
    ∃ y b', HasSeg ss p (':' :: y) ∧ b = (y, x) :: b' ∧ Follows stop ss true (p ++ ':' :: y) rest b' := by
  generalize hr : x :: rest = req at h
  cases h with
  | done => simp at hr
  | text h1 h2 h3 h4 => simp at hr; obtain ⟨rfl, rfl⟩ := hr; exact .inl ⟨h1, h3, h4⟩
  | param h1 h2 => simp at hr; obtain ⟨rfl, rfl⟩ := hr; exact .inr ⟨_, _, h1, rfl, h2⟩

/-- Where slashes may be if `/a/:y` is all that is registered. -/
theorem isStop_pair {a y q : Str} {w : What M H} (h : IsStop ([⟨[a, ':' :: y], w⟩] : Log M H) q) :
    q = [] ∨ q = a ∨ q = a ++ ':' :: y := by
  rcases h with ⟨e, he, pre, post, h1, rfl⟩ | ⟨e, he, e', he', c, d, u, v, h1, h2, h3⟩
  · simp at he; subst he
    match pre with
    | [] => exact .inl rfl
    | [x] => simp at h1; exact .inr (.inl (by simp [flat, h1.1]))
    | [x, z] => simp at h1; exact .inr (.inr (by simp [flat, ← h1.1, ← h1.2.1]))
    | x :: z :: t :: pre => simp at h1
  · simp at he he'; subst he; subst he'
    rw [h1] at h2
    have := List.append_cancel_left h2
    simp at this
    exact absurd this.1 h3

theorem hasSeg_pair {a y p t : Str} (ha : a ≠ []) (h : HasSeg [a, ':' :: y] p t) :
    (p = [] ∧ t = a) ∨ (p = a ∧ t = ':' :: y) := by
  obtain ⟨pre, post, h1, rfl⟩ := h
  match pre with
  | [] => simp at h1; exact .inl ⟨rfl, h1.1.symm⟩
  | [x] => simp at h1; exact .inr ⟨by simp [flat, h1.1], h1.2.1.symm⟩
  | x :: z :: pre => simp at h1

/-- The requests that lead to `/a/:y` if nothing else is registered. -/
theorem leads_pair {a y : Str} {w : What M H} (ha : a ≠ []) (hca : ':' ∉ a) (hsa : '*' ∉ a) (hsy : '*' ∉ y)
    {req : List Str} (hne : ∀ x ∈ req, x ≠ []) {b : List (Str × Str)} :
    LeadsTo ([⟨[a, ':' :: y], w⟩] : Log M H) [a, ':' :: y] req b ↔
      (∃ v, req = [a, v] ∧ b = [(y, v)]) ∨ (req = [a ++ ':' :: y] ∧ b = []) := by
  have hfl : flat [a, ':' :: y] = a ++ ':' :: y := by simp [flat]
  have hno0 : ∀ z, ¬ HasSeg [a, ':' :: y] [] (':' :: z) := by
    intro z hz
    rcases hasSeg_pair ha hz with ⟨_, h⟩ | ⟨h, _⟩
    · exact hca (by rw [← h]; simp)
    · exact ha h.symm
  have hstop : ∀ q, q = a ∨ q = a ++ ':' :: y → IsStop ([⟨[a, ':' :: y], w⟩] : Log M H) q := by
    rintro q (rfl | rfl)
    · exact .inl ⟨⟨[q, ':' :: y], w⟩, by simp, [q], [':' :: y], rfl, by simp [flat]⟩
    · exact .inl ⟨⟨[a, ':' :: y], w⟩, by simp, [a, ':' :: y], [], rfl, hfl⟩
  have hhead : a.head? ≠ some '*' := by
    intro h
    cases a with
    | nil => simp at h
    | cons c a => simp at h; subst h; simp at hsa
  have hnostar : ∀ p, flat [a, ':' :: y] ≠ p ++ ['*'] := by
    intro p hp
    have : '*' ∈ a ++ ':' :: y := by rw [← hfl, hp]; simp
    simp [hsa, hsy] at this
  have exact_ : ∀ b', Follows (IsStop ([⟨[a, ':' :: y], w⟩] : Log M H)) [a, ':' :: y] true [] req b' →
      (∃ v, req = [a, v] ∧ b' = [(y, v)]) ∨ (req = [a ++ ':' :: y] ∧ b' = []) := by
    intro b' h
    cases req with
    | nil => have := h.nil.2.1; rw [hfl] at this; simp at this
    | cons x rest =>
      generalize hp : ([] : Str) = p at h
      cases h with
      | param h1 h2 => subst hp; exact absurd h1 (hno0 _)
      | text h1 h2 h3 h4 =>
        subst hp
        rw [List.nil_append] at h3 h4
        rcases isStop_pair h3 with h | h | h
        · exact absurd h (hne x (by simp))
        · subst h
          cases rest with
          | nil => have := h4.nil.2.1; rw [hfl] at this; simp at this
          | cons v rest =>
            have hseg : HasSeg [x, ':' :: y] x (':' :: y) := ⟨[x], [], rfl, by simp [flat]⟩
            rcases h4.cons with ⟨g1, _⟩ | ⟨_, _, g1, rfl, g2⟩
            · exact absurd hseg (g1 y)
            · rcases hasSeg_pair ha g1 with ⟨h, _⟩ | ⟨_, h⟩
              · exact absurd h ha
              · simp at h; subst h
                cases rest with
                | nil =>
                  obtain ⟨_, _, rfl⟩ := g2.nil
                  exact .inl ⟨v, rfl, rfl⟩
                | cons z rest =>
                  exact absurd hfl.symm (g2.proper (fun s hs => hne s (by simp [hs])) (by simp))
        · subst h
          cases rest with
          | nil =>
            obtain ⟨_, _, rfl⟩ := h4.nil
            exact .inr ⟨rfl, rfl⟩
          | cons z rest => exact absurd hfl.symm (h4.proper (fun s hs => hne s (by simp [hs])) (by simp))
  have catch_ : ∀ {p : Str} {req : List Str} {b' : List (Str × Str)},
      ¬ Follows (IsStop ([⟨[a, ':' :: y], w⟩] : Log M H)) [a, ':' :: y] false p req b' := by
    intro p req b' h
    generalize hall : false = all at h
    induction h with
    | done => simp at hall
    | text _ _ _ _ ih => exact ih hall
    | param _ _ ih => exact ih hall
    | wild h => exact hnostar _ h
    | bare _ _ _ h => exact hnostar _ h
  constructor
  · rintro (h | ⟨h, _⟩)
    · exact exact_ _ h
    · exact absurd h catch_
  · rintro (⟨v, rfl, rfl⟩ | ⟨rfl, rfl⟩)
    · refine .inl (.text hno0 hhead (hstop _ (by simp)) ?_)
      refine .param ⟨[a], [], rfl, by simp [flat]⟩ ?_
      have : [] ++ a ++ ':' :: y = flat [a, ':' :: y] := by rw [hfl]; simp
      rw [this]; exact .done
    · refine .inl (.text hno0 ?_ (hstop _ (by simp)) ?_)
      · cases a with
        | nil => exact absurd rfl ha
        | cons c a => simpa using hhead
      · have : [] ++ (a ++ ':' :: y) = flat [a, ':' :: y] := by rw [hfl]; simp
        rw [this]; exact .done

theorem finish_text (c : Context U) (t : Str) : ∃ m, finish (c.build (.str t)).ok = .ok ⟨200, m, Body.ofStr t⟩ ∧
    ∀ k, m.get k = if k = s "content-type" then some (s "text/plain; charset=utf-8") else none := by
  obtain ⟨m, f1, f2⟩ := finish_response (c := { c with response := some (Responder.str t).respondTo }) rfl
    (by
      intro e he
      have he' : e ∈ [(s "content-type", s "text/plain; charset=utf-8")] := he
      simp at he'; subst he'; decide +kernel)
  refine ⟨m, ?_, fun k => by rw [f2]; exact lastValue_one _ _ k⟩
  have : (c.build (.str t)).ok = .ok { c with response := some (Responder.str t).respondTo } := rfl
  rw [this, f1]; rfl

theorem refuses_of {a : App U σ} {req : Request U} {h : Handler U σ} {e : ObsidianError} {t : Str}
    (hh : handlerFor a.router req.method req.path = some h) (hch : chainFor a.router req.path = some [])
    (he : ∀ c, Starts a req c → h c = .ret (.error e)) (ht : e.text = t) : Refuses (a.serve req) t := by
  intro w
  obtain ⟨x, ⟨h', chain, c, g1, g2, g3, rfl⟩, hx⟩ := C28_errors_are_500 a req hh
  rw [hh] at g1; simp only [Option.some.injEq] at g1; subst g1
  rw [hch] at g2; simp only [Option.some.injEq] at g2; subst g2
  have hrun : (execNext h [] c).run w = ⟨.ok (.error e), w, []⟩ := by
    rw [execNext, he c g3]; rfl
  obtain ⟨sent, k1, k2, k3, k4, k5⟩ := hx w e (by rw [hrun])
  rw [hrun] at k1
  exact ⟨sent, k1, k2, by rw [k3, ht], k4, k5⟩

/-- **C80**, for every request to an application with the only route `/a/:y`: an integer of the type gets
the answer of the handler; another text gets 500 with the name of the parameter; and everything else gets
404.  Except for the request that spells out the pattern, which is missing from the claim because there it is
false. -/
theorem C80_integer_route_partial {path a y : Str} (hp : OneParam path a y) (bits : Nat) (answer : Int → Str)
    (req : Request U) :
    let serve := (solo path (intHandler (U := U) (σ := σ) bits y answer)).serve req
    (∀ v, req.method = .get → segments req.path = [a, v] →
      (∀ i, Denotes true v i → IntRange true bits i → AnswersText serve (answer i)) ∧
      ((¬ ∃ i, Denotes true v i ∧ IntRange true bits i) → Refuses serve (s "Failed to parse param " ++ y))) ∧
    (req.method = .get → segments req.path = [a ++ ':' :: y] → Refuses serve (s "Input should not be None")) ∧
    (¬ (req.method = .get ∧ ((∃ v, segments req.path = [a, v]) ∨ segments req.path = [a ++ ':' :: y])) →
      AnswersOnly serve 404 "404 Not Found") := by
  intro serve
  have ha : a ≠ [] := segments_ne path a (by rw [hp.segs]; simp)
  have hc : CleanPath path := by
    intro x hx
    rw [hp.segs] at hx
    simp at hx
    rcases hx with rfl | rfl
    · exact fun h => hp.colon (List.mem_of_mem_tail h)
    · exact hp.colon'
  have hs : ∀ x ∈ segments path, '*' ∉ x := by
    intro x hx
    rw [hp.segs] at hx
    simp at hx
    rcases hx with rfl | rfl
    · exact hp.star
    · simp [hp.star']
  have hb := solo_build hc hs (intHandler (U := U) (σ := σ) bits y answer)
  have hcl : CleanRegs [(Reg.get path (intHandler bits y answer) : Reg (Middleware U σ) (Handler U σ))] := by
    simp only [CleanRegs, CleanReg, and_true]; exact hc
  have hlog : logOf [(Reg.get path (intHandler bits y answer) : Reg (Middleware U σ) (Handler U σ))] =
      [⟨[a, ':' :: y], .route .get (intHandler bits y answer)⟩] := by
    simp only [logOf, logRegs, logReg, List.nil_append, hp.segs]
  have hsm : NoStarMount (logOf [(Reg.get path (intHandler bits y answer) : Reg (Middleware U σ) (Handler U σ))]) := by
    refine noStarMount_of_noStar fun e he => .inl ?_
    rw [hlog] at he; simp at he; subst he
    rw [NoStar]
    simp
    exact fun h => hp.star (by rw [← h]; simp)
  have hr := build_rep hcl hb
  have hex := fun m => C04_exact_partial hcl hb hsm m req.path
  rw [hlog] at hex
  have hlead : ∀ b, LeadsTo ([⟨[a, ':' :: y], .route .get (intHandler bits y answer)⟩] :
      Log (Middleware U σ) (Handler U σ)) [a, ':' :: y] (segments req.path) b ↔ _ := fun b =>
    leads_pair ha hp.colon hp.star hp.star' (segments_ne req.path)
  have served : ∀ b, LeadsTo ([⟨[a, ':' :: y], .route .get (intHandler bits y answer)⟩] :
      Log (Middleware U σ) (Handler U σ)) [a, ':' :: y] (segments req.path) b → req.method = .get →
      handlerFor (solo path (intHandler (U := U) (σ := σ) bits y answer)).router req.method req.path =
        some (intHandler bits y answer) ∧
      chainFor (solo path (intHandler (U := U) (σ := σ) bits y answer)).router req.path = some [] ∧
      ∀ x, paramFor (solo path (intHandler (U := U) (σ := σ) bits y answer)).router req.path x = b.lookup x := by
    intro b hl hm
    have h1 := ((hex req.method).1 (intHandler bits y answer)).2 ⟨⟨[a, ':' :: y], .route .get (intHandler bits y answer)⟩, by simp, by rw [hm], b, hl⟩
    refine ⟨h1, ?_, (hex .get).2 ⟨[a, ':' :: y], .route .get (intHandler bits y answer)⟩ (by simp) (by simp) b hl⟩
    refine chain_nil hcl hb (fun e he m => by rw [hlog] at he; simp at he; subst he; simp) ?_
    exact (hr.obs_some ((hr.tidy.lookup_leads hsm (by rw [hlog]; simp) (e := ⟨[a, ':' :: y], .route .get (intHandler bits y answer)⟩) (by simp)).2 (by rw [hlog]; exact hl))).1
  refine ⟨fun v hm hv => ?_, fun hm hv => ?_, fun hn => ?_⟩
  · obtain ⟨k1, k2, k3⟩ := served [(y, v)] ((hlead _).2 (.inl ⟨v, hv, rfl⟩)) hm
    have k4 : paramFor (solo path (intHandler (U := U) (σ := σ) bits y answer)).router req.path y = some v := by
      rw [k3]; simp
    constructor
    · intro i h1 h2 w
      obtain ⟨chain, c, g1, g2, g3⟩ := C24_handler_runs _ req k1
      rw [k2] at g1; simp only [Option.some.injEq] at g1; subst g1
      have hpar := ((C46_param _ req c g2 (fun v => (parseInt true bits v).toOption) y).2 v k4).1 i
        (by rw [parseInt_ok.2 ⟨h1, inRange_iff.2 h2⟩]; rfl)
      obtain ⟨m, f1, f2⟩ := finish_text c (answer i)
      refine ⟨⟨200, m, Body.ofStr (answer i)⟩, ?_, rfl, (bytes_ofStr _).1, (bytes_ofStr _).2, f2⟩
      show serve.run w = _
      rw [show serve = _ from g3, execNext, intHandler, hpar]
      simp only [Act.ret_bind, f1]; rfl
    · intro hno
      refine refuses_of (e := .paramError (s "Failed to parse param " ++ y)) k1 k2 (fun c hc => ?_) rfl
      have hpar := ((C46_param _ req c hc (fun v => (parseInt true bits v).toOption) y).2 v k4).2 (by
        cases hpi : parseInt true bits v with
        | ok i =>
          obtain ⟨h1, h2⟩ := parseInt_ok.1 hpi
          exact absurd ⟨i, h1, inRange_iff.1 h2⟩ hno
        | error e => rfl)
      rw [intHandler, hpar]
  · obtain ⟨k1, k2, k3⟩ := served [] ((hlead _).2 (.inr ⟨hv, rfl⟩)) hm
    refine refuses_of (e := .noneError) k1 k2 (fun c hc => ?_) rfl
    have hpar := (C46_param _ req c hc (fun v => (parseInt true bits v).toOption) y).1 (by rw [k3]; rfl)
    rw [intHandler, hpar]
  · refine C24_no_handler _ req ?_
    cases hh : handlerFor (solo path (intHandler (U := U) (σ := σ) bits y answer)).router req.method req.path with
    | none => rfl
    | some k =>
      obtain ⟨e, he, hw, b, hl⟩ := ((hex req.method).1 k).1 hh
      simp at he; subst he
      simp at hw
      refine absurd ⟨hw.1.symm, ?_⟩ hn
      rcases (hlead b).1 hl with ⟨v, h, _⟩ | ⟨h, _⟩
      · exact .inl ⟨v, h⟩
      · exact .inr h

theorem users_path : OneParam (s "/users/:id") (s "users") (s "id") := by
  constructor <;> decide +kernel

/-- **C80 fails** for one request: `/users:id` does not have two segments, but it is not answered with 404:
the handler runs, without the parameter. -/
theorem C80_false (answer : Int → Str) (req : Request U) (hm : req.method = .get) (hp : req.path = s "/users:id") :
    (∀ v, segments req.path ≠ [s "users", v]) ∧
    Refuses ((solo (σ := σ) (s "/users/:id") (intHandler 32 (s "id") answer)).serve req) (s "Input should not be None") := by
  have h : segments (s "/users:id") = [s "users" ++ ':' :: s "id"] := by decide +kernel
  refine ⟨fun v => by rw [hp, h]; simp, ?_⟩
  exact (C80_integer_route_partial users_path 32 answer req).2.1 hm (by rw [hp, h])

/-- `/users/42` is answered, `/users/4x` and `/users/2147483648` are refused. -/
example (answer : Int → Str) (req : Request U) (hm : req.method = .get) :
    let serve := (solo (σ := σ) (s "/users/:id") (intHandler 32 (s "id") answer)).serve req
    (req.path = s "/users/42" → AnswersText serve (answer 42)) ∧
    (req.path = s "/users/-7/" → AnswersText serve (answer (-7))) ∧
    (req.path = s "/users/4x" → Refuses serve (s "Failed to parse param id")) ∧
    (req.path = s "/users/2147483648" → Refuses serve (s "Failed to parse param id")) := by
  have h := C80_integer_route_partial (U := U) (σ := σ) users_path 32 answer req
  have hs : segments (s "/users/42") = [s "users", s "42"] ∧ segments (s "/users/-7/") = [s "users", s "-7"] ∧
      segments (s "/users/4x") = [s "users", s "4x"] ∧
      segments (s "/users/2147483648") = [s "users", s "2147483648"] := by decide +kernel
  have no : ∀ v, (parseInt true 32 v).toOption = none → ¬ ∃ i, Denotes true v i ∧ IntRange true 32 i := by
    rintro v hv ⟨i, h1, h2⟩
    rw [parseInt_ok.2 ⟨h1, inRange_iff.2 h2⟩] at hv; simp [Except.toOption] at hv
  refine ⟨fun hp => ?_, fun hp => ?_, fun hp => ?_, fun hp => ?_⟩
  · exact (h.1 _ hm (by rw [hp]; exact hs.1)).1 42 ⟨s "42", by decide +kernel, by decide +kernel, .inl ⟨rfl, by decide +kernel⟩⟩
      (by simp [IntRange])
  · exact (h.1 _ hm (by rw [hp]; exact hs.2.1)).1 (-7) ⟨s "7", by decide +kernel, by decide +kernel,
      .inr (.inr ⟨rfl, by decide +kernel, by decide +kernel⟩)⟩ (by simp [IntRange])
  · exact (h.1 _ hm (by rw [hp]; exact hs.2.2.1)).2 (no _ (by decide +kernel))
  · exact (h.1 _ hm (by rw [hp]; exact hs.2.2.2)).2 (no _ (by decide +kernel))

end Obsidian.Props
