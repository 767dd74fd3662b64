import Verif.Spec.Answers
import Verif.Props.Json
import Verif.Props.Build
import Verif.Props.Whole
import Verif.Spec.HeaderName

/-
C92: headers that are set by name.
-/
namespace Obsidian.Props
open Obsidian Spec
variable {U : Univ} {σ : Type}

/-! ### Which names there are -/

instance (r : NameRules) (c : Char) : Decidable (TokenChar r c) := by unfold TokenChar; infer_instance

instance (r : NameRules) (name : Str) : Decidable (Token r name) := by unfold Token; infer_instance

theorem headerChar_high (r : NameRules) (b : UInt8) (hb : 128 ≤ b.toNat) : headerChar r b = none := by
  have key : ∀ (q : Bool) (n : Fin 256), 128 ≤ n.val → headerChar ⟨q, 0⟩ (UInt8.ofNat n.val) = none := by decide +kernel
  have := key r.quote ⟨b.toNat, b.toNat_lt⟩ hb
  rw [UInt8.ofNat_toNat] at this
  exact this

theorem headerChar_ascii (r : NameRules) (c : Char) (hc : c.toNat ≤ 127) :
    headerChar r (UInt8.ofNat c.toNat) = if TokenChar r c then some (lowerChar c) else none := by
  have key : ∀ (q : Bool) (n : Fin 128), headerChar ⟨q, 0⟩ (UInt8.ofNat (Char.ofNat n.val).toNat) =
      if TokenChar ⟨q, 0⟩ (Char.ofNat n.val) then some (lowerChar (Char.ofNat n.val)) else none := by decide +kernel
  have := key r.quote ⟨c.toNat, by omega⟩
  rw [Char.ofNat_toNat] at this
  exact this

theorem headerChars_append (r : NameRules) (xs ys : List UInt8) :
    headerChars r (xs ++ ys) = (headerChars r xs).bind fun x => (headerChars r ys).map fun y => x ++ y := by
  induction xs with
  | nil => cases h : headerChars r ys <;> simp [headerChars, h]
  | cons b xs ih =>
    rw [List.cons_append, headerChars, headerChars, ih]
    cases headerChar r b <;> cases headerChars r xs <;> cases headerChars r ys <;> rfl

theorem tokenChar_ascii {r : NameRules} {c : Char} (h : TokenChar r c) : c.toNat ≤ 127 := by
  have le : ∀ {a b : Char}, a ≤ b → a.toNat ≤ b.toNat := fun h => h
  rcases h with h | ⟨_, h⟩ | ⟨_, h⟩ | ⟨_, h⟩ | ⟨h, _⟩
  · have : ∀ c ∈ "!#$%&'*+-.^_`|~".toList, c.toNat ≤ 127 := by decide +kernel
    exact this c h
  · exact Nat.le_trans (le h) (by decide)
  · exact Nat.le_trans (le h) (by decide)
  · exact Nat.le_trans (le h) (by decide)
  · rw [h]; decide

theorem headerChars_encode (r : NameRules) (c : Char) :
    headerChars r (String.utf8EncodeChar c) = if TokenChar r c then some [lowerChar c] else none := by
  have high : ∀ (b : Nat) (bs : List UInt8), 128 ≤ b → b < 256 → headerChars r (UInt8.ofNat b :: bs) = none := by
    intro b bs h1 h2
    rw [headerChars, headerChar_high r _ (by rw [UInt8.toNat_ofNat', Nat.mod_eq_of_lt h2]; exact h1)]
  by_cases hc : c.toNat ≤ 127
  · rw [show String.utf8EncodeChar c = [UInt8.ofNat c.toNat] from if_pos hc, headerChars, headerChar_ascii r c hc]
    by_cases ht : TokenChar r c
    · simp only [if_pos ht]; rfl
    · simp only [if_neg ht]
  · rw [if_neg fun ht => hc (tokenChar_ascii ht)]
    rw [String.utf8EncodeChar]
    have hc' : ¬ c.val.toNat ≤ 127 := hc
    simp only [hc', if_false]
    split
    · exact high _ _ (by omega) (by omega)
    · split
      · exact high _ _ (by omega) (by omega)
      · exact high _ _ (by omega) (by omega)

theorem headerChars_utf8 (r : NameRules) (name : Str) :
    headerChars r (utf8 name) = if ∀ c ∈ name, TokenChar r c then some (lower name) else none := by
  induction name with
  | nil => rfl
  | cons c name ih =>
    rw [show utf8 (c :: name) = String.utf8EncodeChar c ++ utf8 name from rfl, headerChars_append, headerChars_encode, ih]
    by_cases h1 : TokenChar r c
    · by_cases h2 : ∀ c ∈ name, TokenChar r c
      · rw [if_pos h1, if_pos h2, if_pos (by simpa using ⟨h1, h2⟩)]; rfl
      · rw [if_pos h1, if_neg h2, if_neg (fun h : ∀ c' ∈ c :: name, TokenChar r c' => h2 fun c hc => h c (List.mem_cons_of_mem _ hc))]; rfl
    · rw [if_neg h1, if_neg (fun h : ∀ c' ∈ c :: name, TokenChar r c' => h1 (h c List.mem_cons_self))]; rfl

theorem utf8_length {name : Str} (h : ∀ c ∈ name, c.toNat ≤ 127) : (utf8 name).length = name.length := by
  induction name with
  | nil => rfl
  | cons c name ih =>
    rw [show utf8 (c :: name) = String.utf8EncodeChar c ++ utf8 name from rfl,
      show String.utf8EncodeChar c = [UInt8.ofNat c.toNat] from if_pos (h c List.mem_cons_self)]
    simp [ih fun c hc => h c (List.mem_cons_of_mem _ hc)]

/-- **C92**, names: a text is a header name exactly if it is a token; and it stands for the name in small letters. -/
theorem C92_names (r : NameRules) (name : Str) : headerName r name = if Token r name then some (lower name) else none := by
  rw [headerName, headerChars_utf8]
  by_cases h : ∀ c ∈ name, TokenChar r c
  · have hl := utf8_length fun c hc => tokenChar_ascii (h c hc)
    rw [hl]
    by_cases ht : Token r name
    · rw [if_pos ht, if_pos h, if_neg]
      rintro (h0 | h0)
      · exact ht.1 (List.length_eq_zero_iff.1 h0)
      · have := ht.2.1; omega
    · rw [if_neg ht, if_pos h]
      split
      · rfl
      · next hn =>
        refine absurd ⟨fun h0 => hn (.inl (by rw [h0]; rfl)), ?_, h⟩ ht
        rcases Nat.lt_or_ge r.maxLen name.length with hlt | hge
        · exact absurd (.inr hlt) hn
        · exact hge
  · rw [if_neg h, if_neg fun ht : Token r name => h ht.2.2]; split <;> rfl

/-! ### What is sent -/

theorem lower_contentType : lower (s "content-type") = s "content-type" := by decide +kernel

theorem lastValue_lower (hs : List (Str × Str)) (name : Str) :
    lastValue (hs.map fun e => (lower e.1, e.2)) (lower name) = lastNamed hs name := by
  rw [lastValue, lastNamed, List.filter_map, List.getLast?_map, Option.map_map]
  rfl

/-- **C92**: a handler that sets headers by name, anywhere in any application, for every request that reaches it
without middlewares: if all names are tokens and all values visible ASCII, the answer is 200, the text, and for every
name, in whatever capitalisation, the value that was given last for it in whatever capitalisation (`content-type`
being preset); otherwise the handler panics. -/
theorem C92_anywhere {a : App U σ} {req : Request U} (r : NameRules) (text : Str) (hs : List (Str × Str))
    (g1 : handlerFor a.router req.method req.path = some (headersHandler r text hs))
    (g2 : chainFor a.router req.path = some []) (w : σ) :
    ((a.serve req).run w).world = w ∧ ((a.serve req).run w).printed = [] ∧
    ((∀ e ∈ hs, Token r e.1 ∧ Visible e.2) → ∃ sent, ((a.serve req).run w).out = .ok sent ∧ sent.status = 200 ∧
      sent.body.bytes = utf8 text ∧
      ∀ name, sent.headers.get (lower name) = lastNamed ((s "Content-Type", s "text/plain; charset=utf-8") :: hs) name) ∧
    (∀ e ∈ hs, ¬ Token r e.1 → ∃ e' ∈ hs, ¬ Token r e'.1 ∧ ((a.serve req).run w).out = .error (.headerName e'.1)) ∧
    ((∀ e ∈ hs, Token r e.1) → ∀ e ∈ hs, ¬ Visible e.2 → ∃ v, ¬ Visible v ∧ ((a.serve req).run w).out = .error (.headerValue v)) := by
  obtain ⟨chain, c, k1, k2, k3⟩ := C24_handler_runs _ req g1
  rw [g2] at k1; simp only [Option.some.injEq] at k1; subst k1
  rw [k3, execNext]
  by_cases ht : ∀ e ∈ hs, Token r e.1
  · have hn : Response.parseNames (headerName r) hs = .ok (hs.map fun e => (lower e.1, e.2)) := by
      rw [parseNames_ok]
      · congr 1
        refine List.map_congr_left fun e he => ?_
        simp only [C92_names, if_pos (ht e he), Option.getD_some]
      · intro k hk
        obtain ⟨e, he, rfl⟩ := List.mem_map.1 hk
        rw [C92_names, if_pos (ht e he)]; exact nofun
    obtain ⟨b, hb1, hb2, hb3, hb4⟩ : ∃ resp : Response,
        headersHandler (U := U) (σ := σ) r text hs c = .ret (.ok { c with response := some resp }) ∧ resp.status = 200 ∧
        resp.body = Body.ofStr text ∧
        headersOf resp = (s "content-type", s "text/plain; charset=utf-8") :: hs.map fun e => (lower e.1, e.2) := by
      refine ⟨(respondStr text).setHeaders (hs.map fun e => (lower e.1, e.2)), ?_, ?_, ?_, ?_⟩
      · rw [headersHandler, ResponseBuilder.withHeadersStr, Response.setHeadersStr, hn]; rfl
      · exact (setHeaders_headers _ _).2.1
      · exact (setHeaders_headers _ _).2.2
      · rw [headersOf, (setHeaders_headers _ _).1]; rfl
    rw [hb1, Act.ret_bind]
    obtain ⟨f1, f2⟩ := finish_sends (.ok { c with response := some b })
    by_cases hv : ∀ e ∈ hs, Visible e.2
    · have hs' : ¬ Unsendable (.ok { c with response := some b }) := by
        rintro ⟨c', b', e1, e2, e, he, hne⟩
        injection e1 with e1
        subst e1
        injection e2 with e2
        subst e2
        rw [hb4] at he
        rcases List.mem_cons.1 he with rfl | he
        · exact hne (by decide +kernel)
        · obtain ⟨e', he', rfl⟩ := List.mem_map.1 he
          exact hne (hv e' he')
      obtain ⟨sent, f3, f4⟩ := f2 hs'
      rw [f3]
      refine ⟨rfl, rfl, fun _ => ⟨sent, rfl, ?_⟩, fun e he hnt => absurd (ht e he) hnt, fun _ e he hnv => absurd (hv e he) hnv⟩
      cases f4 with
      | response e1 e2 e3 e4 e5 =>
        injection e1 with e1
        subst e1
        refine ⟨e3.trans hb2, by rw [e4, hb3]; exact (bytes_ofStr _).1, fun name => ?_⟩
        rw [e5, hb4, ← lastValue_lower, List.map_cons]
        rfl
      | silent e1 => cases e1
    · have hs' : Unsendable (.ok { c with response := some b }) := by
        obtain ⟨e, he, hne⟩ : ∃ e ∈ hs, ¬ Visible e.2 := by
          refine Classical.byContradiction fun hh => hv fun e he => Classical.byContradiction fun h' => hh ⟨e, he, h'⟩
        refine ⟨_, b, rfl, rfl, (lower e.1, e.2), ?_, hne⟩
        rw [hb4]
        exact List.mem_cons_of_mem _ (List.mem_map.2 ⟨e, he, rfl⟩)
      obtain ⟨x, f3, f4⟩ := f1 hs'
      rw [f4]
      exact ⟨rfl, rfl, fun hh => absurd (fun e he => (hh e he).2) hv, fun e he hnt => absurd (ht e he) hnt, fun _ _ _ _ => ⟨x, f3, rfl⟩⟩
  · obtain ⟨k, hk1, hk2, hk3⟩ : ∃ e ∈ hs, ¬ Token r e.1 ∧ Response.parseNames (headerName r) hs = .error (.headerName e.1) := by
      clear g1 g2 k2 k3
      induction hs with
      | nil => exact absurd nofun ht
      | cons e hs ih =>
        obtain ⟨k, v⟩ := e
        by_cases hk : Token r k
        · obtain ⟨e, he, hne, hp⟩ := ih fun hh => ht fun e he => by
            rcases List.mem_cons.1 he with rfl | he
            · exact hk
            · exact hh e he
          refine ⟨e, List.mem_cons_of_mem _ he, hne, ?_⟩
          rw [Response.parseNames, C92_names, if_pos hk]
          simp only [hp]
        · refine ⟨(k, v), List.mem_cons_self, hk, ?_⟩
          rw [Response.parseNames, C92_names, if_neg hk]
    have hb : headersHandler (U := U) (σ := σ) r text hs c = .panic (.headerName k.1) := by
      rw [headersHandler, ResponseBuilder.withHeadersStr, Response.setHeadersStr, hk3]
    rw [hb]
    exact ⟨rfl, rfl, fun hh => absurd (fun e he => (hh e he).1) ht, fun _ _ _ => ⟨k, hk1, hk2, rfl⟩, fun hh => absurd hh ht⟩

/-- **C92**: an application that consists of such a page: requests with other methods or other paths are answered
with 404, those to the page as `C92_anywhere` says; requests in which slashes of the path are left out are requests to
the page (`Joined`, see C77). -/
theorem C92_headers (r : NameRules) (t : U.Ty) (v : Verb) {path : Str} (hf : Fixed path) (text : Str)
    (hs : List (Str × Str)) :
    ∃ a : App U σ, App.calls (t := t) ((Page.calls [⟨v, path, headersHandler r text hs⟩]).map .reg) App.new = (a, none) ∧
      ∀ req, (¬ (req.method = v.method ∧ Joined (segments path) (segments req.path)) →
          AnswersOnly (a.serve req) 404 "404 Not Found") ∧
        (req.method = v.method ∧ Joined (segments path) (segments req.path) → ∀ w,
          ((a.serve req).run w).world = w ∧ ((a.serve req).run w).printed = [] ∧
          ((∀ e ∈ hs, Token r e.1 ∧ Visible e.2) → ∃ sent, ((a.serve req).run w).out = .ok sent ∧ sent.status = 200 ∧
            sent.body.bytes = utf8 text ∧
            ∀ name, sent.headers.get (lower name) = lastNamed ((s "Content-Type", s "text/plain; charset=utf-8") :: hs) name) ∧
          (∀ e ∈ hs, ¬ Token r e.1 → ∃ e' ∈ hs, ¬ Token r e'.1 ∧ ((a.serve req).run w).out = .error (.headerName e'.1)) ∧
          ((∀ e ∈ hs, Token r e.1) → ∀ e ∈ hs, ¬ Visible e.2 → ∃ v, ¬ Visible v ∧ ((a.serve req).run w).out = .error (.headerValue v))) := by
  obtain ⟨a, h1, h2⟩ := one_page (U := U) (σ := σ) t v hf (headersHandler r text hs)
  exact ⟨a, h1, fun req => ⟨(h2 req).2, fun h w => C92_anywhere r text hs ((h2 req).1 h).1 ((h2 req).1 h).2 w⟩⟩

/-! ### Examples -/

/-- The rules of http 0.2. -/
def rules : NameRules := ⟨true, 65535⟩

example : Token rules (s "X-Request-Id") ∧ ¬ Token rules (s "X Request") ∧ ¬ Token rules (s "Größe") ∧ ¬ Token rules [] ∧
    headerName rules (s "X-Request-Id") = some (s "x-request-id") := by decide +kernel

example : lastNamed [(s "Content-Type", s "text/plain; charset=utf-8"), (s "X-A", s "1"), (s "content-TYPE", s "text/css"), (s "x-a", s "2")]
    (s "CONTENT-type") = some (s "text/css") := by decide +kernel

example : Fixed (s "/page") ∧ segments (s "/page") = [s "page"] ∧
    ∀ e ∈ [(s "X-A", s "1"), (s "content-TYPE", s "text/css"), (s "x-a", s "2")], Token rules e.1 ∧ Visible e.2 := by decide +kernel

end Obsidian.Props
