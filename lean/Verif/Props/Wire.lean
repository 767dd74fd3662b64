import Verif.Spec.Wire
import Verif.Props.Dispatch
import Verif.Props.HeaderName
import Verif.Props.AppCommon

/-
C99: no response can be split.
-/
namespace Obsidian.Props
open Obsidian Spec
variable {U : Univ} {σ : Type}

/-- Every end of the computation, whatever the world does in between, is as said. -/
def EndsIn {α : Type} (P : α → Prop) : Act σ α → Prop
  | .ret a => P a
  | .panic _ => True
  | .step _ k => ∀ w, EndsIn P (k w)
  | .print _ k => EndsIn P k

theorem EndsIn.bind {α β : Type} {P : β → Prop} {f : α → Act σ β} (h : ∀ a, EndsIn P (f a)) : ∀ x : Act σ α, EndsIn P (x.bind f)
  | .ret a => h a
  | .panic _ => trivial
  | .step _ k => fun w => EndsIn.bind h (k w)
  | .print _ k => EndsIn.bind h k

theorem EndsIn.stepOnce {α : Type} {P : α → Prop} {x : Act σ α} (h : EndsIn P x) (w : σ) : EndsIn P (x.stepOnce w).1 := by
  cases x with
  | ret a => exact h
  | panic c => exact h
  | step f k => exact h w
  | print l k => exact h

/-- The headers can be sent: visible values, each name once. -/
def Sendable (x : Sent) : Prop :=
  (∀ e ∈ x.headers.entries, Visible e.2) ∧ x.headers.entries.Pairwise (fun e e' => e.1 ≠ e'.1)

theorem insertHeaders_sendable {hs : List (HeaderName × Str)} {m m' : HeaderMap}
    (hm : (∀ e ∈ m.entries, Visible e.2) ∧ m.entries.Pairwise (fun e e' => e.1 ≠ e'.1)) (h : insertHeaders hs m = .ok m') :
    (∀ e ∈ m'.entries, Visible e.2) ∧ m'.entries.Pairwise (fun e e' => e.1 ≠ e'.1) := by
  induction hs generalizing m with
  | nil => cases h; exact hm
  | cons e hs ih =>
    obtain ⟨k, v⟩ := e
    rw [insertHeaders] at h
    split at h
    · next hv =>
      refine ih ⟨?_, ?_⟩ h
      · intro e he
        rcases List.mem_cons.1 he with rfl | he
        · exact (valid_iff v).1 hv
        · exact hm.1 e ((List.mem_filter.1 he).1)
      · refine List.pairwise_cons.2 ⟨fun e he => ?_, hm.2.filter _⟩
        have := (List.mem_filter.1 he).2
        simp only [Bool.not_eq_true', beq_eq_false_iff_ne] at this
        exact fun h => this h.symm
    · cases h

theorem finish_sendable {r : ContextResult U} {sent : Sent} (h : finish r = .ok sent) : Sendable sent := by
  have h0 : ∀ st b, Sendable ⟨st, HMap.empty, b⟩ := fun _ _ => ⟨fun e he => (by simp [HMap.empty] at he), List.Pairwise.nil⟩
  cases r with
  | error e => rw [finish_error] at h; cases h; exact h0 _ _
  | ok c =>
    cases hr : c.response with
    | none => simp only [finish, Context.takeResponse, hr] at h; cases h; exact h0 _ _
    | some r =>
      obtain ⟨b, st, hs⟩ := r
      cases hs with
      | none => simp only [finish, Context.takeResponse, hr] at h; cases h; exact h0 _ _
      | some hs =>
        simp only [finish, Context.takeResponse, hr, Builder.withHeaders, Builder.new] at h
        cases hi : insertHeaders hs HMap.empty with
        | error e => rw [hi] at h; cases h
        | ok m => rw [hi] at h; cases h; exact insertHeaders_sendable (h0 0 Body.empty) hi

theorem serve_sendable (a : App U σ) (req : Request U) : EndsIn Sendable (a.serve req) := by
  have h0 : Sendable pageNotFound := ⟨fun e he => (by simp [pageNotFound, HMap.empty] at he), List.Pairwise.nil⟩
  rw [App.serve]
  split
  · rw [resolveEndpoint.eq_def]
    split
    · split
      · exact h0
      · refine EndsIn.bind (fun r => ?_) _
        cases hf : finish r with
        | ok sent => exact finish_sendable hf
        | error c => trivial
    · exact h0
  · trivial

/-! ### Reading what was written -/

theorem utf8_ascii {x : Str} (h : ∀ c ∈ x, c.toNat ≤ 127) : utf8 x = x.map fun c => UInt8.ofNat c.toNat := by
  induction x with
  | nil => rfl
  | cons c x ih =>
    rw [show utf8 (c :: x) = String.utf8EncodeChar c ++ utf8 x from rfl,
      show String.utf8EncodeChar c = [UInt8.ofNat c.toNat] from if_pos (h c List.mem_cons_self), ih fun c hc => h c (List.mem_cons_of_mem _ hc)]
    rfl

theorem readLines_line {x : Bytes} (h : 10 ∉ x) (line rest : Bytes) : readLines line (x ++ rest) = readLines (line ++ x) rest := by
  induction x generalizing line with
  | nil => simp
  | cons b x ih =>
    have hb : b ≠ 10 := fun e => h (by simp [e])
    rw [List.cons_append, readLines, if_neg hb, ih (fun h' => h (List.mem_cons_of_mem _ h'))]
    simp

theorem withoutCR_add (x : Bytes) : withoutCR (x ++ [13]) = x := by simp [withoutCR]

theorem readLines_crlf {x : Bytes} (h : 10 ∉ x) (rest : Bytes) :
    readLines [] (x ++ crlf ++ rest) = if x = [] then some ([], rest) else (readLines [] rest).map fun p => (x :: p.1, p.2) := by
  rw [List.append_assoc, readLines_line h]
  show readLines x (13 :: 10 :: rest) = _
  rw [readLines, if_neg (by decide), readLines, if_pos rfl, withoutCR_add]

theorem visible_bytes {v : Str} (h : Visible v) : ∀ b ∈ utf8 v, b ≠ 10 ∧ b ≠ 13 := by
  have hn : ∀ c ∈ v, (32 ≤ c.toNat ∧ c.toNat ≤ 126) ∨ c.toNat = 9 := by
    intro c hc
    rcases h c hc with ⟨h1, h2⟩ | rfl
    · rw [Char.le_def, UInt32.le_iff_toNat_le] at h1 h2; exact .inl ⟨h1, h2⟩
    · exact .inr rfl
  rw [utf8_ascii fun c hc => by rcases hn c hc with h | h <;> omega]
  intro b hb
  obtain ⟨c, hc, rfl⟩ := List.mem_map.1 hb
  have := hn c hc
  constructor <;> intro e <;> have e := congrArg UInt8.toNat e <;> simp only [UInt8.toNat_ofNat'] at e <;>
    rw [Nat.mod_eq_of_lt (by omega)] at e <;> simp at e <;> omega

theorem token_char {r : NameRules} {c : Char} (h : TokenChar r c) : 33 ≤ c.toNat ∧ c.toNat ≤ 126 ∧ c.toNat ≠ 58 := by
  rcases h with h | ⟨h1, h2⟩ | ⟨h1, h2⟩ | ⟨h1, h2⟩ | ⟨rfl, _⟩
  · have : ∀ c ∈ "!#$%&'*+-.^_`|~".toList, 33 ≤ c.toNat ∧ c.toNat ≤ 126 ∧ c.toNat ≠ 58 := by decide +kernel
    exact this c h
  all_goals try (rw [Char.le_def, UInt32.le_iff_toNat_le] at h1 h2)
  · have h1 : 48 ≤ c.toNat := h1
    have h2 : c.toNat ≤ 57 := h2
    omega
  · have h1 : 97 ≤ c.toNat := h1
    have h2 : c.toNat ≤ 122 := h2
    omega
  · have h1 : 65 ≤ c.toNat := h1
    have h2 : c.toNat ≤ 90 := h2
    omega
  · decide

theorem token_bytes {r : NameRules} {name : Str} (h : Token r name) :
    utf8 name ≠ [] ∧ ∀ b ∈ utf8 name, b ≠ 10 ∧ b ≠ 58 := by
  have hn : ∀ c ∈ name, 33 ≤ c.toNat ∧ c.toNat ≤ 126 ∧ c.toNat ≠ 58 := fun c hc => token_char (h.2.2 c hc)
  rw [utf8_ascii fun c hc => by have := hn c hc; omega]
  refine ⟨by simpa using h.1, fun b hb => ?_⟩
  obtain ⟨c, hc, rfl⟩ := List.mem_map.1 hb
  have := hn c hc
  constructor <;> intro e <;> have e := congrArg UInt8.toNat e <;> simp only [UInt8.toNat_ofNat'] at e <;>
    rw [Nat.mod_eq_of_lt (by omega)] at e <;> simp at e <;> omega

theorem readField_write {name value : Bytes} (h : 58 ∉ name) : readField (name ++ [58, 32] ++ value) = (name, trimBlanks value) := by
  have h' : ∀ b ∈ name, (decide (b ≠ 58)) = true := fun b hb => decide_eq_true fun e => h (e ▸ hb)
  rw [readField, List.append_assoc, List.takeWhile_append_of_pos h', List.dropWhile_append_of_pos h']
  simp [trimBlanks, isBlank]

theorem readLines_fields {r : NameRules} {hs : List (HeaderName × Str)} (hn : ∀ e ∈ hs, Token r e.1) (hv : ∀ e ∈ hs, Visible e.2) (body : Bytes) :
    readLines [] (hs.flatMap writeField ++ crlf ++ body) = some (hs.map fun e => utf8 e.1 ++ [58, 32] ++ utf8 e.2, body) := by
  induction hs with
  | nil => exact readLines_crlf (x := []) (by simp) body
  | cons e hs ih =>
    have ih := ih (fun e he => hn e (List.mem_cons_of_mem _ he)) (fun e he => hv e (List.mem_cons_of_mem _ he))
    have h1 := token_bytes (hn e List.mem_cons_self)
    have h2 := visible_bytes (hv e List.mem_cons_self)
    have h10 : 10 ∉ utf8 e.1 ++ [58, 32] ++ utf8 e.2 := by
      simp only [List.mem_append, not_or]
      exact ⟨⟨fun h => (h1.2 _ h).1 rfl, by decide⟩, fun h => (h2 _ h).1 rfl⟩
    rw [List.flatMap_cons, writeField, List.append_assoc, List.append_assoc, ← List.append_assoc (hs.flatMap writeField),
      readLines_crlf h10, if_neg (by simp), ih]
    rfl

/-- **C99**: whatever handlers and middlewares do, and in whatever order the requests take their steps, every
response of the server has only visible header values, and every name at most once; so that a client that
reads it finds, in whatever order the headers are sent, exactly these headers, and after them exactly the
body: no value begins another header, or ends the head. The names of the headers are header names, which the
type `HeaderName` ensures (see C92). -/
theorem C99_no_splitting (a : App U σ) (w : σ) (es : List (Event U)) (t : Task U σ) (sent : Sent)
    (ht : t ∈ (Server.run (fun _ x => x) ⟨a, [], w, []⟩ es).tasks) (hd : t.todo = .ret sent) :
    (∀ e ∈ sent.headers.entries, Visible e.2) ∧
    sent.headers.entries.Pairwise (fun e e' => e.1 ≠ e'.1) ∧
    ∀ (r : NameRules) (first : Bytes) (hs : List (HeaderName × Str)), hs.Perm sent.headers.entries → (∀ e ∈ hs, Token r e.1) →
      first ≠ [] → 10 ∉ first →
      readResponse (writeResponse first hs sent.body.bytes) =
        some (first, hs.map (fun e => (utf8 e.1, trimBlanks (utf8 e.2))), sent.body.bytes) := by
  have inv : ∀ (es : List (Event U)) (s : Server U σ σ), s.app = a → (∀ t ∈ s.tasks, EndsIn Sendable t.todo) →
      ∀ t ∈ (Server.run (fun _ x => x) s es).tasks, EndsIn Sendable t.todo := by
    intro es
    induction es with
    | nil => exact fun s _ h => h
    | cons e es ih =>
      intro s ha h
      refine ih (s.step (fun _ x => x) e) ?_ ?_
      · cases e with
        | arrive req => exact ha
        | step i => simp only [Server.step]; split <;> exact ha
      · cases e with
        | arrive req =>
          intro t ht
          simp only [Server.step, List.mem_append, List.mem_singleton] at ht
          rcases ht with ht | rfl
          · exact h t ht
          · exact serve_sendable _ _
        | step i =>
          intro t ht
          simp only [Server.step] at ht
          split at ht
          · next t0 h0 =>
            rcases List.mem_or_eq_of_mem_set ht with ht | rfl
            · exact h t ht
            · exact (h t0 (List.mem_of_getElem? h0)).stepOnce _
          · exact h t ht
  have hs := inv es ⟨a, [], w, []⟩ rfl (by simp) t ht
  rw [hd] at hs
  refine ⟨hs.1, hs.2, fun r first l hp hn hf hf' => ?_⟩
  have hl := readLines_fields hn (fun e he => hs.1 e (hp.mem_iff.1 he)) sent.body.bytes
  rw [writeResponse, List.append_assoc, List.append_assoc, List.append_assoc, ← List.append_assoc first, readResponse]
  rw [readLines_crlf hf', if_neg hf, ← List.append_assoc, hl]
  simp only [Option.map_some, List.map_map]
  congr 3
  refine List.map_congr_left fun e he => readField_write fun h => ((token_bytes (hn e he)).2 _ h).2 rfl

/-- The reader notices a split response. -/
example : readResponse (writeResponse (utf8 (s "HTTP/1.1 200 OK")) [(s "a", s "b\r\nset-cookie: x")] []) =
    some (utf8 (s "HTTP/1.1 200 OK"), [(utf8 (s "a"), utf8 (s "b")), (utf8 (s "set-cookie"), utf8 (s "x"))], []) := by decide +kernel

/-- A server with one page that sets headers, to which one request was sent. -/
def wireServer : Server demoU Nat Nat :=
  Server.run (fun _ x => x) ⟨⟨(build [.get (s "/p") fun c => .ret (.ok { c with
    response := some (((Response.new (Body.ofStr (s "hi"))).setHeader (s "x-a") (s " b; c")).setHeader (s "vary") (s "accept")) })]).1, none⟩, [], 0, []⟩
    [.arrive (demoReq .get "/p"), .step 0]

theorem wireServer_done : ∃ t ∈ wireServer.tasks, ∃ sent, t.todo = .ret sent ∧
    sent.headers.entries = [(s "vary", s "accept"), (s "x-a", s " b; c")] ∧ sent.body.bytes = utf8 (s "hi") := by
  have h : (match wireServer.tasks with
      | [⟨_, .ret x⟩] => decide (x.headers.entries = [(s "vary", s "accept"), (s "x-a", s " b; c")] ∧ x.body.bytes = utf8 (s "hi"))
      | _ => false) = true := by decide +kernel
  split at h
  · next x hx => rw [hx]; exact ⟨_, List.mem_singleton.2 rfl, x, rfl, of_decide_eq_true h⟩
  · cases h

example : ∃ t ∈ wireServer.tasks, ∃ sent, t.todo = .ret sent ∧
    readResponse (writeResponse (utf8 (s "HTTP/1.1 200 OK")) [(s "vary", s "accept"), (s "x-a", s " b; c")] sent.body.bytes) =
      some (utf8 (s "HTTP/1.1 200 OK"), [(utf8 (s "vary"), utf8 (s "accept")), (utf8 (s "x-a"), utf8 (s "b; c"))], utf8 (s "hi")) := by
  obtain ⟨t, ht, sent, h1, h2, h3⟩ := wireServer_done
  refine ⟨t, ht, sent, h1, ?_⟩
  have h := (C99_no_splitting _ _ _ t sent ht h1).2.2 ⟨false, 100⟩ (utf8 (s "HTTP/1.1 200 OK"))
    [(s "vary", s "accept"), (s "x-a", s " b; c")] (List.Perm.of_eq h2.symm) (by decide +kernel)
    (by decide +kernel) (by decide +kernel)
  rw [h, h3]
  decide +kernel

end Obsidian.Props
