import Verif.Spec.Answers
import Verif.Props.Build
import Verif.Props.Solo
import Verif.Props.Dispatch
import Verif.Spec.Respond
import Verif.Props.Form

/-
C58: what a handler hands to `ctx.build` is what the client gets.
-/
namespace Obsidian.Props
open Obsidian Spec
variable {U : Univ} {σ : Type}

theorem bytesJson_eq (v : Bytes) : bytesJson v = jsonNumbers v := by
  have key : ∀ bs : Bytes, ∀ x : Str, x ++ bs.flatMap (fun c => ',' :: byteText c) =
      List.intercalate [','] (x :: bs.map (fun b => Nat.toDigits 10 b.toNat)) := by
    intro bs
    induction bs with
    | nil => intro x; simp [List.intercalate]
    | cons b bs ih =>
      intro x
      rw [List.flatMap_cons, List.map_cons, List.intercalate_cons_cons, ← ih]
      simp only [byteText, Nat.toList_repr, List.cons_append, List.nil_append, List.append_assoc]
  cases v with
  | nil => rfl
  | cons b bs =>
    have h : bytesJson (b :: bs) = '[' :: (byteText b ++ bs.flatMap (fun c => ',' :: byteText c)) ++ [']'] := rfl
    rw [h, key, jsonNumbers, List.map_cons, byteText, Nat.toList_repr]
    rfl

theorem contentBytes_eq (c : Content) : c.intoBody.bytes = contentBytes c ∧ c.intoBody.fails = false := by
  cases c with
  | unit => exact ⟨rfl, rfl⟩
  | str t => exact bytes_ofStr t
  | bytes v =>
    have := bytes_ofStr (bytesJson v)
    rw [bytesJson_eq] at this
    rw [Content.intoBody, contentBytes, bytesJson_eq]
    exact this

theorem respondTo_wire (res : Responder) :
    res.respondTo.status = (wire res).status ∧ res.respondTo.headers.getD [] = (wire res).headers ∧
    res.respondTo.body.bytes = (wire res).body ∧
    ((∀ r, res = .response r → r.body.fails = false) → res.respondTo.body.fails = false) := by
  cases res with
  | response r => exact ⟨rfl, rfl, rfl, fun h => h r rfl⟩
  | str t => exact ⟨rfl, rfl, (bytes_ofStr t).1, fun _ => (bytes_ofStr t).2⟩
  | unit => exact ⟨rfl, rfl, rfl, fun _ => rfl⟩
  | withStatus n c => exact ⟨rfl, rfl, (contentBytes_eq c).1, fun _ => (contentBytes_eq c).2⟩
  | bytes v =>
    refine ⟨rfl, rfl, ?_, fun _ => (bytes_ofStr _).2⟩
    show (Body.ofStr (bytesJson v)).bytes = utf8 (jsonNumbers v)
    rw [(bytes_ofStr _).1, bytesJson_eq]
  | status n => exact ⟨rfl, rfl, rfl, fun _ => rfl⟩
  | option o =>
    cases o with
    | some t => exact ⟨rfl, rfl, (bytes_ofStr t).1, fun _ => (bytes_ofStr t).2⟩
    | none => exact ⟨rfl, rfl, (bytes_ofStr _).1, fun _ => (bytes_ofStr _).2⟩

/-- **C58**: a handler that answers with `ctx.build(res)` and further calls of the builder makes the
client get the status set last, or else the status that `res` stands for; the body that `res` stands
for; and for every header name the value set last, starting with the headers that `res` stands for. -/
theorem C58_build_on_the_wire {a : App U σ} {req : Request U} {parse : ParseName} {res : Responder}
    {os : List BuilderCall} (hh : handlerFor a.router req.method req.path = some (buildHandler parse res os))
    (hch : chainFor a.router req.path = some [])
    (hn : ∀ o ∈ os, ∀ k ∈ o.resp.names, parse k ≠ none)
    (hv : ∀ e ∈ (wire res).headers ++ (os.map BuilderCall.resp).flatMap (RespCall.headers parse),
      Visible e.2) (w : σ) :
    ∃ sent, (a.serve req).run w = ⟨.ok sent, w, []⟩ ∧
      sent.status = ((os.map BuilderCall.resp).filterMap RespCall.status).getLast?.getD (wire res).status ∧
      sent.body.bytes = (wire res).body ∧
      ((∀ r, res = .response r → r.body.fails = false) → sent.body.fails = false) ∧
      ∀ k, sent.headers.get k =
        lastValue ((wire res).headers ++ (os.map BuilderCall.resp).flatMap (RespCall.headers parse)) k := by
  obtain ⟨chain, c, h1, h2, h3⟩ := serve_some hh
  rw [hch] at h1; injection h1 with h1; subst h1
  obtain ⟨b, r, e1, e2, e3, e4, e5⟩ := C45_builder parse c res os hn
  obtain ⟨w1, w2, w3, w4⟩ := respondTo_wire res
  rw [w2] at e5
  have hl : headerList r = (wire res).headers ++ (os.map BuilderCall.resp).flatMap (RespCall.headers parse) := e5
  obtain ⟨m, f1, f2⟩ := finish_response (c := { c with response := some r }) rfl (by rw [hl]; exact hv)
  refine ⟨⟨r.status, m, r.body⟩, ?_, by rw [← w1]; exact e3, by rw [← w3]; exact congrArg Body.bytes e4, fun h => ?_, fun k => by rw [← hl]; exact f2 k⟩
  · rw [h3, execNext, buildHandler, e1]
    simp only [Except.map, Act.ofPure, Act.ret_bind, e2, f1]
    rfl
  · have := w4 h
    rw [← e4] at this; exact this

/-- Header names as the library reads them, for texts in lower case. -/
def lowerNames : ParseName := fun k => some k

/-- A handler that answers with a text, a status and two headers. -/
def goneHandler : Handler demoU W :=
  buildHandler lowerNames (.str (s "bye")) [.withStatus 404, .withHeaderStr (s "x-b") (s "1"),
    .withHeader (s "content-type") (s "text/csv"), .withStatus 410]

example : ∃ sent, ((solo (s "/bye") goneHandler).serve (demoReq .get "/bye")).run 7 = ⟨.ok sent, 7, []⟩ ∧
    sent.status = 410 ∧ sent.body.bytes = utf8 (s "bye") ∧ sent.headers.get (s "content-type") = some (s "text/csv") ∧
    sent.headers.get (s "x-b") = some (s "1") ∧ sent.headers.get (s "x-c") = none := by
  obtain ⟨h1, h2⟩ := solo_served (path := s "/bye") (by decide +kernel) (by decide +kernel) (by decide +kernel) goneHandler
  obtain ⟨sent, e1, e2, e3, _, e4⟩ := C58_build_on_the_wire (a := solo (s "/bye") goneHandler)
    (req := demoReq .get "/bye") h1 h2 (by intro o _ k _; simp [lowerNames]) (by decide +kernel) 7
  refine ⟨sent, e1, ?_, e3, ?_, ?_, ?_⟩
  · rw [e2]; decide +kernel
  · rw [e4]; decide +kernel
  · rw [e4]; decide +kernel
  · rw [e4]; decide +kernel

theorem readNumbers_digit {c : Char} (h : '0' ≤ c ∧ c ≤ '9') (n : Option Nat) (acc : Bytes) (t : Str) :
    readNumbers n acc (c :: t) = readNumbers (some (10 * n.getD 0 + (c.toNat - 48))) acc t := by
  have h1 : c ≠ ']' := by rintro rfl; exact absurd h (by decide)
  have h2 : c ≠ ',' := by rintro rfl; exact absurd h (by decide)
  rw [readNumbers.eq_def]
  split
  · next h' => injection h' with h'; exact absurd h' h1
  · next h' => injection h' with h'; exact absurd h' h1
  · next h' => injection h' with h'; exact absurd h' h2
  · next h' => injection h' with h' h''; subst h'; subst h''; rw [if_pos h]
  · next h' => simp at h'

theorem readNumbers_digits (ds : Str) (hd : ∀ c ∈ ds, '0' ≤ c ∧ c ≤ '9') (n : Nat) (acc : Bytes) (t : Str) :
    readNumbers (some n) acc (ds ++ t) =
      readNumbers (some (ds.foldl (fun n c => 10 * n + (c.toNat - 48)) n)) acc t := by
  induction ds generalizing n with
  | nil => rfl
  | cons c ds ih =>
    rw [List.cons_append, readNumbers_digit (hd c List.mem_cons_self), ih (fun c hc => hd c (List.mem_cons_of_mem _ hc))]
    rfl

theorem readNumbers_byte (b : UInt8) (acc : Bytes) (t : Str) :
    readNumbers none acc (Nat.toDigits 10 b.toNat ++ t) = readNumbers (some b.toNat) acc t := by
  have hd : ∀ c ∈ Nat.toDigits 10 b.toNat, '0' ≤ c ∧ c ≤ '9' := toDigits_denotes b.toNat
  have hn := number_toDigits b.toNat
  cases hds : Nat.toDigits 10 b.toNat with
  | nil => exact absurd hds Nat.toDigits_ne_nil
  | cons c ds =>
    rw [hds] at hd hn
    rw [List.cons_append, readNumbers_digit (hd c List.mem_cons_self),
      readNumbers_digits ds (fun c hc => hd c (List.mem_cons_of_mem _ hc))]
    simp only [number, List.foldl_cons] at hn
    simp only [Option.getD_none]
    rw [hn]

/-- **C58**: a `Vec<u8>` is sent as a JSON array, from which the bytes can be read back. -/
theorem C58_bytes_round_trip (v : Bytes) :
    ∃ t : Str, (wire (.bytes v)).body = utf8 t ∧ readJson t = some v := by
  refine ⟨jsonNumbers v, rfl, ?_⟩
  have key : ∀ (bs : Bytes) (b : UInt8) (acc : Bytes),
      readNumbers none acc (List.intercalate [','] ((b :: bs).map (fun b => Nat.toDigits 10 b.toNat)) ++ [']']) =
        some (acc ++ b :: bs) := by
    intro bs
    induction bs with
    | nil =>
      intro b acc
      rw [List.map_cons, List.map_nil, List.intercalate_singleton, readNumbers_byte, readNumbers]
      simp
    | cons b' bs ih =>
      intro b acc
      rw [List.map_cons, List.map_cons, List.intercalate_cons_cons, List.append_assoc, List.append_assoc,
        readNumbers_byte, List.cons_append, List.nil_append, readNumbers, ← List.map_cons (f := fun b : UInt8 => Nat.toDigits 10 b.toNat), ih]
      simp
  cases v with
  | nil => rfl
  | cons b bs => exact key bs b []

example : (wire (.bytes [0, 17, 255])).body = utf8 (s "[0,17,255]") ∧ readJson (s "[0,17,255]") = some [0, 17, 255] := by
  decide +kernel

end Obsidian.Props
