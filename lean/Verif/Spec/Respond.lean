import Verif.Model.App

/- What is expected of the values a handler answers with. -/
namespace Obsidian.Spec
open Obsidian

/-- A response as the client sees it. -/
structure Wire where
  status : Nat
  headers : List (Str × Str)
  body : List UInt8

/-- A list of bytes as a JSON array of decimal numbers. -/
def jsonNumbers (v : List UInt8) : Str :=
  "[".toList ++ List.intercalate [','] (v.map (fun b => Nat.toDigits 10 b.toNat)) ++ "]".toList

/-- The body of the values that can be combined with a status. -/
def contentBytes : Content → List UInt8
  | .unit => []
  | .str t => utf8 t
  | .bytes v => utf8 (jsonNumbers v)

/-- What the values that can be handed to `ctx.build` stand for. -/
def wire : Responder → Wire
  | .response r => ⟨r.status, r.headers.getD [], r.body.bytes⟩
  | .str t => ⟨200, [("content-type".toList, "text/plain; charset=utf-8".toList)], utf8 t⟩
  | .unit => ⟨200, [], []⟩
  | .withStatus n c => ⟨n, [], contentBytes c⟩
  | .bytes v => ⟨200, [], utf8 (jsonNumbers v)⟩
  | .status n => ⟨n, [], []⟩
  | .option (some t) => ⟨200, [("content-type".toList, "text/plain; charset=utf-8".toList)], utf8 t⟩
  | .option none => ⟨404, [], utf8 "Not Found".toList⟩

/-- What `ctx.build_json` stands for: the encoded value, or the text of the error with status 500. -/
def jsonWire : Except Str Str → Wire
  | .ok t => ⟨200, [("content-type".toList, "application/json".toList)], utf8 t⟩
  | .error e => ⟨500, [("content-type".toList, "application/json".toList)], utf8 e⟩

/-- What `ctx.build_file` stands for: the content of the file, or the text of the error with status
404. -/
def fileWire : Except Str (List UInt8) → Wire
  | .ok b => ⟨200, [], b⟩
  | .error e => ⟨404, [], utf8 e⟩

/-- Reading a JSON array of decimal numbers: `n` is the number being read (if it has begun). -/
def readNumbers : Option Nat → List UInt8 → Str → Option (List UInt8)
  | none, acc, [']'] => if acc = [] then some [] else none
  | some n, acc, [']'] => some (acc ++ [UInt8.ofNat n])
  | some n, acc, ',' :: t => readNumbers none (acc ++ [UInt8.ofNat n]) t
  | n, acc, c :: t => if '0' ≤ c ∧ c ≤ '9' then readNumbers (some (10 * n.getD 0 + (c.toNat - 48))) acc t else none
  | _, _, [] => none

/-- Reading the text of a JSON array of numbers. -/
def readJson : Str → Option (List UInt8)
  | '[' :: t => readNumbers none [] t
  | _ => none

end Obsidian.Spec
