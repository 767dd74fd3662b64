import Verif.Spec.Respond
import Verif.Spec.Text
import Verif.Model.Static
import Verif.Model.UrlEncoded
import Verif.Spec.Pages
import Verif.Spec.UrlEncoded
import Verif.Spec.Form
import Verif.Spec.Submit
import Verif.Spec.HeaderName
import Verif.Model.Server

/-!
Words of the claims about requests and answers: handlers as a user writes them, and what it means
that a request is answered in some way.
-/

namespace Obsidian.Spec

open Obsidian

section

variable {U : Univ} {σ : Type}

/-- The headers of a response. -/
def headerList (r : Response) : List (HeaderName × Str) := r.headers.getD []

end

section

variable {U : Univ}

/-- A call on a `Response` (response.rs:44-141; the aliases `with_*` are the same calls). The results of
`serde_json::to_string` and of reading a file are given. -/
inductive RespCall where
  | setStatus (x : Status)
  | setBody (b : Body)
  | setHeader (k : HeaderName) (v : Str)
  | setHeaderStr (k v : Str)
  | setContentType (v : Str)
  | setHeaders (hs : List (HeaderName × Str))
  | setHeadersStr (hs : List (Str × Str))
  | html (b : Body)
  | json (encoded : Except Str Str)
  | file (content : Except Str Str)

/-- The library functions. -/
def RespCall.run (parse : ParseName) : RespCall → Response → Except Crash Response
  | .setStatus x, r => .ok (r.setStatus x)
  | .setBody b, r => .ok (r.setBody b)
  | .setHeader k v, r => .ok (r.setHeader k v)
  | .setHeaderStr k v, r => r.setHeaderStr parse k v
  | .setContentType v, r => .ok (r.setContentType v)
  | .setHeaders hs, r => .ok (r.setHeaders hs)
  | .setHeadersStr hs, r => r.setHeadersStr parse hs
  | .html b, r => .ok (r.html b)
  | .json e, r => .ok (r.json e)
  | .file x, r => .ok (r.file x)

/-- The status a call sets, if it does. -/
def RespCall.status : RespCall → Option Status
  | .setStatus x => some x
  | .json (.error _) => some 500
  | .file (.error _) => some 404
  | _ => none

/-- The body a call sets, if it does. -/
def RespCall.body : RespCall → Option Body
  | .setBody b | .html b => some b
  | .json (.ok x) | .json (.error x) | .file (.ok x) | .file (.error x) => some (Body.ofStr x)
  | _ => none

/-- The headers a call adds. -/
def RespCall.headers (parse : ParseName) : RespCall → List (HeaderName × Str)
  | .setHeader k v => [(k, v)]
  | .setHeaderStr k v => [((parse k).getD [], v)]
  | .setContentType v => [(s "content-type", v)]
  | .setHeaders hs => hs
  | .setHeadersStr hs => hs.map (fun (k, v) => ((parse k).getD [], v))
  | .html _ => [(s "content-type", s "text/html")]
  | .json _ => [(s "content-type", s "application/json")]
  | _ => []

/-- The header names given as text. -/
def RespCall.names : RespCall → List Str
  | .setHeaderStr k _ => [k]
  | .setHeadersStr hs => hs.map (·.1)
  | _ => []

/-- A call on a `ResponseBuilder` (context.rs:330-355). -/
inductive BuilderCall where
  | withStatus (x : Status)
  | withHeader (k : HeaderName) (v : Str)
  | withHeaderStr (k v : Str)
  | withHeaders (hs : List (HeaderName × Str))
  | withHeadersStr (hs : List (Str × Str))

/-- The library functions. -/
def BuilderCall.run (parse : ParseName) : BuilderCall → ResponseBuilder U → Except Crash (ResponseBuilder U)
  | .withStatus x, b => .ok (b.withStatus x)
  | .withHeader k v, b => .ok (b.withHeader k v)
  | .withHeaderStr k v, b => b.withHeaderStr parse k v
  | .withHeaders hs, b => .ok (b.withHeaders hs)
  | .withHeadersStr hs, b => b.withHeadersStr parse hs

/-- The corresponding calls on the response. -/
def BuilderCall.resp : BuilderCall → RespCall
  | .withStatus x => .setStatus x
  | .withHeader k v => .setHeader k v
  | .withHeaderStr k v => .setHeaderStr k v
  | .withHeaders hs => .setHeaders hs
  | .withHeadersStr hs => .setHeadersStr hs

end

section

variable {U : Univ} {σ : Type}

/-- An application with the single route `GET path`. -/
def solo (path : Str) (h : Handler U σ) : App U σ := ⟨(build [.get path h]).1, none⟩

end

section

variable {U : Univ} {σ : Type}

/-- A handler that is a chain of builder calls: `ctx.build(res).with_..(..)…ok()`. -/
def buildHandler (parse : ParseName) (res : Responder) (os : List BuilderCall) : Handler U σ := fun c =>
  .ofPure ((os.foldlM (fun b o => BuilderCall.run parse o b) (c.build res)).map ResponseBuilder.ok)

end

section

variable {M H : Type} {U : Univ} {σ : Type}

/-- The handler `|ctx| ctx.build(text).ok()`. -/
def textHandler (parse : ParseName) (t : Str) : Handler U σ := buildHandler parse (.str t) []

/-- The pages with handlers that answer with their texts. -/
def textPages (parse : ParseName) (ps : List (Page Str)) : List (Page (Handler U σ)) :=
  ps.map (fun p => ⟨p.verb, p.path, textHandler parse p.what⟩)

/-- The request is answered with the text. -/
def AnswersText (act : Act σ Sent) (t : Str) : Prop :=
  ∀ w, ∃ sent, act.run w = ⟨.ok sent, w, []⟩ ∧ sent.status = 200 ∧ sent.body.bytes = utf8 t ∧
    sent.body.fails = false ∧ ∀ k, sent.headers.get k =
      if k = s "content-type" then some (s "text/plain; charset=utf-8") else none

/-- The handler of `examples/app_state.rs`: it reads the state and answers with its text. -/
def stateHandler (t : U.Ty) (text : U.Val t → Str) : Handler U σ := fun c =>
  match c.get t with
  | some v => .ret (c.build (.option (some (s "connection string: " ++ text v)))).ok
  | none => .ret (.error .noneError)

end

section

variable {U : Univ} {σ M H : Type}

/-- A handler in the way of the documentation of `Context::param`: `let n: i32 = ctx.param(name)?;` and
then an answer that depends on the number. -/
def intHandler (bits : Nat) (name : Str) (answer : Int → Str) : Handler U σ := fun c =>
  match c.param (fun v => (parseInt true bits v).toOption) name with
  | .ok n => .ret (c.build (.str (answer n))).ok
  | .error e => .ret (.error e)

/-- The request is answered with status 500 and the text. -/
def Refuses (act : Act σ Sent) (t : Str) : Prop :=
  ∀ w, ∃ sent, act.run w = ⟨.ok sent, w, []⟩ ∧ sent.status = 500 ∧ sent.body.bytes = utf8 t ∧
    sent.body.fails = false ∧ ∀ k, sent.headers.get k = none

/-- A path `/a/:y`. -/
structure OneParam (path a y : Str) : Prop where
  segs : segments path = [a, ':' :: y]
  colon : ':' ∉ a
  colon' : ':' ∉ y
  star : '*' ∉ a
  star' : '*' ∉ y

end

section

variable {U : Univ} {σ : Type}

/-- A handler `ctx.build_json(value).with_..(..)…ok()`; `encoded` is the value as JSON text. -/
def jsonHandler (parse : ParseName) (encoded : Except Str Str) (os : List BuilderCall) : Handler U σ := fun c =>
  .ofPure ((os.foldlM (fun b o => BuilderCall.run parse o b) (c.buildJson encoded)).map ResponseBuilder.ok)

/-- A handler `ctx.build_file(path).await.with_..(..)…ok()`. -/
def fileHandler (parse : ParseName) (fs : ReadFile σ) (path : Str) (os : List BuilderCall) : Handler U σ := fun c =>
  (c.buildFileAct fs path).bind fun b =>
    .ofPure ((os.foldlM (fun b o => BuilderCall.run parse o b) b).map ResponseBuilder.ok)

/-- The values of which `ctx.build` knows the type: texts. -/
def KnowsType : Responder → Prop
  | .str _ => True
  | .option (some _) => True
  | _ => False

end

section

variable {U : Univ} {σ H : Type}
variable {α β : Type}

/-- The request is answered with the JSON text. -/
def AnswersJson (act : Act σ Sent) (t : Str) : Prop :=
  ∀ w, ∃ sent, act.run w = ⟨.ok sent, w, []⟩ ∧ sent.status = 200 ∧ sent.body.bytes = utf8 t ∧
    sent.body.fails = false ∧ ∀ k, sent.headers.get k =
      if k = s "content-type" then some (s "application/json") else none

/-- A handler `let v: A = ctx.json().await?; ctx.build_json(f(v)).ok()`. -/
def jsonService (fromSlice : Bytes → Except Str α) (toText : β → Str) (f : α → β) : Handler U σ := fun c =>
  match c.json fromSlice with
  | (.ok v, c') => .ret (c'.buildJson (.ok (toText (f v)))).ok
  | (.error e, _) => .ret (.error e)

/-- The body comes in one piece (empty pieces aside), without error. -/
def OnePiece (b : Body) : Prop := b.fails = false ∧ (b.chunks.filter (fun c => !c.isEmpty)).length ≤ 1

end

section

variable {U : Univ} {σ : Type}

/-- A change of the data of a context. -/
inductive StoreOp (U : Univ) where
  | add (t : U.Ty) (v : U.Val t)
  | update (t : U.Ty) (f : U.Val t → U.Val t)

/-- The operations of the library. -/
def StoreOp.run : StoreOp U → Context U → Context U
  | .add t v, c => c.add t v
  | .update t f, c => (c.modify t f).getD c

/-- The operations on a function from types to optional values. -/
def StoreOp.spec : StoreOp U → ((t : U.Ty) → Option (U.Val t)) → (t : U.Ty) → Option (U.Val t)
  | .add t v, g => fun t' => if h : t = t' then some (h ▸ v) else g t'
  | .update t f, g => fun t' => if h : t = t' then (g t').map (fun x => h ▸ f (h ▸ x)) else g t'

/-- The context with other data. -/
def withData (c : Context U) (e : Extensions U) : Context U :=
  { c with request := { c.request with extensions := e } }

/-- The state set last. -/
def lastState {t : U.Ty} : List (AppCall U σ t) → Option (U.Val t)
  | [] => none
  | .reg _ :: cs => lastState cs
  | .setAppState v :: cs => match lastState cs with | some v' => some v' | none => some v

/-- The context with an empty body. -/
def emptied (c : Context U) : Context U := { c with request := { c.request with body := Body.empty } }

/-- A way to read the body. -/
inductive Read where
  | takeBody
  | form {α : Type} (parseQueries : Bytes → Except Crash (Except ObsidianError α))
  | json {α : Type} (fromSlice : Bytes → Except Str α)

/-- The context afterwards (reading a form may panic, see C38). -/
def Read.after : Read → Context U → Except Crash (Context U)
  | .takeBody, c => .ok c.takeBody.2
  | .form pq, c => (c.form pq).map (·.2)
  | .json fs, c => .ok (c.json fs).2

end

section

variable {U : Univ}

/-- The intended decoding of a list of values. -/
def Means (t : Ty) (vals : List Str) (v : Val) : Prop := ∃ r, Reads t vals v r

end

section

variable {U : Univ}

/-- A client that writes every byte with a percent sign. -/
def hexByte (b : UInt8) : Bytes :=
  [37, UInt8.ofNat ("0123456789ABCDEF".toList[b.toNat / 16]?.getD '0').toNat,
    UInt8.ofNat ("0123456789abcdef".toList[b.toNat % 16]?.getD '0').toNat]

/-- This client's forms. -/
def hexForm : List (Str × Str) → Bytes
  | [] => []
  | [(k, v)] => (utf8 k).flatMap hexByte ++ 61 :: (utf8 v).flatMap hexByte
  | (k, v) :: ps => ((utf8 k).flatMap hexByte ++ 61 :: (utf8 v).flatMap hexByte) ++ 38 :: hexForm ps

end

section

variable {U : Univ} {σ : Type}

/-- What is submitted, collected by name. -/
def Collects (pairs : List (Str × Str)) (es : List (Str × List Str)) : Prop :=
  KeysDistinct es ∧ ∀ k vals, (k, vals) ∈ es ↔ vals = valuesOf pairs k ∧ vals ≠ []

/-- A handler `let v: T = ctx.form().await?; ctx.build(answer(v)).ok()`, where `T` is a struct. -/
def formService (repair : Bytes → Str) (i1 i2 : Iter) (shape : Shape) (answer : Decoded → Str) : Handler U σ := fun c =>
  match c.form (parseQueries (urlParse repair) i1 i2 shape) with
  | .error e => .panic e
  | .ok (.ok v, c') => .ret (c'.build (.str (answer v))).ok
  | .ok (.error e, _) => .ret (.error e)

end

section

variable {U : Univ} {σ : Type}

/-- The names and values that the query stands for; no query is like an empty one. -/
def Asks (repair : Bytes → Str) (query : Option Str) (pairs : List (Str × Str)) : Prop :=
  ∃ parts, WritesParts parts (utf8 (query.getD [])) ∧
    Each (fun b t => ReadsAs repair b.1 t.1 ∧ ReadsAs repair b.2 t.2) parts pairs

/-- A handler that reads the query and answers with a text about it:
`let v: T = ctx.query_params()?; ctx.build(answer(v)).ok()`. -/
def queryService (repair : Bytes → Str) (i1 i2 : Iter) (shape : Shape) (answer : Decoded → Str) : Handler U σ := fun c =>
  match c.queryParams (parseQueries (urlParse repair) i1 i2 shape) with
  | .error e => .panic e
  | .ok (.ok v) => .ret (c.build (.str (answer v))).ok
  | .ok (.error e) => .ret (.error e)

end

section

variable {U : Univ}

/-- The type holds an enum, a nested struct or a nested map. -/
inductive Refused : Ty → Prop
  | enum (e : Str) : Refused (.enum e)
  | nested (e : Str) : Refused (.nested e)
  | option {t : Ty} : Refused t → Refused (.option t)
  | newtype {t : Ty} : Refused t → Refused (.newtype t)
  | seq {t : Ty} : Refused t → Refused (.seq t)
  | tuple {e : Str} {t : Ty} {ts : List Ty} : t ∈ ts → Refused t → Refused (.tuple e ts)

end

section

variable {U : Univ} {σ : Type}

/-- The small letter. -/
def lowerChar (c : Char) : Char := if 'A' ≤ c ∧ c ≤ 'Z' then Char.ofNat (c.toNat + 32) else c

/-- A handler that answers with a text and headers given by name. -/
def headersHandler (r : NameRules) (text : Str) (hs : List (Str × Str)) : Handler U σ := fun c =>
  match (c.build (.str text)).withHeadersStr (headerName r) hs with
  | .ok b => .ret b.ok
  | .error k => .panic k

end

section

variable {U : Univ} {σ : Type}

/-- The computation never returns a context without a response. -/
def Responds (x : Act σ (ContextResult U)) : Prop :=
  ∀ w c, (x.run w).out = .ok (.ok c) → c.response ≠ none

end

end Obsidian.Spec
