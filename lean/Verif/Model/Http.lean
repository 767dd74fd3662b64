import Verif.Model.Trie
import Verif.Model.Act

/-
The parts of the `hyper` / `http` crates that the code uses.  They are trusted as described here.
-/
namespace Obsidian

/-- Bytes of a body. -/
abbrev Bytes := List UInt8

/-- The UTF-8 encoding of a string (`str::as_bytes`, `String::into_bytes`). -/
def utf8 (s : Str) : Bytes := s.flatMap String.utf8EncodeChar

/-- `hyper::Body`: the chunks it delivers, and whether reading it fails after them. -/
structure Body where
  chunks : List Bytes
  fails : Bool
deriving DecidableEq

/-- `Body::empty()`. -/
def Body.empty : Body := ⟨[], false⟩

/-- `Body::from(bytes)`: a single chunk, or the empty body. -/
def Body.ofBytes (b : Bytes) : Body := if b = [] then Body.empty else ⟨[b], false⟩

/-- `Body::from(String)`, `Body::from(&'static str)`. -/
def Body.ofStr (s : Str) : Body := Body.ofBytes (utf8 s)

/-- All bytes of a body. -/
def Body.bytes (b : Body) : Bytes := b.chunks.flatten

/-- `hyper::body::aggregate(body).await` followed by `buf.chunk()` (context.rs:179-186, 244-251):
reading fails, or gives a buffer made of the chunks; `Buf::chunk` of such a buffer is its first
non-empty chunk, and empty if there is none. -/
def Body.aggregateChunk (b : Body) : Option Bytes :=
  if b.fails then none else some ((b.chunks.find? (fun c => !c.isEmpty)).getD [])

/-- `StatusCode`. -/
abbrev Status := Nat

/-- `http::header::HeaderName`, in its canonical (lower case) form. -/
abbrev HeaderName := Str

/-- `header::CONTENT_TYPE`. -/
def contentType : HeaderName := "content-type".toList

/-- Whether `HeaderValue::from_static` accepts a value: visible ASCII, space and tab. -/
def validHeaderValue (v : Str) : Bool := v.all (fun c => (32 ≤ c.toNat && c.toNat < 127) || c = '\t')

/-- `HeaderMap`, as far as `insert` and `get` go: at most one value per name. -/
abbrev HeaderMap := HMap HeaderName Str

/-- A response as handed to hyper (`http::Response<Body>`). -/
structure Sent where
  status : Status
  headers : HeaderMap
  body : Body

/-- The types whose values can be stored in `http::Extensions` (`TypeId`s and their values). -/
structure Univ where
  Ty : Type
  Val : Ty → Type
  dec : DecidableEq Ty

instance (U : Univ) : DecidableEq U.Ty := U.dec

/-- `http::Extensions`: a map from types to values of these types. -/
structure Extensions (U : Univ) where
  entries : List ((t : U.Ty) × U.Val t)

namespace Extensions
variable {U : Univ}

/-- `Extensions::new`. -/
def empty : Extensions U := ⟨[]⟩

/-- Lookup in a list of typed values. -/
def find (t : U.Ty) : List ((t : U.Ty) × U.Val t) → Option (U.Val t)
  | [] => none
  | ⟨t', v⟩ :: r => if h : t' = t then some (h ▸ v) else find t r

/-- `Extensions::get::<T>`. -/
def get (e : Extensions U) (t : U.Ty) : Option (U.Val t) := find t e.entries

/-- `Extensions::insert`: replaces the value of the same type. -/
def insert (e : Extensions U) (t : U.Ty) (v : U.Val t) : Extensions U :=
  ⟨⟨t, v⟩ :: e.entries.filter (fun x => !decide (x.1 = t))⟩

/-- `Extensions::get_mut::<T>` and an assignment through it: `none` if there is no such value. -/
def modify (e : Extensions U) (t : U.Ty) (f : U.Val t → U.Val t) : Option (Extensions U) :=
  match e.get t with
  | some v => some (e.insert t (f v))
  | none => none

end Extensions

/-- `http::Request<Body>`: method, the path and query of the URI, headers, extensions and body. -/
structure Request (U : Univ) where
  method : Method
  path : Str
  query : Option Str
  headers : List (HeaderName × Str)
  extensions : Extensions U
  body : Body

end Obsidian
