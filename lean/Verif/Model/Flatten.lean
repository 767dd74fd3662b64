import Verif.Model.Form

/- Structs with `#[serde(flatten)]` fields, decoded from forms and queries.

The code of the repository that is modelled is `FormDeserializer`, `FromMap` and `FormValueDeserializer`
(src/router/req_deserializer.rs:65-401), called by what `derive(Deserialize)` generates for such structs:
`deserialize_map` (124-129), `next_key_seed` and `next_value_seed` (377-401), and `deserialize_any` (213-218)
for the values that are kept for the flattened parts.  The generated code and the types `FlatMapDeserializer`
and `ContentDeserializer` of `serde` are modelled as documented by `serde`. -/
namespace Obsidian

/-- How types and unknown variants are described in the errors of `serde`. -/
structure Texts where
  /-- `Visitor::expecting` of the type -/
  expected : Ty → Str
  /-- the error for an unknown variant, from the names of the variants and the text -/
  variant : List Str → Str → Str

/-- Types of the fields of a flattened part. -/
inductive FlatTy where
  | of (t : Ty)
  /-- an enum without data, with the names of its variants -/
  | enum (variants : List Str)

/-- A field of a flattened part (aliases are left out). -/
structure FlatField where
  /-- the name -/
  name : Str
  ty : FlatTy
  /-- the value of `#[serde(default)]` -/
  default : Option Val

/-- The type of a `#[serde(flatten)]` field. -/
inductive Part where
  /-- a struct -/
  | struct (fields : List FlatField)
  /-- `Option` of a struct -/
  | option (fields : List FlatField)
  /-- `HashMap<String, T>` -/
  | map (t : FlatTy)

/-- The value of a `#[serde(flatten)]` field. -/
inductive PartVal where
  | struct (vs : List Val)
  | option (vs : Option (List Val))
  | map (m : HMap Str Val)

/-- The value of a struct with flattened parts. -/
structure FlatDecoded where
  /-- the values of the fields that are not flattened -/
  own : List Val
  parts : List PartVal

/-- `ContentDeserializer` on a text, for the types of the model: the text itself for strings and for types
that are made from strings, a character if the text is exactly one, `Some` for options, the inner type for
newtypes; numbers, `bool`, `()`, sequences and tuples do not accept a string. -/
def decodeContent (tx : Texts) : Ty → Str → Except FormError Val
  | .scalar .string, x => .ok (.str x)
  | .scalar .char, [c] => .ok (.char c)
  | .scalar .char, x =>
    .error (.message ("invalid value: ".toList ++ foundString x ++ ", expected a character".toList))
  | .scalar (.ofString f), x => f x
  | .option t, x => match decodeContent tx t x with | .ok v => .ok (.some v) | .error e => .error e
  | .newtype t, x => decodeContent tx t x
  | .fails e, _ => .error e
  | t, x => .error (invalidType (foundString x) (tx.expected t))

/-- The same for the types of fields of flattened parts: `ContentDeserializer::deserialize_enum` accepts
the name of a variant. -/
def decodeFlat (tx : Texts) : FlatTy → Str → Except FormError Val
  | .of t, x => decodeContent tx t x
  | .enum vs, x =>
    match vs.findIdx? (· = x) with
    | some i => .ok (.opaque i)
    | none => .error (.message (tx.variant vs x))

/-- The loop of generated code over the entries of the map (`FromMap`, req_deserializer.rs:377-401): the
values of the own fields are decoded as in other structs, any other entry is kept with the text that
`deserialize_any` (213-218, 227-232) gives for its values. -/
def flatLoop (own : List Field) : List (Str × List Str) → List (Option Val) → List (Str × Str) →
    Res (List (Option Val) × List (Str × Str))
  | [], seen, kept => .ok (seen, kept)
  | (k, vals) :: entries, seen, kept =>
    match putField k vals own seen with
    | some r => r.bind fun seen' => flatLoop own entries seen' kept
    | none =>
      match vals with
      | [] => .crash .index
      | x :: _ => flatLoop own entries seen (kept ++ [(k, x)])

/-- What generated code for a flattened struct does with an entry that was kept: fail if the field has been
seen, else decode the text and store it; `none` if no field has this name. -/
def putFlat (tx : Texts) (k x : Str) : List FlatField → List (Option Val) →
    Option (Except FormError (List (Option Val)))
  | [], _ => none
  | _ :: _, [] => none
  | f :: fs, s :: ss =>
    if f.name = k then
      some (match s with
        | some _ => .error (.message ("duplicate field `".toList ++ f.name ++ ['`']))
        | none => match decodeFlat tx f.ty x with | .ok v => .ok (some v :: ss) | .error e => .error e)
    else
      match putFlat tx k x fs ss with
      | none => none
      | some (.ok ss') => some (.ok (s :: ss'))
      | some (.error e) => some (.error e)

/-- The loop of generated code for a flattened struct over the entries that were kept
(`FlatStructAccess`): entries with the name of a field are taken, also if they are not accepted; the others
are left.  The result has the entries that are left. -/
def partLoop (tx : Texts) (fields : List FlatField) : List (Str × Str) → List (Option Val) →
    Except FormError (List (Option Val)) × List (Str × Str)
  | [], seen => (.ok seen, [])
  | (k, x) :: kept, seen =>
    match putFlat tx k x fields seen with
    | none => ((partLoop tx fields kept seen).1, (k, x) :: (partLoop tx fields kept seen).2)
    | some (.ok seen') => partLoop tx fields kept seen'
    | some (.error e) => (.error e, kept)

/-- The value of a field of a flattened struct that was not seen: its default, `None` for an `Option`,
else an error. -/
def missingFlat (f : FlatField) : Except FormError Val :=
  match f.default with
  | some v => .ok v
  | none =>
    match f.ty with
    | .of (.option _) => .ok .none
    | _ => .error (.message ("missing field `".toList ++ f.name ++ ['`']))

/-- The end of generated code for a flattened struct. -/
def finishFlat : List FlatField → List (Option Val) → Except FormError (List Val)
  | [], _ => .ok []
  | _ :: _, [] => .ok []
  | f :: fs, s :: ss =>
    match (match s with | some v => .ok v | none => missingFlat f : Except FormError Val) with
    | .error e => .error e
    | .ok v => match finishFlat fs ss with | .ok vs => .ok (v :: vs) | .error e => .error e

/-- A flattened struct: the values of its fields, and the entries that are left. -/
def structPart (tx : Texts) (fields : List FlatField) (kept : List (Str × Str)) :
    Except FormError (List Val) × List (Str × Str) :=
  match partLoop tx fields kept (fields.map (fun _ => none)) with
  | (.ok seen, left) => (finishFlat fields seen, left)
  | (.error e, left) => (.error e, left)

/-- A flattened map (`FlatMapAccess`): all the entries that are left, which are not taken. -/
def mapPart (tx : Texts) (t : FlatTy) : List (Str × Str) → HMap Str Val → Except FormError (HMap Str Val)
  | [], m => .ok m
  | (k, x) :: kept, m =>
    match decodeFlat tx t x with
    | .ok v => mapPart tx t kept (m.insert k v)
    | .error e => .error e

/-- One flattened part (`FlatMapDeserializer`), and the entries that are left: an optional struct is `None`
if it cannot be read. -/
def decodePart (tx : Texts) (p : Part) (kept : List (Str × Str)) :
    Except FormError PartVal × List (Str × Str) :=
  match p with
  | .struct fields =>
    match structPart tx fields kept with
    | (.ok vs, left) => (.ok (.struct vs), left)
    | (.error e, left) => (.error e, left)
  | .option fields =>
    match structPart tx fields kept with
    | (.ok vs, left) => (.ok (.option (some vs)), left)
    | (.error _, left) => (.ok (.option none), left)
  | .map t =>
    match mapPart tx t kept HMap.empty with
    | .ok m => (.ok (.map m), kept)
    | .error e => (.error e, kept)

/-- The flattened parts, in the order of the fields. -/
def decodeParts (tx : Texts) : List Part → List (Str × Str) → Except FormError (List PartVal)
  | [], _ => .ok []
  | p :: ps, kept =>
    match decodePart tx p kept with
    | (.error e, _) => .error e
    | (.ok v, left) => match decodeParts tx ps left with | .ok vs => .ok (v :: vs) | .error e => .error e

/-- req_deserializer.rs:65-74 `from_cow_map` for a struct with flattened parts (through 124-129
`deserialize_map`): the loop over the entries, the own fields that were not seen, then the parts. -/
def fromCowMapFlat (tx : Texts) (own : List Field) (parts : List Part) (entries : List (Str × List Str)) :
    Res FlatDecoded :=
  (flatLoop own entries (own.map (fun _ => none)) []).bind fun (seen, kept) =>
    (finishFields own seen).bind fun vs =>
      match decodeParts tx parts kept with
      | .ok ps => .ok ⟨vs, ps⟩
      | .error e => .err e

/-- context.rs:292-316 `parse_queries` for such structs. -/
def parseQueriesFlat (urlParse : Bytes → List (Str × Str)) (i1 i2 : Iter) (tx : Texts) (own : List Field)
    (parts : List Part) (query : Bytes) : Except Crash (Except ObsidianError FlatDecoded) :=
  (fromCowMapFlat tx own parts (i2 (cowMap (i1 (groupPairs (urlParse query)))))).toExcept

end Obsidian
