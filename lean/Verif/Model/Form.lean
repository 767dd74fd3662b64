import Verif.Model.Context

/-
src/router/req_deserializer.rs, and `parse_queries` of src/context.rs.

The types that are decoded into are given by descriptions (`Ty`, `Shape`) of the calls that their
`Deserialize` implementations make: those of serde for the standard types, and those generated by
`#[derive(Deserialize)]` for structs.  `form_urlencoded::parse` is a parameter.
-/
namespace Obsidian

/-- The result of decoding: a value, an error, or a panic. -/
inductive Res (α : Type) where
  | ok (a : α)
  | err (e : FormError)
  | crash (c : Crash)
deriving DecidableEq

/-- Sequencing (`?`). -/
def Res.bind {α β : Type} : Res α → (α → Res β) → Res β
  | .ok a, f => f a
  | .err e, _ => .err e
  | .crash c, _ => .crash c

/-- Decoded values. -/
inductive Val where
  | bool (b : Bool)
  | int (i : Int)
  | float (bits : Nat)
  | char (c : Char)
  | str (s : Str)
  | unit
  | none
  | some (v : Val)
  /-- a sequence or tuple -/
  | list (vs : List Val)
  /-- anything else -/
  | opaque (n : Nat)

mutual
/-- Equality of values is decidable (for examples). -/
def Val.decEq (a b : Val) : Decidable (a = b) :=
  match a, b with
  | .bool x, .bool y => if h : x = y then isTrue (h ▸ rfl) else isFalse (fun e => h (by injection e))
  | .int x, .int y => if h : x = y then isTrue (h ▸ rfl) else isFalse (fun e => h (by injection e))
  | .float x, .float y => if h : x = y then isTrue (h ▸ rfl) else isFalse (fun e => h (by injection e))
  | .char x, .char y => if h : x = y then isTrue (h ▸ rfl) else isFalse (fun e => h (by injection e))
  | .str x, .str y => if h : x = y then isTrue (h ▸ rfl) else isFalse (fun e => h (by injection e))
  | .opaque x, .opaque y => if h : x = y then isTrue (h ▸ rfl) else isFalse (fun e => h (by injection e))
  | .unit, .unit => isTrue rfl
  | .none, .none => isTrue rfl
  | .some x, .some y =>
    match Val.decEq x y with
    | isTrue h => isTrue (h ▸ rfl)
    | isFalse h => isFalse (fun e => h (by injection e))
  | .list xs, .list ys =>
    match Val.decEqs xs ys with
    | isTrue h => isTrue (h ▸ rfl)
    | isFalse h => isFalse (fun e => h (by injection e))
  | .bool _, .int _ | .bool _, .float _ | .bool _, .char _ | .bool _, .str _ | .bool _, .unit
  | .bool _, .none | .bool _, .some _ | .bool _, .list _ | .bool _, .opaque _
  | .int _, .bool _ | .int _, .float _ | .int _, .char _ | .int _, .str _ | .int _, .unit
  | .int _, .none | .int _, .some _ | .int _, .list _ | .int _, .opaque _
  | .float _, .bool _ | .float _, .int _ | .float _, .char _ | .float _, .str _ | .float _, .unit
  | .float _, .none | .float _, .some _ | .float _, .list _ | .float _, .opaque _
  | .char _, .bool _ | .char _, .int _ | .char _, .float _ | .char _, .str _ | .char _, .unit
  | .char _, .none | .char _, .some _ | .char _, .list _ | .char _, .opaque _
  | .str _, .bool _ | .str _, .int _ | .str _, .float _ | .str _, .char _ | .str _, .unit
  | .str _, .none | .str _, .some _ | .str _, .list _ | .str _, .opaque _
  | .unit, .bool _ | .unit, .int _ | .unit, .float _ | .unit, .char _ | .unit, .str _
  | .unit, .none | .unit, .some _ | .unit, .list _ | .unit, .opaque _
  | .none, .bool _ | .none, .int _ | .none, .float _ | .none, .char _ | .none, .str _ | .none, .unit
  | .none, .some _ | .none, .list _ | .none, .opaque _
  | .some _, .bool _ | .some _, .int _ | .some _, .float _ | .some _, .char _ | .some _, .str _
  | .some _, .unit | .some _, .none | .some _, .list _ | .some _, .opaque _
  | .list _, .bool _ | .list _, .int _ | .list _, .float _ | .list _, .char _ | .list _, .str _
  | .list _, .unit | .list _, .none | .list _, .some _ | .list _, .opaque _
  | .opaque _, .bool _ | .opaque _, .int _ | .opaque _, .float _ | .opaque _, .char _ | .opaque _, .str _
  | .opaque _, .unit | .opaque _, .none | .opaque _, .some _ | .opaque _, .list _ =>
    isFalse (fun e => by injection e)
/-- Equality of lists of values is decidable. -/
def Val.decEqs (as bs : List Val) : Decidable (as = bs) :=
  match as, bs with
  | [], [] => isTrue rfl
  | [], _ :: _ => isFalse (fun e => by injection e)
  | _ :: _, [] => isFalse (fun e => by injection e)
  | a :: as, b :: bs =>
    match Val.decEq a b, Val.decEqs as bs with
    | isTrue h, isTrue h' => isTrue (by rw [h, h'])
    | isFalse h, _ => isFalse (fun e => h (by injection e))
    | _, isFalse h => isFalse (fun e => h (by injection e))
end

instance : DecidableEq Val := Val.decEq

/-! ### `str::parse` -/

/-- The value of a decimal digit (`char::to_digit(10)`). -/
def digitVal (c : Char) : Option Nat := if '0' ≤ c ∧ c ≤ '9' then some (c.toNat - '0'.toNat) else none

/-- Whether a number is in the range of the integer type of the given width. -/
def inRange (signed : Bool) (bits : Nat) (i : Int) : Bool :=
  if signed then -(2 ^ (bits - 1)) ≤ i && i < 2 ^ (bits - 1) else 0 ≤ i && i < 2 ^ bits

/-- The loop over the digits in `from_str_radix`: multiply, then add or subtract, with overflow checks.
`neg` tells that there was a minus sign. -/
def parseDigits (signed : Bool) (bits : Nat) (neg : Bool) : Int → Str → Except Str Int
  | acc, [] => .ok acc
  | acc, c :: cs =>
    match digitVal c with
    | none => .error "invalid digit found in string".toList
    | some d =>
      let overflow : Except Str Int :=
        .error (if neg then "number too small to fit in target type".toList
          else "number too large to fit in target type".toList)
      if inRange signed bits (acc * 10) then
        let acc' := if neg then acc * 10 - d else acc * 10 + d
        if inRange signed bits acc' then parseDigits signed bits neg acc' cs else overflow
      else overflow

/-- `str::parse::<u8>()` … `str::parse::<i64>()` of the standard library. -/
def parseInt (signed : Bool) (bits : Nat) : Str → Except Str Int
  | [] => .error "cannot parse integer from empty string".toList
  | ['+'] => .error "invalid digit found in string".toList
  | ['-'] => .error "invalid digit found in string".toList
  | c :: cs =>
    if c = '+' then parseDigits signed bits false 0 cs
    else if c = '-' ∧ signed then parseDigits signed bits true 0 cs
    else parseDigits signed bits false 0 (c :: cs)

/-- `str::parse::<bool>()`. -/
def parseBool (s : Str) : Except Str Bool :=
  if s = "true".toList then .ok true
  else if s = "false".toList then .ok false
  else .error "provided string was not `true` or `false`".toList

/-! ### Values -/

/-- Types that are decoded from one value. -/
inductive Scalar where
  | bool
  /-- `u8`, `u16`, `u32`, `u64`, `i8`, `i16`, `i32`, `i64` (and `usize`, `isize` with the width of the
  platform) -/
  | int (signed : Bool) (bits : Nat)
  /-- `f32`, `f64`: `str::parse` is a parameter -/
  | float (parse : Str → Except Str Nat)
  | char
  | string
  /-- `IgnoredAny`, and any type whose implementation asks for a string, an identifier, bytes, a map, a
  struct, a tuple struct or an enum, or for anything: it is given the string.  (For structs, maps and
  enums made with `derive` the result is always an error, as they do not accept strings.) -/
  | ofString (f : Str → Except FormError Val)

/-- Types of values. -/
inductive Ty where
  | scalar (k : Scalar)
  /-- `()` and unit structs -/
  | unit
  | option (t : Ty)
  /-- newtype structs -/
  | newtype (t : Ty)
  /-- `Vec<T>` -/
  | seq (t : Ty)
  /-- tuples and arrays; `expected` is how the type describes itself in errors -/
  | tuple (expected : Str) (ts : List Ty)
  /-- types that fail without looking at the input (`i128`, `u128`) -/
  | fails (e : FormError)

/-- req_deserializer.rs:191-196 (`from_string_forms_impl`, used for the types of 317-328),
227-232 `deserialize_string`, 234-239 `deserialize_str`, 241-249 `deserialize_char`, after
`self.input[0]` has been read; and what the type does with it. -/
def Scalar.parse : Scalar → Str → Except FormError Val
  | .bool, x => match parseBool x with | .ok b => .ok (.bool b) | .error m => .error (.message m)
  | .int s n, x => match parseInt s n x with | .ok i => .ok (.int i) | .error m => .error (.message m)
  | .float p, x => match p x with | .ok b => .ok (.float b) | .error m => .error (.message m)
  | .char, x => match x with | c :: _ => .ok (.char c) | [] => .error .noneError
  | .string, x => .ok (.str x)
  | .ofString f, x => f x

/-- The scalar cases of `FormValueDeserializer` (same lines as `Scalar.parse`): `self.input[0]` panics
if there is no value.  The remaining input is not changed. -/
def decodeScalar (k : Scalar) (input : List Str) : Res (Val × List Str) :=
  match input with
  | [] => .crash .index
  | x :: _ =>
    match k.parse x with
    | .ok v => .ok (v, input)
    | .error e => .err e

/-- `self.input.starts_with(&[String::default()])` (req_deserializer.rs:255, 267). -/
def startsEmpty (input : List Str) : Bool :=
  match input with
  | [] :: _ => true
  | _ => false

/-- req_deserializer.rs:345-360 `FromSeq::next_element_seed`, up to the call of `seed.deserialize`:
`none` if the sequence has ended, else the input for the next element. -/
def nextElement (first : Bool) (input : List Str) : Res (Option (List Str)) :=
  if input.length = 1 ∧ first = false then .ok none
  else if first = false then
    match input with
    | [] => .crash .slice
    | _ :: rest => .ok (some rest)
  else .ok (some input)

/-- The loop of `Vec<T>`'s implementation: `while let Some(v) = seq.next_element()? { .. }`; `f`
decodes an element.  The fuel is only there to make the definition total; running out of it would be
`Crash.diverges`. -/
def seqLoop (f : List Str → Res (Val × List Str)) :
    Nat → (first : Bool) → List Str → List Val → Res (Val × List Str)
  | 0, _, _, _ => .crash .diverges
  | fuel + 1, first, input, acc =>
    (nextElement first input).bind fun
      | none => .ok (.list acc, input)
      | some inp => (f inp).bind fun (v, rest) => seqLoop f fuel false rest (acc ++ [v])

mutual
/-- Decoding of a value (`T::deserialize(&mut FormValueDeserializer)`), with the remaining input
afterwards. -/
def decode : Ty → List Str → Res (Val × List Str)
  | .scalar k, input => decodeScalar k input
  /- req_deserializer.rs:263-279 `deserialize_unit`, `deserialize_unit_struct` -/
  | .unit, input => .ok (.unit, if startsEmpty input then input.drop 1 else input)
  /- req_deserializer.rs:251-261 `deserialize_option` -/
  | .option t, input =>
    if startsEmpty input then .ok (.none, input.drop 1)
    else (decode t input).bind fun (v, rest) => .ok (.some v, rest)
  /- req_deserializer.rs:281-290 `deserialize_newtype_struct` -/
  | .newtype t, input => decode t input
  /- req_deserializer.rs:220-225 `deserialize_seq` -/
  | .seq t, input => seqLoop (decode t) (input.length + 2) true input []
  /- req_deserializer.rs:292-297 `deserialize_tuple` -/
  | .tuple expected ts, input => decodeTuple expected ts 0 true input []
  | .fails e, _ => .err e
/-- The implementation for tuples: one `next_element` per component, the end of the sequence being an
error; further values are not looked at. `i` is the number of components read. -/
def decodeTuple (expected : Str) : List Ty → (i : Nat) → (first : Bool) → List Str → List Val →
    Res (Val × List Str)
  | [], _, _, input, acc => .ok (.list acc, input)
  | t :: ts, i, first, input, acc =>
    (nextElement first input).bind fun
      | none => .err (.message ("invalid length ".toList ++ (Nat.repr i).toList ++
          ", expected ".toList ++ expected))
      | some inp => (decode t inp).bind fun (v, rest) => decodeTuple expected ts (i + 1) false rest (acc ++ [v])
end

/-! ### Structs and maps -/

/-- A field of a struct. -/
structure Field where
  /-- the name, as in errors -/
  name : Str
  /-- further names (`#[serde(alias)]`) -/
  aliases : List Str
  ty : Ty
  /-- the value of `#[serde(default)]` -/
  default : Option Val

/-- What is decoded into. -/
inductive Shape where
  /-- a struct; `deny` is the text of the error for an unknown key if there is
  `#[serde(deny_unknown_fields)]` -/
  | struct (fields : List Field) (deny : Option (Str → Str))
  /-- `HashMap<String, T>` -/
  | map (t : Ty)
  /-- `String` -/
  | string
  /-- `HashMap<K, T>` where `K` is not a string type; `reject` is the error that `K` gives for a key -/
  | keyed (reject : Str → FormError)
  /-- a number or `bool`; `reject` is the error that the type gives for a string -/
  | number (reject : Str → FormError)
  /-- `Option`, sequences, tuples, `()`, newtype structs, enums, `char`: none of them accepts a map; `e`
  is the error they give -/
  | other (e : FormError)

/-- The result. -/
inductive Decoded where
  /-- the values of the fields, in the order of the fields -/
  | struct (vs : List Val)
  | map (m : HMap Str Val)
  | string (s : Str)

/-- Whether the key is one of the names of the field. -/
def Field.has (f : Field) (k : Str) : Bool := f.name = k || f.aliases.contains k

/-- What generated code does with the value of a known key: fail if the field has already been seen
(with another alias), else decode the value (req_deserializer.rs:393-401 `next_value_seed`) and store it. -/
def putField (k : Str) (vals : List Str) : List Field → List (Option Val) →
    Option (Res (List (Option Val)))
  | [], _ => none
  | _ :: _, [] => none
  | f :: fs, s :: ss =>
    if f.has k then
      some (match s with
        | some _ => .err (.message ("duplicate field `".toList ++ f.name ++ ['`']))
        | none => (decode f.ty vals).bind fun (v, _) => .ok (some v :: ss))
    else
      match putField k vals fs ss with
      | none => none
      | some r => some (r.bind fun ss' => .ok (s :: ss'))

/-- The loop of generated code for structs over the entries of the map (`FromMap`,
req_deserializer.rs:377-401: `next_key_seed` gives the key of each entry in turn — through
`deserialize_identifier`, 148-153 — and `next_value_seed` its values).  The value of an unknown key is
decoded as `IgnoredAny`. -/
def structLoop (fields : List Field) (deny : Option (Str → Str)) :
    List (Str × List Str) → List (Option Val) → Res (List (Option Val))
  | [], seen => .ok seen
  | (k, vals) :: entries, seen =>
    match putField k vals fields seen with
    | some r => r.bind fun seen' => structLoop fields deny entries seen'
    | none =>
      match deny with
      | some text => .err (.message (text k))
      | none =>
        (decode (.scalar (.ofString (fun _ => .ok .unit))) vals).bind fun _ =>
          structLoop fields deny entries seen

/-- The value of a field that was not seen: its default, `None` for an `Option`, else an error
(`serde::__private::de::missing_field`). -/
def missingField (f : Field) : Res Val :=
  match f.default with
  | some v => .ok v
  | none =>
    match f.ty with
    | .option _ => .ok .none
    | _ => .err (.message ("missing field `".toList ++ f.name ++ ['`']))

/-- The end of generated code for structs. -/
def finishFields : List Field → List (Option Val) → Res (List Val)
  | [], _ => .ok []
  | _ :: _, [] => .ok []
  | f :: fs, s :: ss =>
    (match s with | some v => .ok v | none => missingField f : Res Val).bind fun v =>
      (finishFields fs ss).bind fun vs => .ok (v :: vs)

/-- The loop of `HashMap<String, T>`'s implementation. -/
def mapLoop (t : Ty) : List (Str × List Str) → HMap Str Val → Res (HMap Str Val)
  | [], m => .ok m
  | (k, vals) :: entries, m =>
    (decode t vals).bind fun (v, _) => mapLoop t entries (m.insert k v)

/-- The error of a type that does not accept what it is given (`serde::de::Error::invalid_type`):
`found` is what it was given, `expected` how the type describes itself. -/
def invalidType (found expected : Str) : FormError :=
  .message ("invalid type: ".toList ++ found ++ ", expected ".toList ++ expected)

/-- How a string is described in such errors (escapes in the string are left out). -/
def foundString (x : Str) : Str := "string \"".toList ++ x ++ ['"']

/-- A field of enum type: `deserialize_enum` is forwarded to `deserialize_any`
(req_deserializer.rs:306-314), which gives the string (213-218); the visitors that are derived for enums
do not accept strings. `expected` is `enum` and the name of the type. -/
def Ty.enum (expected : Str) : Ty :=
  .scalar (.ofString fun x => .error (invalidType (foundString x) expected))

/-- A field that is a struct or a map: `deserialize_struct` and `deserialize_map` are forwarded in the
same way, and the visitors do not accept strings. -/
def Ty.nested (expected : Str) : Ty :=
  .scalar (.ofString fun x => .error (invalidType (foundString x) expected))

/-- `HashMap<i32, T>` and so on: a key is given to the type as a string (req_deserializer.rs:87-98,
171-183, `CowStrDeserializer`), which the visitors of numbers and of `bool` do not accept. -/
def Shape.numberKeys (expected : Str) : Shape := .keyed fun k => invalidType (foundString k) expected

/-- `HashMap<K, T>` where `K` is `char`, a newtype struct or an enum: for the key, `deserialize_any` is
called (req_deserializer.rs:155-169), which gives the whole map (117-129); these types do not accept it. -/
def Shape.otherKeys (expected : Str) : Shape := .keyed fun _ => invalidType "map".toList expected

/-- `i32` and so on: the first key is given to the type as a string. -/
def Shape.ofNumber (expected : Str) : Shape := .number fun k => invalidType (foundString k) expected

/-- `Option<T>` and the other types that do not accept a map. -/
def Shape.refuses (expected : Str) : Shape := .other (invalidType "map".toList expected)

/-- req_deserializer.rs:65-74 `from_cow_map`; the entries are those of the map in the order of
iteration.  Structs and maps go through `deserialize_any`/`deserialize_map` (117-129) to the loops
above, `String` to 131-152 (the first key). The other types are refused, by the type itself. -/
def fromCowMap (shape : Shape) (entries : List (Str × List Str)) : Res Decoded :=
  match shape with
  | .struct fields deny =>
    (structLoop fields deny entries (fields.map (fun _ => none))).bind fun seen =>
      (finishFields fields seen).bind fun vs => .ok (.struct vs)
  | .map t => (mapLoop t entries HMap.empty).bind fun m => .ok (.map m)
  | .string =>
    match entries with
    | (k, _) :: _ => .ok (.string k)
    | [] => .err .noneError
  | .keyed reject =>
    match entries with
    | (k, _) :: _ => .err (reject k)
    | [] => .ok (.map HMap.empty)
  | .number reject =>
    match entries with
    | (k, _) :: _ => .err (reject k)
    | [] => .err .noneError
  | .other e => .err e

/-! ### parse_queries -/

/-- context.rs:298-306: the non-empty values are collected by key. -/
def groupPairs (pairs : List (Str × Str)) : HMap Str (List Str) :=
  pairs.foldl (fun m (k, v) =>
    if !v.isEmpty then m.insert k (((m.get k).getD []) ++ [v]) else m) HMap.empty

/-- context.rs:309-313: the second map. -/
def cowMap (entries : List (Str × List Str)) : HMap Str (List Str) :=
  entries.foldl (fun m (k, vs) => match m.get k with | some _ => m | none => m.insert k vs) HMap.empty

/-- An order of iteration for every map. -/
abbrev Iter := HMap Str (List Str) → List (Str × List Str)

/-- Errors are converted with `?` (obsidian_error.rs:33-37). -/
def Res.toExcept {α : Type} : Res α → Except Crash (Except ObsidianError α)
  | .ok a => .ok (.ok a)
  | .err e => .ok (.error (.formError e))
  | .crash c => .error c

/-- context.rs:292-316 `parse_queries`; `urlParse` is `form_urlencoded::parse(..).into_owned()`, `i1`
and `i2` are the orders in which the two maps are iterated. -/
def parseQueries (urlParse : Bytes → List (Str × Str)) (i1 i2 : Iter) (shape : Shape) (query : Bytes) :
    Except Crash (Except ObsidianError Decoded) :=
  (fromCowMap shape (i2 (cowMap (i1 (groupPairs (urlParse query)))))).toExcept

end Obsidian
