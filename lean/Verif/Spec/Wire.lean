import Verif.Spec.HeaderName

/-
Responses on the wire, and how a client reads them (RFC 9112, sections 2.1, 2.2 and 5): the head consists of
lines, the first of which is the status line, and ends with an empty line.  The client is a tolerant one,
which also takes a line feed alone for the end of a line.
-/
namespace Obsidian.Spec
open Obsidian

/-- Carriage return and line feed. -/
def crlf : Bytes := [13, 10]

/-- A header line. -/
def writeField (e : HeaderName × Str) : Bytes := utf8 e.1 ++ [58, 32] ++ utf8 e.2 ++ crlf

/-- A response: its first line, the headers in some order, an empty line, and the body. -/
def writeResponse (first : Bytes) (headers : List (HeaderName × Str)) (body : Bytes) : Bytes :=
  first ++ crlf ++ headers.flatMap writeField ++ crlf ++ body

/-- A line without the carriage return at its end. -/
def withoutCR (line : Bytes) : Bytes := if line.getLast? = some 13 then line.dropLast else line

/-- The lines before the first empty line, and what comes after it; `line` is the line so far. -/
def readLines (line : Bytes) : Bytes → Option (List Bytes × Bytes)
  | [] => none
  | b :: rest =>
    if b = 10 then
      if withoutCR line = [] then some ([], rest)
      else (readLines [] rest).map fun p => (withoutCR line :: p.1, p.2)
    else readLines (line ++ [b]) rest

/-- Space and tab. -/
def isBlank (b : UInt8) : Bool := b = 32 || b = 9

/-- Without the blanks at both ends. -/
def trimBlanks (v : Bytes) : Bytes := ((v.dropWhile isBlank).reverse.dropWhile isBlank).reverse

/-- Name and value of a header line. -/
def readField (line : Bytes) : Bytes × Bytes :=
  (line.takeWhile (· ≠ 58), trimBlanks ((line.dropWhile (· ≠ 58)).drop 1))

/-- What a client gets: first line, headers and body. -/
def readResponse (b : Bytes) : Option (Bytes × List (Bytes × Bytes) × Bytes) :=
  match readLines [] b with
  | some (first :: fields, body) => some (first, fields.map readField, body)
  | _ => none

end Obsidian.Spec
