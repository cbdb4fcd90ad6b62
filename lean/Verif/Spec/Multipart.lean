import Verif.Py.Bytes
/-!
# A reader for `multipart/form-data` (RFC 2046 section 5.1, RFC 7578)

Written from the RFCs, independent of the code. A delimiter is CRLF, two hyphens and the boundary;
the body is read as if preceded by CRLF. A delimiter followed by two hyphens closes the body. A
part is header lines, an empty line, and the content.
-/

namespace Spec.Multipart
open Py

/-- `s` before and after the first occurrence of `sep`. -/
def cut {α : Type} [DecidableEq α] (sep : List α) : List α → Option (List α × List α)
  | [] => if sep = [] then some ([], []) else none
  | x :: xs =>
    if sep.isPrefixOf (x :: xs) then some ([], (x :: xs).drop sep.length)
    else (cut sep xs).map (fun ab => (x :: ab.1, ab.2))

/-- what follows the prefix `p` -/
def dropPrefix {α : Type} [DecidableEq α] (p s : List α) : Option (List α) :=
  if p.isPrefixOf s then some (s.drop p.length) else none

/-- The texts of the parts; the input is what follows a delimiter. -/
def readParts (delim : Bytes) : Nat → Bytes → Option (List Bytes)
  | 0, _ => none
  | n + 1, s =>
    match s with
    | 45 :: 45 :: _ => some []
    | 13 :: 10 :: rest =>
      match cut delim rest with
      | none => none
      | some (part, after) => (readParts delim n after).map (part :: ·)
    | _ => none

/-- Header lines up to the empty line, and the content. -/
def readHeaders : Nat → Bytes → Option (List Bytes × Bytes)
  | 0, _ => none
  | n + 1, s =>
    match cut [13, 10] s with
    | none => none
    | some ([], content) => some ([], content)
    | some (line, rest) => (readHeaders n rest).map (fun lc => (line :: lc.1, lc.2))

/-- A header line: UTF-8 text `name: value`. -/
def readLine (b : Bytes) : Option (Str × Str) :=
  match utf8Decode b with
  | none => none
  | some s => cut c!": " s

/-- `form-data; name="..."`, optionally followed by `; filename="..."`. -/
def readDisposition (s : Str) : Option (Str × Option Str) :=
  match dropPrefix c!"form-data; name=\"" s with
  | none => none
  | some s =>
    match cut ['"'] s with
    | none => none
    | some (name, []) => some (name, none)
    | some (name, s) =>
      match dropPrefix c!"; filename=\"" s with
      | none => none
      | some s =>
        match cut ['"'] s with
        | some (filename, []) => some (name, some filename)
        | _ => none

/-- A part: field name, file name, further headers in order, content. -/
structure Part where
  name : Str
  filename : Option Str
  headers : List (Str × Str)
  content : Bytes
  deriving DecidableEq, Repr

/-- all or nothing -/
def all {α β : Type} (f : α → Option β) : List α → Option (List β)
  | [] => some []
  | x :: xs =>
    match f x, all f xs with
    | some y, some ys => some (y :: ys)
    | _, _ => none

def readPart (text : Bytes) : Option Part :=
  match readHeaders (text.length + 1) text with
  | none => none
  | some (lines, content) =>
    match all readLine lines with
    | none => none
    | some hs =>
      match hs.find? (fun h => h.1 = c!"Content-Disposition") with
      | none => none
      | some d =>
        match readDisposition d.2 with
        | none => none
        | some (name, filename) =>
          some ⟨name, filename, hs.filter (fun h => h.1 ≠ c!"Content-Disposition"), content⟩

/-- The boundary announced by a `Content-Type` value. -/
def announced (contentType : Str) : Option Str := dropPrefix c!"multipart/form-data; boundary=" contentType

/-- Read a body with the boundary announced in its content type. -/
def read (contentType : Str) (body : Bytes) : Option (List Part) :=
  match announced contentType with
  | none => none
  | some boundary =>
    let delim : Bytes := [13, 10, 45, 45] ++ utf8 boundary
    match cut delim ([13, 10] ++ body) with
    | none => none
    | some (_, rest) =>
      match readParts delim (rest.length + 1) rest with
      | none => none
      | some texts => all readPart texts

end Spec.Multipart
