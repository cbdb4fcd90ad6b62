import Verif.Spec.FormDecode
/-!
# How a server reads the path of a request

A route is a list of segments, each a literal or a named hole. Percent-encoding as in RFC 3986; with
`plus` a `+` stands for a blank (as in forms).
-/

namespace Spec.Server
open Py Spec

inductive Seg where
  | lit (s : Str)
  | hole (name : Str)
  deriving DecidableEq, Repr

/-- the route as a Swagger document has it -/
def written : List Seg → Str
  | [] => []
  | .lit s :: t => '/' :: s ++ written t
  | .hole n :: t => '/' :: '{' :: n ++ '}' :: written t

/-- the names of the holes, in order -/
def holes : List Seg → List Str
  | [] => []
  | .lit _ :: t => holes t
  | .hole n :: t => n :: holes t

/-- a percent-encoded UTF-8 text -/
def readText (plus : Bool) (s : Str) : Option Str := (percentDecode plus s).bind utf8Decode

def readSegs (plus : Bool) : List Seg → List Str → Option (List (Str × Str))
  | [], [] => some []
  | .lit s :: t, x :: xs => if x = s then readSegs plus t xs else none
  | .hole n :: t, x :: xs =>
    match readText plus x with
    | none => none
    | some v => (readSegs plus t xs).map ((n, v) :: ·)
  | _, _ => none

/-- the values of the holes; `none` if the path does not belong to the route -/
def readPath (plus : Bool) (t : List Seg) (path : Str) : Option (List (Str × Str)) :=
  match pieces '/' path with
  | [] :: xs => readSegs plus t xs
  | _ => none

end Spec.Server
