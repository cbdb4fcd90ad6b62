import Verif.Model.Schemas
import Verif.Model.Response
import Verif.Model.Codec
import Verif.Model.Json
/-!
# From Response objects of a document to the data of a reply

`Merge` (`pyswagger/scanner/v2_0/merge.py`:53-55) gives every Response object its field `final`, and
`Response.apply_with` (`pyswagger/io.py`:374-419) reads `final` only. This module joins the models of these steps with
those of the codecs and of conversion.
-/

namespace Reply
open Py Tree Doc Effective Io

variable {ω : Type}

/-- `r` is the response whose `final` is the given object: the attributes read by `Response`
(`pyswagger/io.py`:366-367, 404-417; `pyswagger/spec/v2_0/objects.py`:200-210) -/
def Declares (env : Prim.Env ω) (ref : Nat → Option Nat) (W : MergeRefs.World) (r : RespDecl Nat Nat) : Tree → Prop
  | .obj _ fs => Schemas.Named (Shows env) r.headers (Schemas.entries (attr fs c!"headers")) ∧
      Schemas.One (Schemas.Shows env ref W) r.schema (attr fs c!"schema")
  | _ => False

/-- `pyswagger/scanner/v2_0/merge.py`:53-55: the responses of an operation (`pyswagger/spec/v2_0/objects.py`:230),
each with its `final` (`pyswagger/utils.py`:275-276) -/
inductive Table (env : Prim.Env ω) (ref : Nat → Option Nat) (W : MergeRefs.World) (order : List Atom → List Atom)
    (fuel : Nat) : Dict Str Nat → Dict Str (RespDecl Nat Nat) → Prop
  | nil : Table env ref W order fuel [] []
  | cons {k i t r l m} : MergeRefs.effective W order cResponse fuel i = some (.value t) → Declares env ref W r t →
      Table env ref W order fuel l m → Table env ref W order fuel ((k, i) :: l) ((k, r) :: m)

/-- the codecs of `pyswagger/primitives/codec.py`:38-54, and others -/
inductive Kind where
  | plain
  | json
  | own (unmarshal : Bytes ⊕ Str → Except Exc Val)

/-- What surrounds a reply: `str.lower` and blanks, the registered codecs, `json.loads`, and the value bytes are. -/
structure Outside where
  text : Codec.Text
  codecs : Dict Str Kind
  loads : Str → Except Exc Val
  bytes : Bytes → Nat

/-- the body as a Python value -/
def Outside.given (o : Outside) : Bytes ⊕ Str → Val
  | .inl b => .other (o.bytes b)
  | .inr s => .str s

/-- `codec.unmarshal(data)`: `pyswagger/primitives/codec.py`:42-43, 51-54 -/
def Outside.unmarshal (o : Outside) (raw : Bytes ⊕ Str) : Kind → Except Exc Val
  | .plain => .ok (o.given raw)
  | .json => Prim.Json.unmarshal o.loads raw
  | .own f => f raw

/-- `v.lower()`: only texts have it -/
def lowerOf (lower : Str → Str) : Prim.Prim ω → Except Exc Str
  | .str s => .ok (lower s)
  | .raw (.str s) => .ok (lower s)
  | _ => .error .AttributeError

/-- The world of `Response`: `pyswagger/io.py`:367 and 417 convert for reading, 416 unmarshals by the codec of the media
type (the names passed to it are not used by the codecs of the library). -/
def renv (o : Outside) (env : Prim.Env ω) (fuel : Nat) :
    REnv (Prim.Prim ω) Nat Nat Nat (Bytes ⊕ Str) Val (Prim.Prim ω) where
  lower := o.text.lower
  keep s := .str s
  convert n v := Prim.convert env fuel n (.str v) true
  lowerValue := lowerOf o.text.lower
  deref := env.deref
  unmarshal ct raw _ := Codec.withCodec o.text o.codecs ct (o.unmarshal raw)
  prim n v := Prim.convert env fuel n v true

end Reply
