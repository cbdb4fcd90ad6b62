import Verif.Model.Request
/-!
# `pyswagger/core.py`: `BaseClient`, and the sending steps shared by the bundled clients

(`pyswagger/contrib/client/requests.py`, `tornado.py`, `flask.py`, `webapp2.py`). What the HTTP
library does with the request is not modelled.
-/

namespace Core
open Py Utils Io

variable {β δ π : Type}

/-- `l` sorted by `≤` on strings (code point order), descending; `sorted(.., reverse=True)`. -/
def insertDesc (le : Str → Str → Bool) (x : Str) : List Str → List Str
  | [] => [x]
  | y :: ys => if le x y then y :: insertDesc le x ys else x :: y :: ys

def sortDesc (le : Str → Str → Bool) (l : List Str) : List Str := l.foldr (insertDesc le) []

/-- `a <= b` for Python strings: lexicographic by code point. -/
def strLe : Str → Str → Bool
  | [], _ => true
  | _ :: _, [] => false
  | a :: s, b :: t => if a = b then strLe s t else a.toNat < b.toNat

/-- the elements of `l` without repetitions -/
def dedup : List Str → List Str
  | [] => []
  | x :: xs => if x ∈ xs then dedup xs else x :: dedup xs

/-- `pyswagger/core.py`:556-567 `prepare_schemes(req)`: `sorted(client & set(req.schemes),
reverse=True)`. -/
def prepareSchemes (client schemes : List Str) : Except Exc (List Str) :=
  let ret := sortDesc strLe (dedup (client.filter (fun s => s ∈ schemes)))
  if ret = [] then .error .ValueError else .ok ret

/-- The `headers` argument of `compose_headers`; `other` is an object that is neither a list nor
a dict and has no `update` method. -/
inductive HeadersArg where
  | none
  | list (l : List (Str × Str))
  | dict (d : Dict Str Str)
  | other
  deriving DecidableEq, Repr

/-- The result of `compose_headers`: the value returned, the caller's `headers` object
afterwards, and the caller's `opt` afterwards. -/
structure Composed where
  result : List (Str × Str)
  headers : HeadersArg
  opt : Dict Str (Option Str)
  deriving DecidableEq, Repr

/-- `pyswagger/core.py`:602-606: one step of the joining loop. -/
def joinStep (d : Dict Str Str) (h : Str × Str) : Dict Str Str :=
  match Dict.get? d h.1 with
  | some v => Dict.set d h.1 (join c!"," [v, h.2])
  | none => Dict.set d h.1 h.2

/-- `pyswagger/core.py`:600-607: values of equal names joined by commas. -/
def joinHeaders (l : List (Str × Str)) : Dict Str Str := l.foldl joinStep []

/-- `dict(l)` -/
def dictOf (l : List (Str × Str)) : Dict Str Str := l.foldl (fun d h => Dict.set d h.1 h.2) []

/-- `pyswagger/core.py`:569-609 `compose_headers(req, headers, opt, as_dict)`. A dict result is
given by its items; the result for `headers=None, as_dict=True` is the request's own header
object. -/
def composeHeaders (header : CIDict Str) (headers : HeadersArg) (opt : Dict Str (Option Str))
    (asDict : Bool) : Except Exc Composed :=
  let own := CIDict.iteritems header
  match headers with
  | .none => .ok ⟨own, .none, opt⟩
  | _ =>
    let (join, opt) := popOpt opt c!"join_headers"
    if asDict && (truthy join).isNone then
      match headers with
      | .list l => .ok ⟨Dict.update (dictOf l) own, headers, opt⟩
      | .dict d => .ok ⟨Dict.update d own, .dict (Dict.update d own), opt⟩
      | _ => .error .AttributeError
    else
      match headers with
      | .list l => finish (own ++ l) join opt
      | .dict d => finish (own ++ d) join opt
      | _ => .error .Exception
where
  /-- lines 600-609 -/
  finish (agg : List (Str × Str)) (join : Option Str) (opt : Dict Str (Option Str)) :
      Except Exc Composed :=
    let agg := if (truthy join).isSome then joinHeaders agg else agg
    .ok ⟨if asDict then dictOf agg else agg, headers, opt⟩

/-- What a client hands to its HTTP library. -/
structure Sent (π : Type) where
  method : Str
  url : Str
  path : Str
  query : List (Str × Str)
  headers : List (Str × Str)
  data : Data π
  files : Dict Str FileVal
  deriving DecidableEq, Repr

/-- The result of sending: what was sent, the request afterwards, and the caller's options and
headers afterwards. -/
structure SendResult (β π : Type) where
  sent : Sent π
  req : Req β π
  opt : Dict Str (Option Str)
  headers : HeadersArg
  deriving DecidableEq, Repr

/-- A bundled client: the schemes it supports, whether the library encodes files itself
(`handle_files`), whether it wants the headers as a dict, and the registered credentials. -/
structure Client where
  schemes : List Str
  handleFiles : Bool
  asDict : Bool
  security : Option (Dict Str Cred)

/-- `pyswagger/core.py`:611-640 `BaseClient.request`: apply the security. -/
def authorise (info : Option (Dict Str Cred)) (op : Op δ) (r : Req β π) : Req β π :=
  match info with
  | none => r
  | some info =>
    let hq := applySecurity info op.security ⟨r.p.header, r.p.query⟩
    { r with p := { r.p with header := hq.header, query := hq.query } }

/-- The common part of `request` in the four clients, up to handing over to the library:
`pyswagger/contrib/client/requests.py`:28-43, `flask.py`:25-40, `tornado.py`:26-39,
`webapp2.py`:37-50. -/
def send (env : Env β δ π) (op : Op δ) (c : Client) (opt : Dict Str (Option Str))
    (headers : HeadersArg) (r : Req β π) : Except Exc (SendResult β π) := do
  let r := reset op r
  let r := authorise c.security op r
  let schemes ← prepareSchemes c.schemes op.schemes
  let r ← prepare env op (.list schemes) c.handleFiles r
  let (url, opt) := patch opt r.url
  let r := { r with url := url }
  let h ← composeHeaders r.header headers opt c.asDict
  return ⟨⟨op.method, r.url, r.path, r.p.query, h.result, r.data, r.p.file⟩, r, h.opt, h.headers⟩

end Core
