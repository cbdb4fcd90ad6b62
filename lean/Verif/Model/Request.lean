import Verif.Py.Quote
import Verif.Py.Url
import Verif.Model.CIDict
import Verif.Model.Security
/-!
# `pyswagger/io.py`: `Request`

The state of a request after a method that raises is not modelled. Logging is not modelled.
-/

namespace Io
open Py Utils Core

/-- What a file-like object still has to deliver: its next `read()` returns it, the one after
that nothing. -/
inductive Content where
  | bytes (b : Bytes)
  | text (s : Str)
  deriving DecidableEq, Repr

/-- what is left in a stream after `read()` -/
def Content.drained : Content → Content
  | .bytes _ => .bytes []
  | .text _ => .text []

/-- `pyswagger/primitives/_file.py`: a `File` primitive. -/
structure File where
  header : Dict Str Str
  filename : Str
  data : Option Content
  deriving DecidableEq, Repr

/-- the value of a file parameter: one file or a list of files -/
inductive FileVal where
  | one (f : File)
  | many (l : List File)
  deriving DecidableEq, Repr

/-- the files of a value, in order -/
def FileVal.files : FileVal → List File
  | .one f => [f]
  | .many l => l

/-- The parameter sets of a request (`pyswagger/spec/v2_0/objects.py`:231). -/
structure Params (β : Type) where
  header : Dict Str Str
  query : List (Str × Str)
  path : Dict Str Str
  body : Dict Str β
  formData : List (Str × Str)
  file : Dict Str FileVal
  deriving DecidableEq, Repr

/-- A parameter declaration after `final`, as far as `_prepare_body` looks at it. `schema` is the
result of `deref(parameter.schema)` (type, format, name), which can raise. -/
structure ParamDecl (δ : Type) where
  name : Str
  in_ : Str
  schema : Except Exc δ

/-- The parts of an operation a request uses. -/
structure Op (δ : Type) where
  url : Str
  path : Str
  method : Str
  consumes : List Str
  produces : List Str
  schemes : List Str
  security : Option (List (Dict Str (List Str)))
  parameters : List (ParamDecl δ)

/-- The world around a request: the media-type codec, `str.lower`, exotic format fields, the
text encoding, the file system and the boundary `uuid4().hex` drew. -/
structure Env (β δ π : Type) where
  marshal : Str → β → δ → Except Exc π
  lower : Str → Str
  fmtExt : Str → Str → Except Exc Str
  encode : Str → Except Exc Bytes
  readFile : Str → Except Exc Bytes
  boundary : Str

/-- `Request.data` -/
inductive Data (π : Type) where
  | none
  | form (l : List (Str × Str))
  | text (s : Str)
  | payload (p : π)
  | bytes (b : Bytes)
  deriving DecidableEq, Repr

/-- The state of a `Request`. -/
structure Req (β π : Type) where
  p : Params β
  url : Str
  path : Str
  header : CIDict Str
  data : Data π
  consume : Option Str
  produce : Option Str
  scheme : Option Str
  deriving DecidableEq, Repr

/-- Python truth of an optional string: `None` and `''` are false. -/
def truthy : Option Str → Option Str
  | some (c :: s) => some (c :: s)
  | _ => none

variable {β δ π : Type}

/-- `pyswagger/io.py`:26-40 `Request.__init__`. -/
def init (op : Op δ) (p : Params β) : Req β π :=
  ⟨p, op.url, op.path, [], .none, none, none, none⟩

/-- `pyswagger/io.py`:42-46 `Request.reset`. -/
def reset (op : Op δ) (r : Req β π) : Req β π :=
  { r with url := op.url, path := op.path, header := [], data := .none }

def formType : Str := c!"application/x-www-form-urlencoded"
def multipartType : Str := c!"multipart/form-data"
def jsonType : Str := c!"application/json"

/-- `pyswagger/io.py`:56-63 `_prepare_forms`. -/
def prepareForms (op : Op δ) (p : Params β) : Except Exc (Str × Str) :=
  if op.consumes ≠ [] ∧ formType ∉ op.consumes then .error .SchemaError
  else .ok (formType, urlencode p.formData)

/-- `pyswagger/io.py`:76-85: the first parameter located in the body. -/
def bodyLoop (env : Env β δ π) (ct : Str) (p : Params β) :
    List (ParamDecl δ) → Except Exc (Option (Str × π))
  | [] => .ok none
  | d :: ds =>
    if d.in_ = c!"body" then
      match d.schema with
      | .error e => .error e
      | .ok s =>
        match Dict.get? p.body d.name with
        | none => .error .KeyError
        | some b =>
          match env.marshal ct b s with
          | .error e => .error e
          | .ok x => .ok (some (ct, x))
    else bodyLoop env ct p ds

/-- `pyswagger/io.py`:65-73: `content_type` of `_prepare_body`. -/
def bodyContentType (consumes : List Str) (consume : Option Str) : Str :=
  match truthy consume with
  | some ct => ct
  | none => match consumes with
    | c :: _ => c
    | [] => jsonType

/-- `pyswagger/io.py`:65-86 `_prepare_body`. `none` stands for `(None, None)`. -/
def prepareBody (env : Env β δ π) (op : Op δ) (p : Params β) (consume : Option Str) :
    Except Exc (Option (Str × π)) :=
  let ct := bodyContentType op.consumes consume
  if op.consumes ≠ [] ∧ ct ∉ op.consumes then .error .SchemaError
  else bodyLoop env ct p op.parameters

/-- ASCII text written with `six.b` -/
def asciiBytes (s : Str) : Bytes := s.map (fun c => UInt8.ofNat c.toNat)

def crlf : Bytes := asciiBytes ['\r', '\n']

/-- `pyswagger/io.py`:108-114: one optional header line of a file part. -/
def fileHeaderLine (env : Env β δ π) (name : Str) (f : File) : Except Exc Bytes :=
  match Dict.get? f.header name with
  | none => .ok []
  | some v => (env.encode (name ++ c!": " ++ v)).map (· ++ crlf)

/-- `pyswagger/io.py`:117-125: the content of a file part. -/
def fileContent (env : Env β δ π) (f : File) : Except Exc Bytes :=
  match f.data with
  | none => env.readFile f.filename
  | some (.text s) => env.encode s
  | some (.bytes b) => .ok b

/-- `pyswagger/io.py`:102-127 `append(name, obj)`: the bytes written. -/
def filePart (env : Env β δ π) (name : Str) (f : File) : Except Exc Bytes := do
  let disp ← env.encode (c!"Content-Disposition: form-data; name=\"" ++ name ++
    c!"\"; filename=\"" ++ f.filename ++ c!"\"")
  let h1 ← fileHeaderLine env c!"Content-Type" f
  let h2 ← fileHeaderLine env c!"Content-Transfer-Encoding" f
  let content ← fileContent env f
  return asciiBytes (c!"--" ++ env.boundary) ++ crlf ++ disp ++ crlf ++ h1 ++ h2 ++ crlf ++
    content ++ crlf

/-- `pyswagger/io.py`:129-137: one form field. -/
def fieldPart (env : Env β δ π) (kv : Str × Str) : Except Exc Bytes := do
  let disp ← env.encode (c!"Content-Disposition: form-data; name=\"" ++ kv.1 ++ c!"\"")
  let content ← env.encode kv.2
  return asciiBytes (c!"--" ++ env.boundary) ++ crlf ++ disp ++ crlf ++ crlf ++ content ++ crlf

/-- write one part after the other -/
def writeAll {α : Type} (f : α → Except Exc Bytes) : List α → Except Exc Bytes
  | [] => .ok []
  | x :: xs => do
    let a ← f x
    let b ← writeAll f xs
    return a ++ b

/-- the (name, file) pairs in the order they are written, lines 140-145 -/
def fileList (d : Dict Str FileVal) : List (Str × File) :=
  d.flatMap (fun e => e.2.files.map (fun f => (e.1, f)))

/-- `pyswagger/io.py`:88-151 `_prepare_files`. The streams read are drained by `drainFiles`. -/
def prepareFiles (env : Env β δ π) (op : Op δ) (p : Params β) : Except Exc (Str × Bytes) :=
  if op.consumes ≠ [] ∧ multipartType ∉ op.consumes then .error .SchemaError
  else do
    let fields ← writeAll (fieldPart env) p.formData
    let files ← writeAll (fun nf => filePart env nf.1 nf.2) (fileList p.file)
    return (multipartType ++ c!"; boundary=" ++ env.boundary,
      fields ++ files ++ asciiBytes (c!"--" ++ env.boundary ++ c!"--") ++ crlf)

def drainFile (f : File) : File := { f with data := f.data.map Content.drained }

/-- the file parameters after their streams have been read (line 121) -/
def drainFiles (d : Dict Str FileVal) : Dict Str FileVal :=
  d.map (fun e => (e.1, match e.2 with
    | .one f => .one (drainFile f)
    | .many l => .many (l.map drainFile)))

/-- The `scheme` argument of `prepare`. -/
inductive SchemeArg where
  | list (l : List Str)
  | str (s : Str)
  | other
  deriving DecidableEq, Repr

/-- `pyswagger/io.py`:183-192: the scheme put in the URL. -/
def chooseScheme (preferred : Option Str) : SchemeArg → Except Exc Str
  | .str s => .ok s
  | .other => .error .ValueError
  | .list l =>
    match preferred with
    | none => match l.getLast? with
      | some s => .ok s
      | none => .error .IndexError
    | some s => if s ∈ l then .ok s else .error .Exception

/-- `CaseInsensitiveDict.update` with a dict (the mixin of `MutableMapping`). -/
def ciUpdate (lower : Str → Str) (h : CIDict Str) (d : List (Str × Str)) : CIDict Str :=
  d.foldl (fun h kv => CIDict.setitem lower h kv.1 kv.2) h

/-- `pyswagger/io.py`:208-226: content type, data, and the file parameters afterwards. -/
def prepareData (env : Env β δ π) (op : Op δ) (p : Params β) (consume : Option Str)
    (handleFiles : Bool) : Except Exc (Option Str × Data π × Dict Str FileVal) :=
  if p.file ≠ [] then
    if handleFiles then
      match prepareFiles env op p with
      | .error e => .error e
      | .ok (ct, b) => .ok (some ct, .bytes b, drainFiles p.file)
    else .ok (none, .form p.formData, p.file)
  else if p.formData ≠ [] then
    match prepareForms op p with
    | .error e => .error e
    | .ok (ct, s) => .ok (some ct, .text s, p.file)
  else if p.body ≠ [] then
    match prepareBody env op p consume with
    | .error e => .error e
    | .ok none => .ok (none, .none, p.file)
    | .ok (some (ct, x)) => .ok (some ct, .payload x, p.file)
  else .ok (none, .none, p.file)

/-- `pyswagger/io.py`:231-233: the type wanted for `Accept`. -/
def wantedAccept (produces : List Str) (produce : Option Str) : Option Str :=
  match truthy produce with
  | some a => some a
  | none => truthy produces.head?

/-- `pyswagger/io.py`:231-237: the value of the `Accept` header, if any. -/
def chooseAccept (op : Op δ) (produce : Option Str) : Except Exc (Option Str) :=
  match wantedAccept op.produces produce with
  | none => .ok none
  | some a => if op.produces ≠ [] ∧ a ∉ op.produces then .error .SchemaError else .ok (some a)

/-- `pyswagger/io.py`:196-198 -/
def pathParams (p : Params β) : Dict Str Str := p.path.map (fun e => (e.1, quote_plus e.2))

/-- an optional header assignment -/
def setHeader (lower : Str → Str) (h : CIDict Str) (name : Str) : Option Str → CIDict Str
  | none => h
  | some v => CIDict.setitem lower h name v

/-- `pyswagger/io.py`:174-239 `Request.prepare(scheme, handle_files, encoding)`. -/
def prepare (env : Env β δ π) (op : Op δ) (scheme : SchemeArg) (handleFiles : Bool)
    (r : Req β π) : Except Exc (Req β π) := do
  let s ← chooseScheme r.scheme scheme
  let path ← format env.fmtExt (pathParams r.p) r.path
  let url ← format env.fmtExt (pathParams r.p) r.url
  let h := ciUpdate env.lower r.header r.p.header
  let (ct, data, files) ← prepareData env op r.p r.consume handleFiles
  let h := setHeader env.lower h c!"Content-Type" (truthy ct)
  let accept ← chooseAccept op r.produce
  let h := setHeader env.lower h c!"Accept" accept
  return { r with p := { r.p with file := files }, url := s ++ c!":" ++ url, path := path,
                  header := h, data := data }

/-- `opt.pop(k, None)`: the value (an explicit `None` is `none` too) and the dict afterwards.
Option values are text or `None`; a flag such as `True` counts as some non-empty text. -/
def popOpt (opt : Dict Str (Option Str)) (k : Str) : Option Str × Dict Str (Option Str) :=
  match Dict.get? opt k with
  | none => (none, opt)
  | some v => (v, Dict.del opt k)

/-- `pyswagger/io.py`:153-172 `Request._patch(opt)`: the new URL and the options left. -/
def patch (opt : Dict Str (Option Str)) (url : Str) : Str × Dict Str (Option Str) :=
  let (netloc, opt) := popOpt opt c!"url_netloc"
  let (scheme, opt) := popOpt opt c!"url_scheme"
  if (truthy netloc).isSome || (truthy scheme).isSome then
    let u := urlparse url
    (urlunparse { u with scheme := (truthy scheme).getD u.scheme,
                         netloc := (truthy netloc).getD u.netloc }, opt)
  else (url, opt)

end Io
