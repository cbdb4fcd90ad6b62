import Verif.Model.Client
/-!
# `pyswagger/io.py` and `pyswagger/core.py`: a request after an exception

`Io.prepare` and `Core.send` give no state when they raise. Here the request object is followed through every assignment, so that a
request can be sent again after a failure.
-/

namespace Core
open Py Utils Io

variable {β δ π : Type}

/-- `pyswagger/io.py`:102-127 `append(name, obj)`: the file afterwards, and whether it returns. A stream is read in line 121, after the
headers of the part are written and before its text is encoded. -/
def fileLeft (env : Env β δ π) (name : Str) (f : File) : File × Bool :=
  match env.encode (c!"Content-Disposition: form-data; name=\"" ++ name ++ c!"\"; filename=\"" ++ f.filename ++ c!"\""),
    fileHeaderLine env c!"Content-Type" f, fileHeaderLine env c!"Content-Transfer-Encoding" f with
  | .ok _, .ok _, .ok _ => (drainFile f, (fileContent env f).toOption.isSome)
  | _, _, _ => (f, false)

/-- `pyswagger/io.py`:141-143: a list of files; nothing is read after the first exception -/
def filesLeft (env : Env β δ π) (name : Str) : List File → List File × Bool
  | [] => ([], true)
  | f :: fs =>
    match fileLeft env name f with
    | (f, false) => (f :: fs, false)
    | (f, true) => (f :: (filesLeft env name fs).1, (filesLeft env name fs).2)

/-- `pyswagger/io.py`:140-145: the value of one file parameter -/
def valueLeft (env : Env β δ π) (name : Str) : FileVal → FileVal × Bool
  | .one f => (.one (fileLeft env name f).1, (fileLeft env name f).2)
  | .many l => (.many (filesLeft env name l).1, (filesLeft env name l).2)

/-- `pyswagger/io.py`:140-145: all file parameters -/
def dictLeft (env : Env β δ π) : Dict Str FileVal → Dict Str FileVal
  | [] => []
  | (k, v) :: d =>
    match valueLeft env k v with
    | (v, false) => (k, v) :: d
    | (v, true) => (k, v) :: dictLeft env d

/-- `pyswagger/io.py`:88-151, 208-226: the file parameters when preparing the data has raised -/
def paramsLeft (env : Env β δ π) (op : Op δ) (p : Params β) (handleFiles : Bool) : Dict Str FileVal :=
  if p.file ≠ [] ∧ handleFiles = true then
    if op.consumes ≠ [] ∧ multipartType ∉ op.consumes then p.file
    else
      match writeAll (fieldPart env) p.formData with
      | .error _ => p.file
      | .ok _ => dictLeft env p.file
  else p.file

/-- `pyswagger/io.py`:174-239 `Request.prepare(scheme, handle_files, encoding)`: the exception raised, if any, and the request
afterwards. -/
def prepareLeft (env : Env β δ π) (op : Op δ) (scheme : SchemeArg) (handleFiles : Bool) (r : Req β π) : Option Exc × Req β π :=
  match chooseScheme r.scheme scheme with
  | .error e => (some e, r)
  | .ok s =>
    match format env.fmtExt (pathParams r.p) r.path with
    | .error e => (some e, r)
    | .ok path =>
      let r := { r with path := path }
      match format env.fmtExt (pathParams r.p) r.url with
      | .error e => (some e, r)
      | .ok url =>
        let r := { r with url := s ++ c!":" ++ url }
        let r := { r with header := ciUpdate env.lower r.header r.p.header }
        match prepareData env op r.p r.consume handleFiles with
        | .error e => (some e, { r with p := { r.p with file := paramsLeft env op r.p handleFiles } })
        | .ok (ct, data, files) =>
          let r := { r with data := data, p := { r.p with file := files } }
          let r := { r with header := setHeader env.lower r.header c!"Content-Type" (truthy ct) }
          match chooseAccept op r.produce with
          | .error e => (some e, r)
          | .ok accept => (none, { r with header := setHeader env.lower r.header c!"Accept" accept })

/-- The common part of `request` in the four clients (see `send`): what is handed to the library or the exception raised, and the request
afterwards. -/
def attempt (env : Env β δ π) (op : Op δ) (c : Client) (opt : Dict Str (Option Str)) (headers : HeadersArg) (r : Req β π) :
    Except Exc (Sent π) × Req β π :=
  let r := authorise c.security op (reset op r)
  match prepareSchemes c.schemes op.schemes with
  | .error e => (.error e, r)
  | .ok schemes =>
    match prepareLeft env op (.list schemes) c.handleFiles r with
    | (some e, r) => (.error e, r)
    | (none, r) =>
      let r' := { r with url := (patch opt r.url).1 }
      match composeHeaders r'.header headers (patch opt r.url).2 c.asDict with
      | .error e => (.error e, r')
      | .ok h => (.ok ⟨op.method, r'.url, r'.path, r'.p.query, h.result, r'.data, r'.p.file⟩, r')

/-- What a caller does with a request. -/
inductive Event (β δ π : Type) where
  /-- `client.request((req, resp), opt, headers)` -/
  | request (env : Env β δ π) (c : Client) (opt : Dict Str (Option Str)) (headers : HeadersArg)
  /-- `req.consume(x)`, `pyswagger/io.py`:48-50 -/
  | consume (x : Option Str)
  /-- `req.produce(x)`, `pyswagger/io.py`:52-54 -/
  | produce (x : Option Str)
  /-- `req.scheme = x`, `pyswagger/io.py`:241-250 -/
  | scheme (x : Option Str)

/-- the request after an event; exceptions are caught by the caller -/
def happen (op : Op δ) (r : Req β π) : Event β δ π → Req β π
  | .request env c opt headers => (attempt env op c opt headers r).2
  | .consume x => { r with consume := x }
  | .produce x => { r with produce := x }
  | .scheme x => { r with scheme := x }

end Core
