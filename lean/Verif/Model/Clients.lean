import Verif.Model.Client
import Verif.Model.Response
/-!
# `pyswagger/contrib/client/`: the four bundled clients

What they hand to their HTTP library, and what they do with the library's reply. The libraries
themselves are parameters: `server` is what comes back for a request (`Except`: the library
raises). `upper` is `str.upper`. The options and headers of the caller after a call are in
`Core.send`; the state of the caller's request and response objects after an exception is not
modelled, except that of the response when applying the reply fails.
-/

namespace Clients
open Py Utils Io Core

variable {β δ π η h σ τ ρ υ D : Type}

/-- a reply of the library -/
structure Reply (ρ : Type) where
  status : Int
  headers : List (Str × Str)
  body : ρ

/-- the outcome of `client.request(...)`: what was handed to the library, the response object and
the exception, if any -/
structure Outcome (Q η ρ D : Type) where
  sent : Option Q
  resp : Resp η ρ D
  exc : Option Exc

/-- the world of a request and its response -/
structure World (β δ π η h σ τ ρ υ D : Type) where
  env : Env β δ π
  renv : REnv η h σ τ ρ υ D
  op : Op δ
  table : Dict Str (RespDecl h σ)
  upper : Str → Str

/-- apply calls of `apply_with` one after the other; the first exception stops -/
def applySeq (env : REnv η h σ τ ρ υ D) (table : Dict Str (RespDecl h σ)) (s : Resp η ρ D) :
    List (RespCall ρ) → Resp η ρ D × Option Exc
  | [] => (s, none)
  | c :: cs =>
    match applyWith env table s c with
    | (s, some e) => (s, some e)
    | (s, none) => applySeq env table s cs

/-- The frame shared by the clients: `send`, build the library's request, hand it over, apply the
reply. -/
def exchange {Q : Type} (w : World β δ π η h σ τ ρ υ D) (c : Client) (opt : Dict Str (Option Str))
    (headers : HeadersArg) (req : Req β π) (resp : Resp η ρ D)
    (build : Sent π → Req β π → Except Exc Q) (server : Q → Except Exc (Reply ρ))
    (calls : Reply ρ → List (RespCall ρ)) : Outcome Q η ρ D :=
  let resp := resp.reset
  match send w.env w.op c opt headers req with
  | .error e => ⟨none, resp, some e⟩
  | .ok r =>
    match build r.sent r.req with
    | .error e => ⟨none, resp, some e⟩
    | .ok q =>
      match server q with
      | .error e => ⟨some q, resp, some e⟩
      | .ok reply =>
        let (resp, e) := applySeq w.renv w.table resp (calls reply)
        ⟨some q, resp, e⟩

/-- one call of `apply_with(status, raw, header)` -/
def atOnce (r : Reply ρ) : List (RespCall ρ) := [⟨some r.status, some r.body, some r.headers⟩]

/-- `__schemes__` of the four clients -/
def httpSchemes : List Str := [c!"http", c!"https"]

/-! ## requests -/

/-- an entry of `files`: name, file name, stream, and the declared type if any -/
structure Upload where
  name : Str
  filename : Str
  content : Content
  contentType : Option Str
  deriving DecidableEq, Repr

/-- `requests.Request` -/
structure RequestsReq (π : Type) where
  method : Str
  url : Str
  params : List (Str × Str)
  data : Data π
  headers : List (Str × Str)
  files : List Upload
  deriving DecidableEq, Repr

/-- `pyswagger/contrib/client/requests.py`:46-51 `append(name, obj)`; a stream object is always
true, so `open` is used exactly when there is none. -/
def upload (env : Env β δ π) (name : Str) (f : File) : Except Exc Upload :=
  let ct := Dict.get? f.header c!"Content-Type"
  match f.data with
  | some c => .ok ⟨name, f.filename, c, ct⟩
  | none =>
    match env.readFile f.filename with
    | .ok b => .ok ⟨name, f.filename, .bytes b, ct⟩
    | .error e => .error e

/-- `pyswagger/contrib/client/requests.py`:53-58 -/
def uploads (env : Env β δ π) : List (Str × File) → Except Exc (List Upload)
  | [] => .ok []
  | nf :: l => do
    let u ← upload env nf.1 nf.2
    let us ← uploads env l
    return u :: us

/-- `pyswagger/contrib/client/requests.py`:42-67 -/
def requestsBuild (w : World β δ π η h σ τ ρ υ D) (s : Sent π) (_ : Req β π) :
    Except Exc (RequestsReq π) :=
  match uploads w.env (fileList s.files) with
  | .error e => .error e
  | .ok fs => .ok ⟨w.upper s.method, s.url, s.query, s.data, s.headers, fs⟩

/-- `pyswagger/contrib/client/requests.py`:26-77 `Client.request` -/
def requestsRequest (w : World β δ π η h σ τ ρ υ D) (security : Option (Dict Str Cred))
    (opt : Dict Str (Option Str)) (headers : HeadersArg) (req : Req β π) (resp : Resp η ρ D)
    (server : RequestsReq π → Except Exc (Reply ρ)) : Outcome (RequestsReq π) η ρ D :=
  exchange w ⟨httpSchemes, false, true, security⟩ opt headers req resp (requestsBuild w) server atOnce

/-! ## tornado -/

/-- `tornado.httpclient.HTTPRequest`; `url_concat(url, query)` is left as its two arguments -/
structure TornadoReq (π : Type) where
  method : Str
  url : Str
  query : List (Str × Str)
  headers : List (Str × Str)
  body : Data π
  deriving DecidableEq, Repr

/-- `pyswagger/contrib/client/tornado.py`:37-49 -/
def tornadoBuild (w : World β δ π η h σ τ ρ υ D) (s : Sent π) (_ : Req β π) :
    Except Exc (TornadoReq π) :=
  .ok ⟨w.upper s.method, s.url, s.query, s.headers, s.data⟩

/-- `pyswagger/contrib/client/tornado.py`:52-58: status and body first, then each header. -/
def tornadoCalls (r : Reply ρ) : List (RespCall ρ) :=
  ⟨some r.status, some r.body, none⟩ :: r.headers.map (fun kv => ⟨none, none, some [kv]⟩)

/-- `pyswagger/contrib/client/tornado.py`:21-60 `TornadoClient.request` -/
def tornadoRequest (w : World β δ π η h σ τ ρ υ D) (security : Option (Dict Str Cred))
    (opt : Dict Str (Option Str)) (headers : HeadersArg) (req : Req β π) (resp : Resp η ρ D)
    (server : TornadoReq π → Except Exc (Reply ρ)) : Outcome (TornadoReq π) η ρ D :=
  exchange w ⟨httpSchemes, true, false, security⟩ opt headers req resp (tornadoBuild w) server
    tornadoCalls

/-! ## flask -/

/-- a value of the form handed to flask: a `FileStorage` is its file name and stream -/
inductive FlaskField where
  | text (s : Str)
  | file (filename : Str) (stream : Option Content)
  | files (l : List (Str × Option Content))
  deriving DecidableEq, Repr

/-- the `data` argument -/
inductive FlaskData (π : Type) where
  | dict (d : Dict Str FlaskField)
  | data (d : Data π)
  | form (l : List (Str × Str))
  deriving DecidableEq, Repr

/-- the arguments of `client.open` -/
structure FlaskReq (π : Type) where
  method : Str
  path : Str
  query : List (Str × Str)
  headers : List (Str × Str)
  data : FlaskData π
  deriving DecidableEq, Repr

/-- `pyswagger/contrib/client/flask.py`:47-60: a file parameter -/
def flaskFile : FileVal → FlaskField
  | .one f => .file f.filename f.data
  | .many l => .files (l.map (fun f => (f.filename, f.data)))

/-- `pyswagger/contrib/client/flask.py`:42-60: the form fields, then the files -/
def flaskForm (form : List (Str × Str)) (files : Dict Str FileVal) : Dict Str FlaskField :=
  let d := form.foldl (fun d kv => Dict.set d kv.1 (.text kv.2)) []
  files.foldl (fun d kf => Dict.set d kf.1 (flaskFile kf.2)) d

/-- `pyswagger/contrib/client/flask.py`:38-71 -/
def flaskBuild (w : World β δ π η h σ τ ρ υ D) (s : Sent π) (r : Req β π) : Except Exc (FlaskReq π) :=
  let data :=
    if s.files ≠ [] then .dict (flaskForm r.p.formData s.files)
    else if r.p.body ≠ [] then .data s.data
    else .form r.p.formData
  .ok ⟨w.upper s.method, s.url, s.query, s.headers, data⟩

/-- `pyswagger/contrib/client/flask.py`:22-80 `FlaskTestClient.request` -/
def flaskRequest (w : World β δ π η h σ τ ρ υ D) (security : Option (Dict Str Cred))
    (opt : Dict Str (Option Str)) (headers : HeadersArg) (req : Req β π) (resp : Resp η ρ D)
    (server : FlaskReq π → Except Exc (Reply ρ)) : Outcome (FlaskReq π) η ρ D :=
  exchange w ⟨httpSchemes, false, false, security⟩ opt headers req resp (flaskBuild w) server atOnce

/-! ## webapp2 -/

/-- `webapp2.Request`; `cookie` is the `Cookie` header set after the others -/
structure WebReq (π : Type) where
  method : Str
  url : Str
  headers : List (Str × Str)
  post : Data π
  cookie : Option Str
  deriving DecidableEq, Repr

/-- `pyswagger/contrib/client/webapp2.py`:51-55 -/
def webUrl (url : Str) (query : List (Str × Str)) : Except Exc Str :=
  if query ≠ [] then
    match url.getLast? with
    | none => .error .IndexError
    | some c =>
      let url := if c = '?' ∨ c = '&' then url
        else url ++ (if '?' ∈ url then c!"&" else c!"?")
      .ok (url ++ urlencode query)
  else .ok url

/-- `pyswagger/contrib/client/webapp2.py`:49-66 -/
def webBuild (w : World β δ π η h σ τ ρ υ D) (cookie : Option Str) (s : Sent π) (_ : Req β π) :
    Except Exc (WebReq π) :=
  match webUrl s.url s.query with
  | .error e => .error e
  | .ok url => .ok ⟨w.upper s.method, url, s.headers, s.data, truthy cookie⟩

/-- `_resp.headers['Set-Cookie']`: the last header of that name (`webob`'s `ResponseHeaders`) -/
def setCookie (lower : Str → Str) (l : List (Str × Str)) : Option Str :=
  (l.reverse.find? (fun kv => lower kv.1 = lower c!"Set-Cookie")).map Prod.snd

/-- `pyswagger/contrib/client/webapp2.py`:34-82 `Webapp2TestClient.request`: the outcome and the
cookie kept afterwards. -/
def webRequest (w : World β δ π η h σ τ ρ υ D) (security : Option (Dict Str Cred)) (keep : Bool)
    (cookie : Option Str) (opt : Dict Str (Option Str)) (headers : HeadersArg) (req : Req β π)
    (resp : Resp η ρ D) (server : WebReq π → Except Exc (Reply ρ)) :
    Outcome (WebReq π) η ρ D × Option Str :=
  let out := exchange w ⟨httpSchemes, true, false, security⟩ opt headers req resp
    (webBuild w cookie) server atOnce
  let cookie :=
    match out.sent, out.exc with
    | some q, none =>
      match server q with
      | .ok reply =>
        if keep then
          match setCookie w.env.lower reply.headers with
          | some v => some v
          | none => cookie
        else cookie
      | .error _ => cookie
    | _, _ => cookie
  (out, cookie)

/-- one request of a session -/
structure WebCall (β δ π η h σ τ ρ υ D : Type) where
  world : World β δ π η h σ τ ρ υ D
  opt : Dict Str (Option Str)
  headers : HeadersArg
  req : Req β π
  resp : Resp η ρ D
  server : WebReq π → Except Exc (Reply ρ)

/-- a session: requests one after the other through one client -/
def webSession (security : Option (Dict Str Cred)) (keep : Bool) (cookie : Option Str) :
    List (WebCall β δ π η h σ τ ρ υ D) → List (Outcome (WebReq π) η ρ D)
  | [] => []
  | c :: cs =>
    let (out, cookie) := webRequest c.world security keep cookie c.opt c.headers c.req c.resp c.server
    out :: webSession security keep cookie cs

/-- `pyswagger/contrib/client/webapp2.py`:14-32 `Webapp2TestClient(app, auth, keep_cookie)` (Python 2
only); the cookie starts as `None`. -/
def webClient (security : Option (Dict Str Cred)) (keep : Bool)
    (calls : List (WebCall β δ π η h σ τ ρ υ D)) : List (Outcome (WebReq π) η ρ D) :=
  webSession security keep none calls

end Clients
