import Verif.Model.Validate
/-!
# `pyswagger/scanner/v1_2/validate.py`: the rules for Swagger 1.2 documents

The document is the tree of 1.2 objects as `load_obj` leaves it (`pyswagger/core.py`:172-178):
`Resource.__init__` has replaced the `Api` objects of a resource by their operations
(`pyswagger/spec/v1_2/objects.py`:243-264).

`_parent_` (`pyswagger/spec/base.py`:217-236, 428-434) is not part of a tree; the parent of an object
is the nearest object above it.
-/

namespace Validate12
open Py Tree Scan Validate Utils

/-! ## classes: `pyswagger/spec/v1_2/objects.py` -/

/-- the classes, by number; `base` is `BaseObj_v1_2` -/
def dataType := 0
def items := 1
def scope := 2
def loginEndpoint := 3
def implicit := 4
def tokenRequestEndpoint := 5
def tokenEndpoint := 6
def authorizationCode := 7
def grantType := 8
def authorizations := 9
def authorization := 10
def responseMessage := 11
def parameter := 12
def operation := 13
def api := 14
def property := 15
def model := 16
def resource := 17
def info := 18
def resourceList := 19
def base := 20

/-- the names of the classes -/
def className (c : Nat) : Str :=
  ([c!"DataTypeObj", c!"Items", c!"Scope", c!"LoginEndpoint", c!"Implicit", c!"TokenRequestEndpoint",
    c!"TokenEndpoint", c!"AuthorizationCode", c!"GrantType", c!"Authorizations", c!"Authorization",
    c!"ResponseMessage", c!"Parameter", c!"Operation", c!"Api", c!"Property", c!"Model", c!"Resource",
    c!"Info", c!"ResourceList", c!"BaseObj_v1_2"][c]?).getD []

/-- `pyswagger/spec/v1_2/objects.py`:7-290, the bases of the classes up to `BaseObj` -/
def mro (c : Nat) : List Nat :=
  if c = parameter then [parameter, dataType, base]
  else if c = operation then [operation, dataType, base]
  else if c = property then [property, dataType, base]
  else if c = dataType then [dataType, base]
  else if c = base then [base]
  else [c, base]

/-! ## handlers -/

/-- `x == s` for a text `s` -/
def isText (t : Tree) (s : Str) : Bool :=
  match t with
  | .atom (.str w) => w == s
  | _ => false

/-- `x == None` -/
def isNone : Tree → Bool
  | .atom .none => true
  | _ => false

/-- `x == []` -/
def isNil : Tree → Bool
  | .list l => l.isEmpty
  | _ => false

/-- `errs.append(m)` under a condition -/
def when (b : Bool) (m : Str) : List Str := if b then [m] else []

/-- `s in c` for a text `s`; a text is searched for the substring -/
def contains (s : Str) : Tree → Except Exc Bool
  | .list l => .ok (l.any fun t => isText t s)
  | .dict d => .ok ((Dict.get? d s).isSome)
  | .atom (.str w) => .ok ((List.range (w.length + 1)).any fun i => startsWith (w.drop i) s)
  | _ => .error .TypeError

/-- A handler, given `app.raw`, the parent and the object. -/
abbrev Handler := Tree → Option Tree → Tree → Except Exc (List Str)

/-- `pyswagger/scanner/v1_2/validate.py`:36-50 `_validate_data`. Line 45 is
`not ((type == 'array') == (items != None))`. -/
def validateData : Handler := fun _ _ o => do
  let ty ← field o c!"type"
  let ref ← field o c!"$ref"
  let its ← field o c!"items"
  let uni ← field o c!"uniqueItems"
  .ok (when (isNone ty && isNone ref) c!"type or $ref should be existed." ++
    when (isText ty c!"array" != !isNone its) c!"array should be existed along with items" ++
    when (!isNone uni && !isText ty c!"array") c!"uniqueItems is only used for array type.")

variable (str : Tree → Str)

/-- `'{0}'.format(x)`; `str` gives the texts of values that are no texts -/
def format (t : Tree) : Str :=
  match t with
  | .atom (.str s) => s
  | t => str t

/-- `pyswagger/scanner/v1_2/validate.py`:66-70, on the name of the parameter -/
def validateFile (parent : Option Tree) (pty name : Tree) : Except Exc (List Str) := do
  let op ← match parent with
    | some p => .ok p
    | none => .error .AttributeError
  let consumes ← field op c!"consumes"
  let b ← contains c!"multipart/form-data" consumes
  .ok (when (!isText pty c!"form") (c!"File parameter should be form type: " ++ format str name) ++
    when (!b) (c!"File parameter should consume multipart/form-data: " ++ format str name))

/-- `pyswagger/scanner/v1_2/validate.py`:52-75 `_validate_param` -/
def validateParam : Handler := fun _ parent o => do
  let allow ← field o c!"allowMultiple"
  let pty ← field o c!"paramType"
  let ty ← field o c!"type"
  let name ← field o c!"name"
  let file ← if isText ty c!"File" then validateFile str parent pty name else .ok []
  .ok (when (truth allow && !(isText pty c!"path" || isText pty c!"query" || isText pty c!"header"))
      c!"allowMultiple should be applied on path, header, or query parameters" ++
    when (truth allow && isText ty c!"array") c!"array Type with allowMultiple is not supported." ++
    when (isText pty c!"body" && !(isText name [] || isText name c!"body"))
      (c!"body parameter with invalid name: " ++ format str name) ++
    file ++
    when (isText ty c!"void") c!"void is only allowed in Operation object.")

/-- `pyswagger/scanner/v1_2/validate.py`:77-85 `_validate_prop` and 87-95 `_validate_items` -/
def validateVoid : Handler := fun _ _ o => do
  let ty ← field o c!"type"
  .ok (when (isText ty c!"void") c!"void is only allowed in Operation object.")

/-- `pyswagger/scanner/v1_2/validate.py`:97-111 `_validate_auth` -/
def validateAuth : Handler := fun _ _ o => do
  let ty ← field o c!"type"
  if isText ty c!"apiKey" then do
    let passAs ← field o c!"passAs"
    let keyname ← field o c!"keyname"
    .ok (when (!truth passAs) c!"need \"passAs\" for apiKey" ++ when (!truth keyname) c!"need \"keyname\" for apiKey")
  else if isText ty c!"oauth2" then do
    let grants ← field o c!"grantTypes"
    .ok (when (!truth grants) c!"need \"grantTypes\" for oauth2")
  else .ok []

/-- `pyswagger/scanner/v1_2/validate.py`:113-121 `_validate_granttype` -/
def validateGrantType : Handler := fun _ _ o => do
  let i ← field o c!"implicit"
  let c ← field o c!"authorization_code"
  .ok (when (!truth i && !truth c) c!"Either implicit or authorization_code should be defined.")

/-- `d[k]` -/
def item (d : Dict Str Tree) (k : Str) : Except Exc Tree :=
  match Dict.get? d k with
  | some v => .ok v
  | none => .error .KeyError

/-- `pyswagger/scanner/v1_2/validate.py`:130-135, the loop; line 131 records an unknown authorisation
and line 134 looks it up -/
def auths (known : Dict Str Tree) : List (Str × Tree) → Except Exc (List Str)
  | [] => .ok []
  | (k, v) :: rest => do
    let found := when (Dict.get? known k).isNone (c!"auth " ++ k ++ c!" not found in resource list")
    let a ← item known k
    let ty ← field a c!"type"
    let more ← auths known rest
    .ok (found ++ when ((isText ty c!"basicAuth" || isText ty c!"apiKey") && !isNil v)
      (c!"auth " ++ k ++ c!" should be an empty list") ++ more)

/-- `pyswagger/scanner/v1_2/validate.py`:123-137 `_validate_auths` -/
def validateAuths : Handler := fun raw _ o => do
  let used ← field o c!"authorizations"
  if !truth used then .ok []
  else
    match used with
    | .dict d => do
      let known ← field raw c!"authorizations"
      match known with
      | .dict ds => auths ds d
      | _ => .error .TypeError
    | _ => .error .AttributeError

/-- `pyswagger/scanner/v1_2/validate.py`:141-148 `_check_reqs` -/
def checkReqs (reqs : List Str) : Handler := fun _ _ o =>
  .ok (reqs.flatMap fun r =>
    when (match field o r with
      | .ok v => isNone v
      | .error _ => true) (c!"requirement " ++ r ++ c!" not meet."))

/-- `pyswagger/scanner/v1_2/validate.py`:36-213: the registrations, in order -/
def rules : List (List Nat × Handler) :=
  [([dataType], validateData),
   ([parameter], validateParam str),
   ([property], validateVoid),
   ([items], validateVoid),
   ([authorization], validateAuth),
   ([grantType], validateGrantType),
   ([operation], validateAuths),
   ([scope], checkReqs [c!"scope"]),
   ([authorizations], checkReqs [c!"scope"]),
   ([loginEndpoint], checkReqs [c!"url"]),
   ([implicit], checkReqs [c!"loginEndpoint"]),
   ([tokenRequestEndpoint], checkReqs [c!"url"]),
   ([tokenEndpoint], checkReqs [c!"url"]),
   ([authorizationCode], checkReqs [c!"tokenRequestEndpoint", c!"tokenEndpoint"]),
   ([authorization], checkReqs [c!"type"]),
   ([responseMessage], checkReqs [c!"code", c!"message"]),
   ([parameter], checkReqs [c!"paramType", c!"name"]),
   ([operation], checkReqs [c!"method", c!"nickname", c!"parameters"]),
   ([api], checkReqs [c!"path", c!"operations"]),
   ([model], checkReqs [c!"id", c!"properties"]),
   ([resource], checkReqs [c!"swaggerVersion", c!"basePath", c!"apis"]),
   ([resourceList], checkReqs [c!"swaggerVersion", c!"apis"]),
   ([info], checkReqs [c!"title", c!"description"])]

/-! ## the scan -/

/-- the nearest object above the tokens, which are given last first -/
def nearest (root : Tree) : List Str → Option Tree
  | [] => none
  | _ :: up =>
    match Tree.resolve up.reverse root with
    | .ok (.obj c fs) => some (.obj c fs)
    | _ => nearest root up

/-- `obj._parent_` of the object at the path -/
def parentAt (root : Tree) (path : Str) : Option Tree := nearest root (jp_split (some path)).tail.reverse

/-- `pyswagger/scanner/v1_2/validate.py`:214-223 `result`, on the calls of the scan -/
def collect (root : Tree) : List (Called Handler) → Except Exc (List Err)
  | [] => .ok []
  | c :: cs => do
    let ms ← c.handler root (parentAt root c.path) c.obj
    let es ← collect root cs
    .ok (ms.map (fun m => ((c.path, className ((cls? c.obj).getD base)), m)) ++ es)

/-- `pyswagger/core.py`:234-258 `App._validate` for a 1.2 document -/
def errors (root : Tree) : Except Exc (List Err) :=
  match scan mro [(0, registered (rules str))] (some root) [] with
  | .error e => .error e
  | .ok calls => collect root calls

/-- `pyswagger/core.py`:296-310 `App.validate` -/
def validate (root : Tree) (strict : Bool) : Except Exc (List Err) :=
  match errors str root with
  | .error e => .error e
  | .ok result => if strict && result.length ≠ 0 then .error .ValidationError else .ok result

end Validate12
