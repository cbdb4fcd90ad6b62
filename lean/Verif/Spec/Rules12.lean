import Verif.Spec.Tree
import Verif.Py.Dict
/-! # The rules for Swagger 1.2 documents (specification side of C60)

Classes are given by name.
-/

namespace Spec.Rules12
open Py Tree Spec.Places

/-- the field `n` of the object is `v` -/
def Has (o : Tree) (n : Str) (v : Tree) : Prop := ∃ c fs, o = .obj c fs ∧ Dict.get? fs n = some v

/-- the field is the text -/
def Says (o : Tree) (n s : Str) : Prop := Has o n (.atom (.str s))

/-- the field was not given -/
def Missing (o : Tree) (n : Str) : Prop := Has o n (.atom .none)

/-- nothing, `False`, zero, or an empty text, list or dict -/
inductive Empty : Tree → Prop where
  | none : Empty (.atom .none)
  | false : Empty (.atom (.bool false))
  | zero : Empty (.atom (.int 0))
  | float : Empty (.atom (.float (.fin 0)))
  | text : Empty (.atom (.str []))
  | list : Empty (.list [])
  | dict : Empty (.dict [])

def Blank (o : Tree) (n : Str) : Prop := ∃ v, Has o n v ∧ Empty v

/-- the fields that each class must have -/
def required : List (Str × List Str) :=
  [(c!"Scope", [c!"scope"]), (c!"Authorizations", [c!"scope"]), (c!"LoginEndpoint", [c!"url"]),
   (c!"Implicit", [c!"loginEndpoint"]), (c!"TokenRequestEndpoint", [c!"url"]), (c!"TokenEndpoint", [c!"url"]),
   (c!"AuthorizationCode", [c!"tokenRequestEndpoint", c!"tokenEndpoint"]), (c!"Authorization", [c!"type"]),
   (c!"ResponseMessage", [c!"code", c!"message"]), (c!"Parameter", [c!"paramType", c!"name"]),
   (c!"Operation", [c!"method", c!"nickname", c!"parameters"]), (c!"Api", [c!"path", c!"operations"]),
   (c!"Model", [c!"id", c!"properties"]), (c!"Resource", [c!"swaggerVersion", c!"basePath", c!"apis"]),
   (c!"ResourceList", [c!"swaggerVersion", c!"apis"]), (c!"Info", [c!"title", c!"description"])]

/-- the classes with a data type -/
def dataTyped : List Str := [c!"Parameter", c!"Operation", c!"Property"]

/-- the text of a value, in a message -/
inductive Reads (str : Tree → Str) : Tree → Str → Prop where
  | text (n) : Reads str (.atom (.str n)) n
  | other (v) : (∀ n, v ≠ .atom (.str n)) → Reads str v (str v)

/-- The object `o` of class `c` violates the rule with the message; `raw` is the resource list and
`op` is true of the operation of a parameter; `str` turns values that are no texts into texts. -/
inductive Breaks (str : Tree → Str) (raw : Tree) (op : Tree → Prop) (c : Str) (o : Tree) : Str → Prop where
  | untyped : c ∈ dataTyped → Missing o c!"type" → Missing o c!"$ref" →
      Breaks str raw op c o c!"type or $ref should be existed."
  | items : c ∈ dataTyped → ¬ (Says o c!"type" c!"array" ↔ ¬ Missing o c!"items") →
      Breaks str raw op c o c!"array should be existed along with items"
  | unique : c ∈ dataTyped → ¬ Missing o c!"uniqueItems" → ¬ Says o c!"type" c!"array" →
      Breaks str raw op c o c!"uniqueItems is only used for array type."
  | multiple : c = c!"Parameter" → ¬ Blank o c!"allowMultiple" → ¬ Says o c!"paramType" c!"path" →
      ¬ Says o c!"paramType" c!"query" → ¬ Says o c!"paramType" c!"header" →
      Breaks str raw op c o c!"allowMultiple should be applied on path, header, or query parameters"
  | array : c = c!"Parameter" → ¬ Blank o c!"allowMultiple" → Says o c!"type" c!"array" →
      Breaks str raw op c o c!"array Type with allowMultiple is not supported."
  | body (v w) : c = c!"Parameter" → Says o c!"paramType" c!"body" → Has o c!"name" v → v ≠ .atom (.str []) →
      v ≠ .atom (.str c!"body") → Reads str v w →
      Breaks str raw op c o (c!"body parameter with invalid name: " ++ w)
  | form (v w) : c = c!"Parameter" → Says o c!"type" c!"File" → ¬ Says o c!"paramType" c!"form" →
      Has o c!"name" v → Reads str v w →
      Breaks str raw op c o (c!"File parameter should be form type: " ++ w)
  | multipart (p l v w) : c = c!"Parameter" → Says o c!"type" c!"File" → op p →
      Has p c!"consumes" (.list l) → .atom (.str c!"multipart/form-data") ∉ l → Has o c!"name" v → Reads str v w →
      Breaks str raw op c o (c!"File parameter should consume multipart/form-data: " ++ w)
  | void : c ∈ [c!"Parameter", c!"Property", c!"Items"] → Says o c!"type" c!"void" →
      Breaks str raw op c o c!"void is only allowed in Operation object."
  | passAs : c = c!"Authorization" → Says o c!"type" c!"apiKey" → Blank o c!"passAs" →
      Breaks str raw op c o c!"need \"passAs\" for apiKey"
  | keyname : c = c!"Authorization" → Says o c!"type" c!"apiKey" → Blank o c!"keyname" →
      Breaks str raw op c o c!"need \"keyname\" for apiKey"
  | grantTypes : c = c!"Authorization" → Says o c!"type" c!"oauth2" → Blank o c!"grantTypes" →
      Breaks str raw op c o c!"need \"grantTypes\" for oauth2"
  | grant : c = c!"GrantType" → Blank o c!"implicit" → Blank o c!"authorization_code" →
      Breaks str raw op c o c!"Either implicit or authorization_code should be defined."
  | auth (used known k v a ty) : c = c!"Operation" → Has o c!"authorizations" (.dict used) → (k, v) ∈ used →
      v ≠ .list [] → Has raw c!"authorizations" (.dict known) → (k, a) ∈ known → Says a c!"type" ty →
      ty ∈ [c!"basicAuth", c!"apiKey"] →
      Breaks str raw op c o (c!"auth " ++ k ++ c!" should be an empty list")
  | required (fs f) : (c, fs) ∈ required → f ∈ fs → Missing o f →
      Breaks str raw op c o (c!"requirement " ++ f ++ c!" not meet.")

/-! ## documents -/

/-- the fields of the classes (`pyswagger/spec/v1_2/objects.py`) that the rules speak about -/
def declared : List (Str × List Str) :=
  required ++
  [(c!"Parameter", [c!"type", c!"$ref", c!"items", c!"uniqueItems", c!"allowMultiple"]),
   (c!"Operation", [c!"type", c!"$ref", c!"items", c!"uniqueItems", c!"authorizations", c!"consumes"]),
   (c!"Property", [c!"type", c!"$ref", c!"items", c!"uniqueItems"]),
   (c!"Items", [c!"type"]),
   (c!"Authorization", [c!"passAs", c!"keyname", c!"grantTypes"]),
   (c!"GrantType", [c!"implicit", c!"authorization_code"]),
   (c!"ResourceList", [c!"authorizations"])]

/-- the classes of the objects in a document -/
def classes : List Str :=
  [c!"Items", c!"Scope", c!"LoginEndpoint", c!"Implicit", c!"TokenRequestEndpoint", c!"TokenEndpoint",
   c!"AuthorizationCode", c!"GrantType", c!"Authorizations", c!"Authorization", c!"ResponseMessage",
   c!"Parameter", c!"Operation", c!"Api", c!"Property", c!"Model", c!"Resource", c!"Info", c!"ResourceList"]

/-- the operation whose parameter stands at the tokens -/
def Owner (root : Tree) (ts : List Str) (op : Tree) : Prop :=
  ∃ us i l, ts = us ++ [c!"parameters", natStr i] ∧ At [] root us op ∧ Has op c!"parameters" (.list l)

/-- A document as it is read: objects have a class of the specification and its fields, parameters
stand in the `parameters` of an operation, `authorizations` of operations are a dict (or not
given), those of the resource list are a dict of objects with a `type`, `consumes` is a list (or not
given). `name` gives the name of a class. -/
structure Shaped (name : Nat → Str) (root : Tree) : Prop where
  wf : WF root
  top : ∃ c fs, root = .obj c fs ∧ name c = c!"ResourceList"
  isClass : ∀ ts c fs, At [] root ts (.obj c fs) → name c ∈ classes
  hasFields : ∀ ts c fs xs x, At [] root ts (.obj c fs) → (name c, xs) ∈ declared → x ∈ xs →
    (Dict.get? fs x).isSome = true
  owner : ∀ ts c fs, At [] root ts (.obj c fs) → name c = c!"Parameter" → ∃ op, Owner root ts op
  op : ∀ ts op, Owner root ts op → ∃ v, Has op c!"consumes" v ∧ (v = .atom .none ∨ ∃ l, v = .list l)
  used : ∀ ts c fs v, At [] root ts (.obj c fs) → name c = c!"Operation" →
    Dict.get? fs c!"authorizations" = some v → v = .atom .none ∨ ∃ d, v = .dict d
  known : ∃ d, Has root c!"authorizations" (.dict d) ∧
    ∀ k a, (k, a) ∈ d → ∃ v, Has a c!"type" v

/-- an operation of the document asks for an authorisation that the resource list does not have -/
def UnknownAuth (name : Nat → Str) (root : Tree) : Prop :=
  ∃ ts c fs used known k v, At [] root ts (.obj c fs) ∧ name c = c!"Operation" ∧
    Dict.get? fs c!"authorizations" = some (.dict used) ∧ (k, v) ∈ used ∧
    Has root c!"authorizations" (.dict known) ∧ k ∉ Dict.keys known

/-- an operation has a file parameter but no `consumes` -/
def FileUnconsumed (name : Nat → Str) (root : Tree) : Prop :=
  ∃ ts c fs op, At [] root ts (.obj c fs) ∧ name c = c!"Parameter" ∧
    Dict.get? fs c!"type" = some (.atom (.str c!"File")) ∧ Owner root ts op ∧ Missing op c!"consumes"

end Spec.Rules12
