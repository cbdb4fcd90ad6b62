import Verif.Model.Tree
import Mathlib.Data.List.Forall2
/-!
# The objects of the Swagger 1.2 standard (C85)

Written after the standard ("Swagger RESTful API Documentation Specification", version 1.2, section
"Schema"), in its order: for every object its fields and what each of them holds.
-/

namespace Spec.Swagger12
open Py Tree

/-- The objects of the standard. `scopeOf` is the Scope Object of an operation (5.2.3 of the
standard), `scope` the one of the resource listing (5.1.6). -/
inductive Ob
  | listing | info | authorization | scope | grantTypes | implicit | authorizationCode | loginEndpoint
  | tokenRequestEndpoint | tokenEndpoint | declaration | api | operation | scopeOf | parameter
  | responseMessage | model | property | items
  deriving DecidableEq

/-- What a field holds: a plain value, with the value an absent one is read as; an object; a list of
objects; objects by name; lists of objects by name; an object that is made only if something is
written there. -/
inductive Holds
  | value (absent : Tree)
  | one (o : Ob)
  | many (o : Ob)
  | byName (o : Ob)
  | manyByName (o : Ob)
  | filled (o : Ob)

def null : Tree := .atom .none

/-- plain values -/
def plain (l : List String) : List (Str × Holds) := l.map fun n => (n.toList, .value null)

/-- Data Type Fields (4.3.3) -/
def dataType : List (Str × Holds) :=
  plain ["type", "$ref", "format", "defaultValue", "enum", "minimum", "maximum"]
    ++ [(c!"items", .filled .items)] ++ plain ["uniqueItems"]

/-- The fields of an object. -/
def fields : Ob → List (Str × Holds)
  | .listing =>
    plain ["swaggerVersion", "apis", "apiVersion"]
      ++ [(c!"info", .one .info), (c!"authorizations", .byName .authorization)]
  | .info => plain ["title", "description", "termsOfServiceUrl", "contact", "license", "licenseUrl"]
  | .authorization =>
    plain ["type", "passAs", "keyname"]
      ++ [(c!"scopes", .many .scope), (c!"grantTypes", .one .grantTypes)]
  | .scope => plain ["scope", "description"]
  | .grantTypes => [(c!"implicit", .one .implicit), (c!"authorization_code", .one .authorizationCode)]
  | .implicit => [(c!"loginEndpoint", .one .loginEndpoint)] ++ plain ["tokenName"]
  | .authorizationCode =>
    [(c!"tokenRequestEndpoint", .one .tokenRequestEndpoint), (c!"tokenEndpoint", .one .tokenEndpoint)]
  | .loginEndpoint => plain ["url"]
  | .tokenRequestEndpoint => plain ["url", "clientIdName", "clientSecretName"]
  | .tokenEndpoint => plain ["url", "tokenName"]
  | .declaration =>
    plain ["swaggerVersion", "apiVersion", "basePath", "resourcePath", "produces", "consumes"]
      ++ [(c!"apis", .many .api), (c!"models", .byName .model), (c!"authorizations", .manyByName .scopeOf)]
  | .api => plain ["path", "description"] ++ [(c!"operations", .many .operation)]
  | .operation =>
    plain ["method", "summary", "notes", "nickname", "produces", "consumes", "deprecated"]
      ++ [(c!"authorizations", .manyByName .scopeOf), (c!"parameters", .many .parameter),
        (c!"responseMessages", .many .responseMessage)] ++ dataType
  | .scopeOf => plain ["scope", "description"]
  | .parameter => plain ["paramType", "name", "description", "required", "allowMultiple"] ++ dataType
  | .responseMessage => plain ["code", "message", "responseModel"]
  | .model =>
    plain ["id", "description", "subTypes", "discriminator"]
      ++ [(c!"required", .value (.list [])), (c!"properties", .byName .property)]
  | .property => plain ["description"] ++ dataType
  | .items => plain ["type", "$ref", "format"]

/-- The object of the standard whose field the library keeps as a plain value. -/
def Unread (o : Ob) (n : Str) : Prop := o = .declaration ∧ n = c!"authorizations"

/-- A field that is not in the standard. -/
def Extra (o : Ob) (n : Str) : Prop := o = .declaration ∧ n = c!"description"

instance (o : Ob) (n : Str) : Decidable (Unread o n) := inferInstanceAs (Decidable (_ ∧ _))
instance (o : Ob) (n : Str) : Decidable (Extra o n) := inferInstanceAs (Decidable (_ ∧ _))

/-- nothing is written: null, `false`, zero, an empty text, list or dict -/
inductive Blank : Tree → Prop
  | null : Blank null
  | false : Blank (.atom (.bool false))
  | zero : Blank (.atom (.int 0))
  | float : Blank (.atom (.float (.fin 0)))
  | text : Blank (.atom (.str []))
  | list : Blank (.list [])
  | dict : Blank (.dict [])

/-- what is read as a list of objects: a list, or an empty text or dict -/
inductive ReadList (rd : Tree → Tree → Prop) : Tree → Tree → Prop
  | text : ReadList rd (.atom (.str [])) (.list [])
  | dict : ReadList rd (.dict []) (.list [])
  | list {l xs} : List.Forall₂ rd l xs → ReadList rd (.list l) (.list xs)

/-- What a field is read as, given what the document has there (`none` if nothing) and how objects
are read (`rd`). -/
inductive ReadAs (rd : Ob → Tree → Tree → Prop) : Holds → Option Tree → Tree → Prop
  | absent {a} : ReadAs rd (.value a) none a
  | value {a v} : ReadAs rd (.value a) (some v) v
  | noObject {o} : ReadAs rd (.one o) none null
  | nullObject {o} : ReadAs rd (.one o) (some null) null
  | object {o d x} : rd o (.dict d) x → ReadAs rd (.one o) (some (.dict d)) x
  | noList {o} : ReadAs rd (.many o) none (.list [])
  | nullList {o} : ReadAs rd (.many o) (some null) (.list [])
  | list {o v x} : ReadList (rd o) v x → ReadAs rd (.many o) (some v) x
  | noNames {o} : ReadAs rd (.byName o) none (.dict [])
  | nullNames {o} : ReadAs rd (.byName o) (some null) (.dict [])
  | names {o d xs} : List.Forall₂ (fun a b => b.1 = a.1 ∧ rd o a.2 b.2) d xs →
      ReadAs rd (.byName o) (some (.dict d)) (.dict xs)
  | noLists {o} : ReadAs rd (.manyByName o) none (.dict [])
  | nullLists {o} : ReadAs rd (.manyByName o) (some null) (.dict [])
  | lists {o d xs} : List.Forall₂ (fun a b => b.1 = a.1 ∧ ReadList (rd o) a.2 b.2) d xs →
      ReadAs rd (.manyByName o) (some (.dict d)) (.dict xs)
  | unfilled {o} : ReadAs rd (.filled o) none null
  | blank {o v} : Blank v → ReadAs rd (.filled o) (some v) v
  | filled {o d x} : d ≠ [] → rd o (.dict d) x → ReadAs rd (.filled o) (some (.dict d)) x

/-- `Within o j o' u`: in the document `j`, read as `o`, stands `u`, read as `o'` -/
inductive Within : Ob → Tree → Ob → Tree → Prop
  | here {o j} : Within o j o j
  | one {o d n o' v o'' u} : (n, .one o') ∈ fields o → Dict.get? d n = some v → Within o' v o'' u →
      Within o (.dict d) o'' u
  | many {o d n o' l v o'' u} : (n, .many o') ∈ fields o → Dict.get? d n = some (.list l) → v ∈ l →
      Within o' v o'' u → Within o (.dict d) o'' u
  | byName {o d n o' e k v o'' u} : (n, .byName o') ∈ fields o → Dict.get? d n = some (.dict e) → (k, v) ∈ e →
      Within o' v o'' u → Within o (.dict d) o'' u

/-- `o` has the field -/
def Has (o : Tree) (n : Str) (v : Tree) : Prop := ∃ c fs, o = .obj c fs ∧ Dict.get? fs n = some v

/-- The operations of one api as entries: under their nicknames, with the path of the api as a
further attribute. -/
def Entries (api : Tree) (es : List (Str × Tree)) : Prop :=
  ∃ path l, Has api c!"path" path ∧ Has api c!"operations" (.list l) ∧
    List.Forall₂ (fun o e => ∃ c fs, o = .obj c fs ∧ Dict.get? fs c!"nickname" = some (.atom (.str e.1)) ∧
      e.2 = .obj c (fs ++ [(c!"path", path)])) l es

/-- The operations of all apis, in order, by nickname; no nickname occurs twice. -/
def Operations (apis : List Tree) (ops : List (Str × Tree)) : Prop :=
  (ops.map Prod.fst).Nodup ∧ ∃ es, List.Forall₂ Entries apis es ∧ ops = es.flatten

end Spec.Swagger12
