import Verif.Model.Upgrade
import Verif.Spec.Service
import Verif.Spec.Swagger12
import Verif.Spec.Described
/-!
# What a 1.2 document says (C87)

Relations between the dicts of JSON, written after the Swagger 1.2 standard, and the records of
`Model/Upgrade.lean`. Shared with the models: these records.
-/

namespace Spec.Listing12
open Py Tree Upgrade Spec.Service Spec.Swagger12

/-- what is written under a key; null if there is nothing -/
def under (q : Dict Str Tree) (n : Str) : Tree := (Dict.get? q n).getD null

/-- nothing is written under the key, or null -/
def Missing (q : Dict Str Tree) (n : Str) : Prop := Dict.get? q n = none ∨ Dict.get? q n = some null

/-- the value under a key -/
def Value (q : Dict Str Tree) (n : Str) (v : Val) : Prop := Spec.Described.Value (under q n) v

/-- the texts under a key; nothing and null are none of them -/
def TextsIn (q : Dict Str Tree) (n : Str) (l : List Str) : Prop :=
  Dict.get? q n = some (.list (l.map text)) ∨ Missing q n ∧ l = []

/-- a dict, or null for an empty one -/
def Stands (t : Tree) (q : Dict Str Tree) : Prop := t = .dict q ∨ t = null ∧ q = []

/-- a list of dicts is under the key, each of them saying the element of `l`; nothing, null, an empty text and an empty
dict are an empty list -/
def Many {α : Type} (R : Dict Str Tree → α → Prop) (t : Option Tree) (l : List α) : Prop :=
  (∃ ts, t = some (.list ts) ∧ List.Forall₂ (fun t a => ∃ q, Stands t q ∧ R q a) ts l) ∨
  (t = none ∨ t = some null ∨ t = some (text []) ∨ t = some (.dict [])) ∧ l = []

/-- a dict of dicts is under the key, each of them saying the entry of `d` with the same name -/
def ByName {α : Type} (R : Dict Str Tree → α → Prop) (t : Option Tree) (d : Dict Str α) : Prop :=
  (∃ ts, t = some (.dict ts) ∧ List.Forall₂ (fun t e => e.1 = t.1 ∧ ∃ q, Stands t.2 q ∧ R q e.2) ts d) ∨
  (t = none ∨ t = some null) ∧ d = []

/-- Items Object -/
structure ItemsIn (q : Dict Str Tree) (i : Items) : Prop where
  ref : Maybe q c!"$ref" i.ref
  type : Maybe q c!"type" i.type
  format : Maybe q c!"format" i.format

/-- the items of a data type; something empty is no Items Object -/
inductive HasItems (q : Dict Str Tree) : Option Items → Bool → Prop
  | none : Missing q c!"items" → HasItems q none false
  | blank {v} : Dict.get? q c!"items" = some v → v ≠ null → Blank v → HasItems q none true
  | some {d i} : Dict.get? q c!"items" = some (.dict d) → d ≠ [] → ItemsIn d i → HasItems q (some i) false

/-- the default value -/
inductive DefaultIn (q : Dict Str Tree) : Option Val → Prop
  | none : Missing q c!"defaultValue" → DefaultIn q none
  | some {t v} : Dict.get? q c!"defaultValue" = some t → t ≠ null → Spec.Described.Value t v → DefaultIn q (some v)

/-- Data Type Fields -/
structure TypeIn (q : Dict Str Tree) (d : DataType) : Prop where
  type : Maybe q c!"type" d.type
  ref : Maybe q c!"$ref" d.ref
  format : Maybe q c!"format" d.format
  default : DefaultIn q d.defaultValue
  enum : Value q c!"enum" d.enum
  items : HasItems q d.items d.blankItems
  minimum : Value q c!"minimum" d.minimum
  maximum : Value q c!"maximum" d.maximum
  unique : Value q c!"uniqueItems" d.uniqueItems

/-- Parameter Object -/
structure ParamIn (q : Dict Str Tree) (p : Param) : Prop where
  type : TypeIn q p.toDataType
  name : Maybe q c!"name" p.name
  required : Value q c!"required" p.required
  description : Value q c!"description" p.description
  paramType : Maybe q c!"paramType" p.paramType
  multiple : Value q c!"allowMultiple" p.allowMultiple

/-- lists of Scope Objects by name: the scopes -/
def ScopesByName (t : Option Tree) (d : Dict Str (List Val)) : Prop :=
  (∃ ts, t = some (.dict ts) ∧ List.Forall₂ (fun t e => e.1 = t.1 ∧
    t.2 ≠ null ∧ Many (fun q v => Value q c!"scope" v) (some t.2) e.2) ts d) ∨
  (t = none ∨ t = some null) ∧ d = []

/-- Operation Object -/
structure OpIn (q : Dict Str Tree) (o : Operation) : Prop where
  type : TypeIn q o.toDataType
  method : Maybe q c!"method" o.method
  nickname : Dict.get? q c!"nickname" = some (text o.nickname)
  summary : Value q c!"summary" o.summary
  notes : Value q c!"notes" o.notes
  deprecated : Value q c!"deprecated" o.deprecated
  consumes : TextsIn q c!"consumes" o.consumes
  produces : TextsIn q c!"produces" o.produces
  authorizations : ScopesByName (Dict.get? q c!"authorizations") o.authorizations
  parameters : Many ParamIn (Dict.get? q c!"parameters") o.parameters

/-- API Object: its operations by nickname, with the path -/
def ApiIn (q : Dict Str Tree) (es : List (Str × (Option Str × Operation))) : Prop :=
  ∃ ops, Many OpIn (Dict.get? q c!"operations") ops ∧
    List.Forall₂ (fun o e => e.1 = o.nickname ∧ Maybe q c!"path" e.2.1 ∧ e.2.2 = o) ops es

/-- Property Object -/
structure PropertyIn (q : Dict Str Tree) (p : Property) : Prop where
  type : TypeIn q p.toDataType
  description : Value q c!"description" p.description

/-- Model Object -/
structure ModelIn (q : Dict Str Tree) (m : Model) : Prop where
  id : Maybe q c!"id" m.id
  required : Spec.Described.Value ((Dict.get? q c!"required").getD (.list [])) m.required
  properties : ByName PropertyIn (Dict.get? q c!"properties") m.properties
  subTypes : TextsIn q c!"subTypes" m.subTypes
  discriminator : Value q c!"discriminator" m.discriminator
  description : Value q c!"description" m.description

/-- lists by name, kept as they are -/
def ListsByName (t : Option Tree) (d : Dict Str (List Val)) : Prop :=
  (∃ ts, t = some (.dict ts) ∧ List.Forall₂ (fun t e => e.1 = t.1 ∧ Spec.Described.Value t.2 (.list e.2)) ts d) ∨
  (t = none ∨ t = some null) ∧ d = []

/-- API Declaration -/
structure DeclarationIn (q : Dict Str Tree) (r : Resource) : Prop where
  apis : ∃ es, Many ApiIn (Dict.get? q c!"apis") es ∧ r.apis = es.flatten
  nicknames : (Dict.keys r.apis).Nodup
  basePath : Maybe q c!"basePath" r.basePath
  models : ByName ModelIn (Dict.get? q c!"models") r.models
  produces : TextsIn q c!"produces" r.produces
  consumes : TextsIn q c!"consumes" r.consumes
  authorizations : ListsByName (Dict.get? q c!"authorizations") r.authorizations

/-- from dict to dict by keys; null if there is nothing -/
def deep : List Str → Tree → Tree
  | [], t => t
  | n :: ns, .dict d => deep ns (under d n)
  | _ :: _, _ => null

/-- Scope Object of the Resource Listing -/
def ScopeIn (q : Dict Str Tree) (e : Str × Val) : Prop :=
  Dict.get? q c!"scope" = some (text e.1) ∧ Value q c!"description" e.2

/-- Authorization Object -/
structure AuthIn (q : Dict Str Tree) (a : Auth) : Prop where
  type : Maybe q c!"type" a.type
  passAs : Value q c!"passAs" a.passAs
  keyname : Value q c!"keyname" a.keyname
  scopes : Many ScopeIn (Dict.get? q c!"scopes") a.scopes
  implicitUrl : Spec.Described.Value (deep [c!"grantTypes", c!"implicit", c!"loginEndpoint", c!"url"] (.dict q)) a.implicitUrl
  tokenUrl : Spec.Described.Value (deep [c!"grantTypes", c!"authorization_code", c!"tokenEndpoint", c!"url"] (.dict q)) a.tokenUrl

/-- Info Object -/
structure InfoIn (q : Dict Str Tree) (i : Info) : Prop where
  title : Value q c!"title" i.title
  description : Value q c!"description" i.description
  terms : Value q c!"termsOfServiceUrl" i.termsOfServiceUrl
  contact : Value q c!"contact" i.contact
  license : Value q c!"license" i.license
  licenseUrl : Value q c!"licenseUrl" i.licenseUrl

/-- Resource Listing, with the API declarations by name -/
structure ListingIn (q : Dict Str Tree) (declarations : Dict Str Tree) (l : ResourceList) : Prop where
  apis : List.Forall₂ (fun t e => e.1 = t.1 ∧ ∃ d, t.2 = .dict d ∧ DeclarationIn d e.2) declarations l.apis
  version : Value q c!"apiVersion" l.apiVersion
  info : Missing q c!"info" ∧ l.info = none ∨ ∃ d i, Dict.get? q c!"info" = some (.dict d) ∧ l.info = some i ∧ InfoIn d i
  authorizations : ByName AuthIn (Dict.get? q c!"authorizations") l.authorizations

end Spec.Listing12
