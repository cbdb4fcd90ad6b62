import Verif.Model.Upgrade
import Verif.Spec.Rfc6901
import Mathlib.Data.List.Forall2
/-!
# What the objects of a 1.2 document become in 2.0

Relations between the records of `Model/Upgrade.lean`, written without its functions.
-/

namespace Spec.Upgrade12
open Py Upgrade

/-- a name within a scope -/
def qualified (sep scope name : Str) : Str :=
  if scope = [] then name else if name = [] then scope else scope ++ sep ++ name

/-- the reference to the definition of a name -/
def point (sep scope name : Str) : Str := c!"#/definitions/" ++ qualified sep scope name

/-- an empty value -/
def Falsy (v : Val) : Prop :=
  v = .none ∨ v = .bool false ∨ v = .int 0 ∨ v = .float (.fin 0) ∨ v = .str [] ∨ v = .list [] ∨ v = .dict []

/-- no text, or an empty one -/
def Absent (s : Option Str) : Prop := s = none ∨ s = some []

/-- `type` and `$ref` of a data type: the new `type` and `$ref` -/
inductive TypeOf (env : Env) (scope : Str) : Option Str → Option Str → Option Str → Option Str → Prop where
  | primitive (t ref) : env.prim t = true → Absent ref → TypeOf env scope (some t) ref (some (env.lower t)) none
  | primitive_ref (t x) : env.prim t = true → x ≠ [] →
      TypeOf env scope (some t) (some x) (some (env.lower t)) (some (point env.sep scope x))
  | model (t ref) : env.prim t = false → t ≠ [] → TypeOf env scope (some t) ref none (some (point env.sep scope t))
  | ref (t x) : (∀ s, t = some s → s = [] ∧ env.prim s = false) → x ≠ [] →
      TypeOf env scope t (some x) none (some (point env.sep scope x))
  | nothing (t ref) : (∀ s, t = some s → s = [] ∧ env.prim s = false) → Absent ref → TypeOf env scope t ref none none

/-- `minimum` or `maximum` of a data type: the new value -/
inductive LimitOf (env : Env) : Option Str → Val → Val → Prop where
  | absent (t v) : Falsy v → LimitOf env t v .none
  | integer (v x n) : ¬ Falsy v → env.float v = .ok x → env.int x = .ok n → LimitOf env (some c!"integer") v (.int n)
  | number (v x) : ¬ Falsy v → env.float v = .ok x → LimitOf env (some c!"number") v (.float x)

/-- the default of a data type -/
inductive DefaultOf : Option Val → Val → Prop where
  | unset : DefaultOf none .none
  | set (v) : DefaultOf (some v) v

/-- the items of a schema -/
inductive ItemsOf (env : Env) (scope : Str) : Option Items → Option SchemaItems → Prop where
  | none : ItemsOf env scope none none
  | some (i : Items) (j : SchemaItems) : TypeOf env scope i.type i.ref j.type j.ref → j.format = i.format →
      ItemsOf env scope (some i) (some j)

/-- the schema made of a data type, with this description -/
structure SchemaOf (env : Env) (scope : Str) (d : DataType) (description : Val) (s : Schema) : Prop where
  type : TypeOf env scope d.type d.ref s.type s.ref
  format : s.format = d.format
  default : DefaultOf d.defaultValue s.default
  minimum : LimitOf env d.type d.minimum s.minimum
  maximum : LimitOf env d.type d.maximum s.maximum
  unique : s.uniqueItems = d.uniqueItems
  enum : s.enum = d.enum
  items : ItemsOf env scope d.items s.items
  description : s.description = description

/-- the location of a parameter -/
inductive LocOf : Option Str → Option Str → Prop where
  | form : LocOf (some c!"form") (some c!"formData")
  | other (t) : t ≠ some c!"form" → LocOf t t

/-- equal to `True` -/
def IsTrue (v : Val) : Prop := v = .bool true ∨ v = .int 1 ∨ v = .float (.fin 1)

/-- items of a parameter: a primitive type -/
structure PlainItems (env : Env) (type ref format : Option Str) (enum : Val) (i : Items20) : Prop where
  ref : Absent ref
  type : ∃ t, type = some t ∧ env.prim t = true ∧ i.type = some (env.lower t)
  format : i.format = format
  enum : i.enum = enum

/-- the default of a parameter that becomes an array -/
inductive DefaultListOf : Option Val → Val → Prop where
  | unset : DefaultListOf none .none
  | set (v) : DefaultListOf (some v) (.list [v])

/-- what a parameter becomes -/
inductive ParamOf (env : Env) (scope : Str) (p : Param) : Param20 → Prop where
  /-- a body: its data type becomes the schema -/
  | body (sc) : p.paramType = some c!"body" → SchemaOf env scope p.toDataType .none sc →
      ParamOf env scope p { name := p.name, required := p.required, description := p.description,
                            «in» := some c!"body", schema := some sc }
  /-- several values allowed: an array of the declared type -/
  | multiple (loc i d) : p.paramType ≠ some c!"body" → LocOf p.paramType loc → IsTrue p.allowMultiple ∧ p.blankItems = false →
      p.items = none → PlainItems env p.type p.ref p.format p.enum i → DefaultListOf p.defaultValue d →
      ParamOf env scope p { name := p.name, required := p.required, description := p.description, «in» := loc,
                            type := some c!"array", uniqueItems := p.uniqueItems, items := some i, default := d }
  /-- one value, not an array -/
  | single (loc t d mn mx) : p.paramType ≠ some c!"body" → LocOf p.paramType loc → ¬ (IsTrue p.allowMultiple ∧ p.blankItems = false) →
      p.items = none → Absent p.ref → p.type = some t → DefaultOf p.defaultValue d →
      LimitOf env p.type p.minimum mn → LimitOf env p.type p.maximum mx →
      ParamOf env scope p { name := p.name, required := p.required, description := p.description, «in» := loc,
                            type := some (env.lower t), format := p.format, default := d, minimum := mn,
                            maximum := mx, enum := p.enum }
  /-- an array with declared items -/
  | array (loc t d mn mx j i) : p.paramType ≠ some c!"body" → LocOf p.paramType loc → Absent p.ref →
      p.items = some j → p.type = some t → DefaultOf p.defaultValue d →
      LimitOf env p.type p.minimum mn → LimitOf env p.type p.maximum mx →
      PlainItems env j.type j.ref j.format .none i →
      ParamOf env scope p { name := p.name, required := p.required, description := p.description, «in» := loc,
                            type := some (env.lower t), format := p.format, default := d, minimum := mn,
                            maximum := mx, enum := p.enum, uniqueItems := p.uniqueItems, items := some i }

/-- the security of an operation: its own authorisations with their scopes, else those of the
resource, none of which has scopes -/
inductive SecurityOf (r : Resource) (op : Operation) : List (Str × List Val) → Prop where
  | own : op.authorizations ≠ [] → SecurityOf r op op.authorizations
  | inherited : op.authorizations = [] → (∀ e ∈ r.authorizations, e.2 = []) → SecurityOf r op r.authorizations

/-- the response of an operation -/
inductive ResponseOf (env : Env) (scope : Str) (op : Operation) : Option Schema → Prop where
  | void : op.type = some c!"void" → ResponseOf env scope op none
  | value (sc) : op.type ≠ some c!"void" → SchemaOf env scope op.toDataType .none sc → ResponseOf env scope op (some sc)

/-- the own list, else that of the resource -/
inductive OwnOr : List Str → List Str → List Str → Prop where
  | own (a b) : a ≠ [] → OwnOr a b a
  | inherited (b) : OwnOr [] b b

/-- what an operation becomes. The parameters are in the opposite order. -/
structure OpOf (env : Env) (scope : Str) (r : Resource) (op : Operation) (o : Op20) : Prop where
  tags : o.tags = [scope]
  id : o.operationId = op.nickname
  summary : o.summary = op.summary
  notes : o.description = op.notes
  deprecated : o.deprecated = true ↔ op.deprecated = .str c!"true"
  consumes : OwnOr op.consumes r.consumes o.consumes
  produces : OwnOr op.produces r.produces o.produces
  security : SecurityOf r op o.security
  response : ResponseOf env scope op o.response
  parameters : List.Forall₂ (ParamOf env scope) op.parameters.reverse o.parameters

/-- the URL of a grant is given -/
def Url (v : Val) : Prop := ¬ Falsy v

/-- the scopes of an authorisation: the last description given for a name -/
def ScopesOf (l : List (Str × Val)) (d : Dict Str Val) : Prop :=
  ∀ k v, Dict.get? d k = some v ↔ ∃ pre post, l = pre ++ (k, v) :: post ∧ ∀ e ∈ post, e.1 ≠ k

/-- what an authorisation becomes, with these scopes -/
inductive SchemeOf (a : Auth) : Scheme20 → Prop where
  | basic (sc) : a.type = some c!"basicAuth" → SchemeOf a { type := some c!"basic", scopes := sc }
  | implicit (sc) : a.type = some c!"oauth2" → Url a.implicitUrl →
      SchemeOf a { type := some c!"oauth2", scopes := sc, authorizationUrl := a.implicitUrl, tokenUrl := a.tokenUrl,
                   flow := some c!"implicit" }
  | code (sc) : a.type = some c!"oauth2" → ¬ Url a.implicitUrl → Url a.tokenUrl →
      SchemeOf a { type := some c!"oauth2", scopes := sc, authorizationUrl := a.implicitUrl, tokenUrl := a.tokenUrl,
                   flow := some c!"access_code" }
  | grantless (sc) : a.type = some c!"oauth2" → ¬ Url a.implicitUrl → ¬ Url a.tokenUrl →
      SchemeOf a { type := some c!"oauth2", scopes := sc, authorizationUrl := a.implicitUrl, tokenUrl := a.tokenUrl }
  | apiKey (sc) : a.type = some c!"apiKey" →
      SchemeOf a { type := some c!"apiKey", scopes := sc, name := a.keyname, «in» := a.passAs }
  | other (sc) : a.type ≠ some c!"basicAuth" → a.type ≠ some c!"oauth2" → a.type ≠ some c!"apiKey" →
      SchemeOf a { type := a.type, scopes := sc }

/-- the properties of a model, under the same names -/
inductive PropertiesOf (env : Env) (scope : Str) : Dict Str Property → Dict Str Schema → Prop where
  | nil : PropertiesOf env scope [] []
  | cons (n : Str) (p : Property) (s ps ss) : SchemaOf env scope p.toDataType p.description s →
      PropertiesOf env scope ps ss → PropertiesOf env scope ((n, p) :: ps) ((n, s) :: ss)

/-- what a model becomes, apart from the schemas it is composed of -/
structure ModelOf (env : Env) (scope : Str) (m : Model) (d : Definition) : Prop where
  properties : PropertiesOf env scope m.properties d.properties
  required : d.required = m.required
  discriminator : d.discriminator = m.discriminator
  description : d.description = m.description

/-- the name a model is filed under -/
def keyOf (env : Env) (scope : Str) (m : Model) : Str :=
  match m.id with
  | some i => qualified env.sep scope i
  | none => scope

end Spec.Upgrade12
