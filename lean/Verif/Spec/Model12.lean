import Verif.Spec.Data12
/-!
# What a 1.2 document says about bodies and results (C91)

After the data types and models of Swagger 1.2 (4.3, 5.2.7): which JSON values a data type allows. A model is known by its
`id` within the resource that declares it; a model that lists another one as a sub type hands its properties down.
Shared with the models: the records of a 1.2 document, and `str.lower`, `float` and the list of primitive types of the library.
-/

namespace Spec.Model12
open Py Upgrade Spec.Conform Spec.Upgrade12 Spec.Data12

/-- the resource `n` declares the model -/
def Has (l : ResourceList) (n : Str) (m : Model) : Prop := ∃ r k, (n, r) ∈ l.apis ∧ (k, m) ∈ r.models

/-- the items of an array as a data type -/
def ofItems (i : Items) : DataType := { type := i.type, ref := i.ref, format := i.format }

/-- the data type is a model: it is named as the type, or referred to without a type -/
def Is (env : Env) (d : DataType) (i : Str) : Prop :=
  i ≠ [] ∧ (d.type = some i ∧ env.prim i = false ∨ (∀ t, d.type = some t → t = [] ∧ env.prim t = false) ∧ d.ref = some i)

/-- the property must be there -/
def Requires (m : Model) (k : Str) : Prop := ∃ l, m.required = .list l ∧ .str k ∈ l

/-- The value is one the data type of the resource `n` allows. -/
inductive Instance (env : Env) (l : ResourceList) (form : Str → Str → Prop) (nullable : Prop) (n : Str) : DataType → Val → Prop
  | null {d} : nullable → Instance env l form nullable n d .none
  | integer {d ty k} : d.type = some ty → env.lower ty = c!"integer" → Between env d.minimum d.maximum (k : Int) →
      Instance env l form nullable n d (.int k)
  | number {d ty v r} : d.type = some ty → env.lower ty = c!"number" → Numeral v r → Between env d.minimum d.maximum r →
      Instance env l form nullable n d v
  | boolean {d ty b} : d.type = some ty → env.lower ty = c!"boolean" → Instance env l form nullable n d (.bool b)
  | string {d ty s} : d.type = some ty → env.lower ty = c!"string" → (∀ vs, d.enum = .list vs → vs ≠ [] → .str s ∈ vs) →
      (∀ f, d.format = some f → form f s) → Instance env l form nullable n d (.str s)
  | array {d ty i vs} : d.type = some ty → env.lower ty = c!"array" → d.items = some i →
      (∀ v ∈ vs, Instance env l form nullable n (ofItems i) v) → (d.uniqueItems = .bool true → vs.Nodup) →
      Instance env l form nullable n d (.list vs)
  | model {d i m es} : Is env d i → Has l n m → m.id = some i → Dict.WF es →
      (∀ k, Requires m k → ∃ v, Dict.get? es k = some v) →
      (∀ k p v, Dict.get? m.properties k = some p → Dict.get? es k = some v → Instance env l form nullable n p.toDataType v) →
      (∀ b j, Has l n b → b.id = some j → i ∈ b.subTypes → Instance env l form nullable n { ref := some j } (.dict es)) →
      Instance env l form nullable n d (.dict es)

/-- Wherever the value has an object for a model, the object holds the id of the model under its discriminator, and under
those of the models that list it as a sub type. -/
inductive Tagged (env : Env) (l : ResourceList) (n : Str) : DataType → Val → Prop
  | single {d v} : (∀ vs, v ≠ .list vs) → (∀ es, v ≠ .dict es) → Tagged env l n d v
  | array {d i vs} : d.items = some i → (∀ v ∈ vs, Tagged env l n (ofItems i) v) → Tagged env l n d (.list vs)
  | model {d i m es} : Is env d i → Has l n m → m.id = some i →
      (∀ k, m.discriminator = .str k → Dict.get? es k = some (.str i)) →
      (∀ b k, Has l n b → i ∈ b.subTypes → b.discriminator = .str k → Dict.get? es k = some (.str i)) →
      (∀ k p v, Dict.get? m.properties k = some p → Dict.get? es k = some v → Tagged env l n p.toDataType v) →
      (∀ b k p v, Has l n b → i ∈ b.subTypes → Dict.get? b.properties k = some p → Dict.get? es k = some v →
        Tagged env l n p.toDataType v) →
      Tagged env l n d (.dict es)

/-! ## the data types and models within reach -/

/-- a data type within reach; elements of arrays may repeat -/
inductive Reach (env : Env) (nullable : Prop) (d : DataType) : Prop
  | basic (ty) : d.type = some ty → env.prim ty = true → Absent d.ref → d.items = none → Basic (env.lower ty) d.format d.enum →
      Limited env (env.lower ty) d.minimum → Limited env (env.lower ty) d.maximum →
      (∀ v, d.defaultValue = some v → v = .none ∨ Proper nullable v) → Reach env nullable d
  | array (ty i) : d.type = some ty → env.prim ty = true → env.lower ty = c!"array" → Absent d.ref → d.items = some i →
      ((∃ tj, i.type = some tj ∧ env.prim tj = true ∧ Absent i.ref ∧ Basic (env.lower tj) i.format .none) ∨ ∃ x, Is env (ofItems i) x) →
      NoEnum d.enum → d.uniqueItems = .none ∨ d.uniqueItems = .bool false →
      (∀ v, d.defaultValue = some v → v = .none ∨ Proper nullable v) → Reach env nullable d
  | model (i) : Is env d i → (∀ v, d.defaultValue = some v → v = .none ∨ Proper nullable v) → Reach env nullable d

/-- the model `b` of the resource `n'` lists the model `m` of the resource `n` as a sub type -/
def Base (env : Env) (l : ResourceList) (n : Str) (m : Model) (n' : Str) (b : Model) : Prop :=
  Has l n' b ∧ ∃ t ∈ b.subTypes, keyOf env (rfcEscape n) m = qualified env.sep (rfcEscape n') t

/-- A model within reach: it has a name of its own. A discriminator is a property that is a text. A sub type requires a
property of its own, and has none of the properties of its bases; these have no common properties and are no sub types.
Sub types have names. -/
structure Modelled (env : Env) (l : ResourceList) (nullable : Prop) (n : Str) (m : Model) : Prop where
  id : ∃ i, m.id = some i ∧ i ≠ []
  alone : ∀ n' m', Has l n' m' → keyOf env (rfcEscape n') m' = keyOf env (rfcEscape n) m → n' = n ∧ m' = m
  properties : ∀ e ∈ m.properties, Reach env nullable e.2.toDataType
  discriminator : ∀ k, m.discriminator = .str k → ∃ p ty, Dict.get? m.properties k = some p ∧ p.type = some ty ∧ env.prim ty = true ∧
    env.lower ty = c!"string" ∧ Absent p.ref ∧ p.format = none ∧ NoEnum p.enum
  subTypes : ∀ t ∈ m.subTypes, t ≠ []
  kept : (∃ n' b, Base env l n m n' b) → ∃ k p, Requires m k ∧ Dict.get? m.properties k = some p
  flat : ∀ n' b, Base env l n m n' b → ∀ n'' c, ¬ Base env l n' b n'' c
  apart : ∀ n' b, Base env l n m n' b → ∀ k p, Dict.get? m.properties k = some p → Dict.get? b.properties k = none
  apart' : ∀ n' b n'' c, Base env l n m n' b → Base env l n m n'' c → n' = n'' ∧ b = c ∨
    ∀ k p, Dict.get? b.properties k = some p → Dict.get? c.properties k = none

/-- the names of resources and models do not contain the first character of the separator of the library -/
structure Separate (env : Env) (l : ResourceList) : Prop where
  sep : env.sep = c!"!##!"
  resources : ∀ n r, (n, r) ∈ l.apis → '!' ∉ n
  ids : ∀ n m i, Has l n m → m.id = some i → '!' ∉ i

/-- all models are within reach -/
def All (env : Env) (l : ResourceList) (nullable : Prop) : Prop := ∀ n m, Has l n m → Modelled env l nullable n m

end Spec.Model12
