import Verif.Spec.Service
/-!
# The names of operations (C88)

What a JSON document calls an operation: by its `operationId`, within the first of its `tags` (`docs/md/ref/app.md`). Said
about the dict written for the operation.
-/

namespace Spec.Index
open Py Tree

/-- the tags and the operation id of an operation -/
structure Label where
  tags : List Str := []
  id : Option Str := none

/-- the dict of the operation says this; no tags and a null for them are the same -/
structure Label.In (l : Label) (q : Dict Str Tree) : Prop where
  tags : Service.Texts q c!"tags" l.tags ∨ Dict.get? q c!"tags" = some (.atom .none) ∧ l.tags = []
  id : Service.Maybe q c!"operationId" l.id

/-- `Calls sep q n`: the operation written as `q` is called `n`. Without an id an operation has no name; an empty tag is
no tag, an empty id is no id. -/
inductive Calls (sep : Str) (q : Dict Str Tree) : Str → Prop
  | alone (l : Label) (i : Str) : l.In q → l.id = some i → i ≠ [] → (∀ t, l.tags.head? = some t → t = []) → Calls sep q i
  | tagged (l : Label) (t i : Str) : l.In q → l.id = some i → i ≠ [] → l.tags.head? = some t → t ≠ [] →
      Calls sep q (t ++ sep ++ i)

end Spec.Index
