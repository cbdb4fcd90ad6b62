import Verif.Spec.Conform
import Verif.Props.C30
import Verif.Model.Reply
/-!
# Replies, said about the document (C80)

Shared with the models: the interfaces of codecs (C30).
-/

namespace Spec.Reply
open Py Tree

/-- the declaration of a header, written under a name -/
def headerAt (q : Dict Str Tree) (k : Str) : Option Tree :=
  match Dict.get? q c!"headers" with
  | some (.dict d) => Dict.get? d k
  | _ => none

/-- the entry for a status: its own, else `default` -/
def entryFor {α : Type} (l : Dict Str α) (n : Int) : Option α :=
  match Dict.get? l (toString n).toList with
  | some a => some a
  | none => Dict.get? l c!"default"

/-- the media type is read as JSON: a type name, blanks around it, parameters after a semicolon, and the codec in force
for the name after any history of the registry (C30) is the one for JSON -/
def JsonType (o : Reply.Outside) (ct : Str) : Prop :=
  ∃ es a m b params, o.codecs = es.foldl (Props.C30.step o.text) (Codec.init o.text .plain .json) ∧
    (∀ x ∈ a, o.text.blank x = true) ∧ (∀ x ∈ b, o.text.blank x = true) ∧
    (∀ x, m.head? = some x → o.text.blank x = false) ∧ (∀ x, m.getLast? = some x → o.text.blank x = false) ∧
    ';' ∉ a ++ m ++ b ∧ (params = [] ∨ ∃ q, params = ';' :: q) ∧ ct = a ++ m ++ b ++ params ∧
    Props.C30.inForce o.text m none ([Props.C30.Event.register c!"text/plain" .plain,
      .register c!"application/json" .json, .register c!"text/json" .json] ++ es) = some .json

end Spec.Reply
