import Verif.Py.Calendar
import Verif.Model.Render
import Verif.Model.Byte
import Verif.Model.Uuid
import Verif.Model.Iso8601
/-!
# `pyswagger/primitives/render.py`: bytes, UUIDs, dates, moments and files

What the generators return is what the constructors of `Model/Byte.lean`, `Model/Uuid.lean` and `Model/Iso8601.lean` take. `val` is the
text of the allowed values that was picked, if any; values other than texts are not modelled here.
-/

namespace Render
open Py Prim

/-- `if val` of a text, or of nothing -/
def given : Option Str → Option Str
  | some (c :: s) => some (c :: s)
  | _ => none

/-- `pyswagger/primitives/render.py`:93-96 `_byte_`; `max` is the option `max_byte_length`. -/
def makeByte (max : Nat) (val : Option Str) : Gen Byte.Input :=
  match given val with
  | some s => .ret (.text s)
  | none => (randint 0 max).bind fun n => (text letters n.toNat).bind fun s => .ret (.bytes (utf8 (b64encode false (utf8 s))))

/-- `pyswagger/primitives/render.py`:70-71 `_uuid_`: the number of the UUID. -/
def makeUuid (val : Option Str) : Gen Nat :=
  match given val with
  | some s =>
    match Py.Uuid.ofText s with
    | .ok n => .ret n
    | .error e => .fail e
  | none => uuid4

/-- `pyswagger/primitives/render.py`:98-103 `_date_`. -/
def makeDate (tz : Int) (val : Option Str) : Gen Date :=
  match given val with
  | some s =>
    match Utils.from_iso8601 s with
    | .ok t => .ret t.date
    | .error e => .fail e
  | none => (uniform (mktime tz ⟨1970, 1, 2⟩) (mktime tz ⟨2038, 1, 19⟩)).bind fun q => .ret (dateAt tz q)

/-- `pyswagger/primitives/render.py`:105-110 `_date_time_`. The limits are local midnights, for `utctimetuple` of a moment without
offset has its fields unchanged. -/
def makeDatetime (tz : Int) (val : Option Str) : Gen DateTime :=
  match given val with
  | some s =>
    match Utils.from_iso8601 s with
    | .ok t => .ret t
    | .error e => .fail e
  | none => (uniform (mktime tz ⟨1970, 1, 2⟩) (mktime tz ⟨2038, 1, 19⟩)).bind fun q => .ret (utcAt q)

/-- `pyswagger/primitives/render.py`:112-124 `_file_`; `files` and `max` are the options `files` (`None` counts as empty) and
`max_file_length`, `stream` is the new file-like object over a text. An allowed value is not looked at. -/
def makeFile (stream : Str → Val) (files : List Val) (max : Nat) : Gen Val :=
  if files.length > 0 then choice .none files
  else (randint 0 max).bind fun n => (text letters n.toNat).bind fun s =>
    .ret (.dict [(c!"header", .dict [(c!"Content-Type", .str c!"text/plain"), (c!"Content-Transfer-Encoding", .str c!"binary")]),
      (c!"filename", .str []), (c!"data", stream s)])

end Render
