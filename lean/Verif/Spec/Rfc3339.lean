import Verif.Spec.Iso8601
/-!
# RFC 3339, section 5.6: `full-date` and `date-time`

What the formats `date` and `date-time` stand for in the Swagger specification. Unlike the ISO 8601
texts that `from_iso8601` reads, a `date-time` always has seconds and an offset.
-/

namespace Spec.Rfc3339
open Py Spec.Iso

/-- the text is the `full-date` of this day -/
def FullDate (s : Str) (d : Date) : Prop :=
  ∃ y m a, Digits 4 y ∧ Digits 2 m ∧ Digits 2 a ∧ s = y ++ '-' :: (m ++ '-' :: a) ∧
    d = ⟨natOf y, natOf m, natOf a⟩ ∧ d.Valid

/-- a numeric offset is at most 23:59 -/
def OffsetOk : Tz → Prop
  | .utc => True
  | .plus hh mm => natOf hh ≤ 23 ∧ natOf mm ≤ 59
  | .minus hh mm => natOf hh ≤ 23 ∧ natOf mm ≤ 59

/-- the text is a `date-time` for these calendar fields: two digits of seconds, an offset -/
def DateTimeText (s : Str) (t : DateTime) : Prop :=
  ∃ (y mo d h mi sec : Str) (f : Option Str) (z : Tz),
    Digits 4 y ∧ Digits 2 mo ∧ Digits 2 d ∧ Digits 2 h ∧ Digits 2 mi ∧ Digits 2 sec ∧
    (∀ f', f = some f' → ∃ k, 1 ≤ k ∧ k ≤ 6 ∧ Digits k f') ∧ z.WF ∧ OffsetOk z ∧
    s = (Text.mk y mo d (some ⟨h, mi, some (sec, f), some z⟩)).render ∧
    t = (Text.mk y mo d (some ⟨h, mi, some (sec, f), some z⟩)).value ∧ t.Valid

end Spec.Rfc3339
