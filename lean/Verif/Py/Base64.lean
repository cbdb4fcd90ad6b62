import Verif.Py.Bytes
/-! # `base64.standard_b64encode`, `base64.urlsafe_b64encode` -/

namespace Py

/-- The alphabet; the two last characters are `+/` (standard) or `-_` (URL-safe). -/
def b64Char (urlsafe : Bool) (n : Nat) : Char :=
  if n < 26 then Char.ofNat (65 + n)
  else if n < 52 then Char.ofNat (71 + n)
  else if n < 62 then Char.ofNat (n - 4)
  else if n = 62 then (if urlsafe then '-' else '+')
  else (if urlsafe then '_' else '/')

/-- `standard_b64encode` / `urlsafe_b64encode`, as the ASCII text of the result. -/
def b64encode (urlsafe : Bool) : Bytes → Str
  | [] => []
  | [a] =>
    [b64Char urlsafe (a.toNat / 4), b64Char urlsafe (a.toNat % 4 * 16), '=', '=']
  | [a, b] =>
    [b64Char urlsafe (a.toNat / 4), b64Char urlsafe (a.toNat % 4 * 16 + b.toNat / 16),
     b64Char urlsafe (b.toNat % 16 * 4), '=']
  | a :: b :: c :: rest =>
    b64Char urlsafe (a.toNat / 4) :: b64Char urlsafe (a.toNat % 4 * 16 + b.toNat / 16) ::
    b64Char urlsafe (b.toNat % 16 * 4 + c.toNat / 64) :: b64Char urlsafe (c.toNat % 64) ::
    b64encode urlsafe rest

end Py
