import Verif.Py.Basic
/-! # RFC 6901 escaping, written as single-pass functions (specification side of C01) -/

namespace Spec
open Py

/-- RFC 6901, section 3: '~' is written `~0`, '/' is written `~1`. -/
def rfcEscape : Str → Str
  | [] => []
  | '~' :: s => '~' :: '0' :: rfcEscape s
  | '/' :: s => '~' :: '1' :: rfcEscape s
  | c :: s => c :: rfcEscape s

/-- RFC 6901, section 4, as one left-to-right pass; a '~' not starting an escape is kept. -/
def rfcUnescape : Str → Str
  | [] => []
  | '~' :: '0' :: s => '~' :: rfcUnescape s
  | '~' :: '1' :: s => '/' :: rfcUnescape s
  | c :: s => c :: rfcUnescape s

end Spec
