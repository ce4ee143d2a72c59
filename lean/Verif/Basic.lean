/-
Byte strings. Go `string` and `[]byte` values are modelled as `List UInt8`.
-/

namespace Verif

/-- Go strings and byte slices: arbitrary bytes, not necessarily UTF-8. -/
abbrev Bytes := List UInt8

open Lean in
/-- `b!"text"` is the explicit list of the UTF-8 bytes of the literal. -/
macro:max "b!" s:str : term => do
  let elems ← s.getString.toUTF8.toList.toArray.mapM fun x =>
    `(($(quote x.toNat) : UInt8))
  `(([$elems,*] : List UInt8))

end Verif
