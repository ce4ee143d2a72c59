import Verif.Spec.JsonParse

/-
Specification: the texts that Go quoting and JSON quoting have in common.
-/

namespace Verif.Json

/-- Characters of one byte whose Go and JSON escapes agree: no control
characters except backspace, tab, newline, form feed, carriage return; no DEL. -/
def commonByte (a : UInt8) : Bool :=
  (0x20 ≤ a && a < 0x7F) || a == 0x08 || a == 0x09 || a == 0x0A || a == 0x0C || a == 0x0D

/-- Well-formed UTF-8 without control characters other than the five above, and
without unprintable characters beyond the basic plane. -/
inductive Quotable (isPrint : Nat → Bool) : Bytes → Prop
  | nil : Quotable isPrint []
  | byte {a s} : commonByte a = true → Quotable isPrint s → Quotable isPrint (a :: s)
  | two {a b s} : Utf8.lead2 a = true → Utf8.cont b = true → Quotable isPrint s →
      Quotable isPrint (a :: b :: s)
  | three {a b c s} : Utf8.lead3 a b = true → Utf8.cont c = true → Quotable isPrint s →
      Quotable isPrint (a :: b :: c :: s)
  | four {n s} : 0x10000 ≤ n → n < 0x110000 → isPrint n = true → Quotable isPrint s →
      Quotable isPrint (Utf8.encode n ++ s)

end Verif.Json
