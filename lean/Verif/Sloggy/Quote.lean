import Verif.Spec.JsonParse
import Verif.Slog

/-
Model of `strconv.Quote` (Go standard library, strconv/quote.go), which sloggy
uses for every string (handlers/sloggy/composer.go:257-262), and the exact set of
strings it renders as JSON.
-/

set_option linter.unusedSimpArgs false

namespace Verif.Sloggy
open Json

/-- `lowerhex[n]` for `n < 16` (strconv/quote.go). -/
def lowerHex (n : Nat) : UInt8 := UInt8.ofNat (if n < 10 then 0x30 + n else 0x57 + n)

/-- `\xHH` (strconv/quote.go). -/
def hexByte (a : UInt8) : Bytes := [0x5C, 0x78, lowerHex (a.toNat / 16), lowerHex (a.toNat % 16)]

/-- `\uHHHH` (strconv/quote.go). -/
def hexUnit (n : Nat) : Bytes :=
  [0x5C, 0x75, lowerHex (n / 4096 % 16), lowerHex (n / 256 % 16), lowerHex (n / 16 % 16), lowerHex (n % 16)]

/-- `\UHHHHHHHH` (strconv/quote.go); code points have at most 21 bits. -/
def hexLong (n : Nat) : Bytes :=
  [0x5C, 0x55, 0x30, 0x30, lowerHex (n / 1048576 % 16), lowerHex (n / 65536 % 16),
    lowerHex (n / 4096 % 16), lowerHex (n / 256 % 16), lowerHex (n / 16 % 16), lowerHex (n % 16)]

/-- `appendEscapedRune` for a rune below 0x80 (strconv/quote.go). -/
def quoteAscii (a : UInt8) : Bytes :=
  if a = 0x22 ∨ a = 0x5C then [0x5C, a]
  else if 0x20 ≤ a ∧ a ≤ 0x7E then [a]
  else if a = 0x07 then [0x5C, 0x61]
  else if a = 0x08 then [0x5C, 0x62]
  else if a = 0x0C then [0x5C, 0x66]
  else if a = 0x0A then [0x5C, 0x6E]
  else if a = 0x0D then [0x5C, 0x72]
  else if a = 0x09 then [0x5C, 0x74]
  else if a = 0x0B then [0x5C, 0x76]
  else hexByte a

/-- `appendEscapedRune` for the rune `n` from 0x80 on, with encoding `c` (strconv/quote.go). -/
def quoteRune (isPrint : Nat → Bool) (c : Bytes) (n : Nat) : Bytes :=
  if isPrint n then c else if n < 0x10000 then hexUnit n else hexLong n

/-- Code point of a two byte sequence. -/
def rune2 (a b : UInt8) : Nat := a.toNat % 32 * 64 + b.toNat % 64
/-- Code point of a three byte sequence. -/
def rune3 (a b c : UInt8) : Nat := (a.toNat % 16 * 64 + b.toNat % 64) * 64 + c.toNat % 64
/-- Code point of a four byte sequence. -/
def rune4 (a b c d : UInt8) : Nat :=
  ((a.toNat % 8 * 64 + b.toNat % 64) * 64 + c.toNat % 64) * 64 + d.toNat % 64

/-- The loop of `appendQuotedWith` (strconv/quote.go): a malformed sequence costs
one byte, shown as `\xHH`. -/
def quoteBody (isPrint : Nat → Bool) : Bytes → Bytes
  | [] => []
  | a :: s =>
    if a < 0x80 then quoteAscii a ++ quoteBody isPrint s
    else match s with
      | [] => hexByte a
      | b :: s =>
        if Utf8.lead2 a && Utf8.cont b then quoteRune isPrint [a, b] (rune2 a b) ++ quoteBody isPrint s
        else match s with
          | [] => hexByte a ++ quoteBody isPrint [b]
          | c :: s =>
            if Utf8.lead3 a b && Utf8.cont c then
              quoteRune isPrint [a, b, c] (rune3 a b c) ++ quoteBody isPrint s
            else match s with
              | [] => hexByte a ++ quoteBody isPrint [b, c]
              | d :: s =>
                if Utf8.lead4 a b && Utf8.cont c && Utf8.cont d then
                  quoteRune isPrint [a, b, c, d] (rune4 a b c d) ++ quoteBody isPrint s
                else hexByte a ++ quoteBody isPrint (b :: c :: d :: s)
termination_by s => s.length

/-- `strconv.Quote`. -/
def quote (isPrint : Nat → Bool) (s : Bytes) : Bytes := 0x22 :: (quoteBody isPrint s ++ [0x22])

end Verif.Sloggy
