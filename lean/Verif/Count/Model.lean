import Verif.GoLib

/-
Model of the field counter, /repo/internal/json/field.go.

The Go functions loop until the input ends; the model counts the calls and rounds (`Nat`)
and gives `none` if the count does not suffice (C36 shows that it always does). Errors
are reduced to whether `errors.Is(err, io.EOF)` holds; their texts are left out.
-/

namespace Verif.Count
open Go

/-- The functions of package unicode and `strings.ToLower` that are used. -/
structure Uni where
  isDigit : Nat → Bool
  isLetter : Nat → Bool
  toLower : Bytes → Bytes

/-- `FieldCounter` (internal/json/field.go:20-25); of the `bytes.Reader` the unread input
and, if the last operation was a successful `ReadRune`, the input before it. -/
structure Ctr where
  counts : Map Bytes Nat := []
  loc : Nat := 0
  recent : List Nat := []
  rest : Bytes := []
  prev : Option Bytes := none

/-- An `error` value: nil, `errFinished` (internal/json/field.go:368) or another error,
with the answer to `errors.Is(err, io.EOF)`. -/
inductive Sig
  | ok
  | finished
  | failed (eof : Bool)
deriving DecidableEq

/-- `NewFieldCounter` (internal/json/field.go:28-33). -/
def new (src : Bytes) : Ctr := { rest := src }

/-- `readRune` (internal/json/field.go:387-400); `none` is io.EOF, the only error of a
`bytes.Reader`. -/
def readRune (c : Ctr) : Ctr × Option Nat :=
  match decodeRune c.rest with
  | none => ({ c with prev := none }, none)
  | some (r, w) =>
    let r := if r = 0x0A then 0x20 else r
    let recent := c.recent ++ [r]
    ({ c with
        rest := c.rest.drop w
        prev := some c.rest
        loc := c.loc + 1
        recent := if recent.length > 15 then recent.drop 5 else recent }, some r)

/-- `unreadRune` (internal/json/field.go:402-411). -/
def unreadRune (c : Ctr) : Ctr × Sig :=
  match c.prev with
  | none => (c, .failed false)
  | some s =>
    let c := { c with rest := s, prev := none }
    if c.recent.length > 0 then ({ c with loc := c.loc - 1, recent := c.recent.dropLast }, .ok)
    else (c, .ok)

/-- `readLoop` (internal/json/field.go:370-385); `σ` are the variables of the caller that
the function literal changes. -/
def readLoop {σ : Type} : Nat → (σ → Nat → Ctr → Option (σ × Ctr × Sig)) → σ → Ctr → Option (σ × Ctr × Sig)
  | 0, _, _, _ => none
  | n + 1, fn, st, c =>
    match readRune c with
    | (c, none) => some (st, c, .ok)
    | (c, some r) =>
      match fn st r c with
      | none => none
      | some (st, c, .finished) => some (st, c, .ok)
      | some (st, c, .failed eof) => some (st, c, .failed eof)
      | some (st, c, .ok) => readLoop n fn st c

/-- `wrapCallError` without status (internal/json/field.go:413-427). -/
def wrap (finished : Bool) : Sig → Sig
  | .ok => if finished then .finished else .ok
  | s => s

/-- The reading that `String` does for an error message (internal/json/field.go:91-103). -/
def peek : Nat → Ctr → Ctr
  | 0, c => c
  | n + 1, c =>
    match readRune c with
    | (c, some _) => peek n c
    | (c, none) => c

/-- `wrapCallError` with status (internal/json/field.go:413-427): the message of an error
includes the counter itself, whose `String` reads on. -/
def wrapStatus (c : Ctr) : Sig → Ctr × Sig
  | .ok => (c, .finished)
  | .finished => (c, .finished)
  | .failed eof => (peek 15 c, .failed eof)

/-- `parseKeyword` (internal/json/field.go:212-226). -/
def parseKeyword (U : Uni) (n : Nat) (first : Nat) (c : Ctr) : Option (Bytes × Ctr × Sig) :=
  readLoop n (fun kw r c =>
    if U.isLetter r then some (kw ++ Utf8.encode r, c, .ok)
    else match unreadRune c with
      | (c, .ok) => some (kw, c, .finished)
      | (c, e) => some (kw, c, wrap false e)) (Utf8.encode first) c

/-- What `parseNumber` remembers (internal/json/field.go:229-231). -/
structure Num where
  decimal : Bool := false
  exponent : Bool := false
  sign : Bool := false

/-- The function literal of `parseNumber` (internal/json/field.go:232-265). -/
def numberBody (U : Uni) (st : Num) (r : Nat) (c : Ctr) : Option (Num × Ctr × Sig) :=
  if U.isDigit r then some (st, c, .ok)
  else if r = 0x2E then
    if st.exponent then some (st, c, .failed false)
    else if st.decimal then some (st, c, .failed false)
    else some ({ st with decimal := true }, c, .ok)
  else if r = 0x65 ∨ r = 0x45 then
    if st.exponent then some (st, c, .failed false)
    else some ({ st with exponent := true }, c, .ok)
  else if r = 0x2D ∨ r = 0x2B then
    if !st.exponent then some (st, c, .failed false)
    else if st.sign then some (st, c, .failed false)
    else some ({ st with sign := true }, c, .ok)
  else match unreadRune c with
    | (c, .ok) => some (st, c, .finished)
    | (c, e) => some (st, c, wrap false e)

/-- `parseNumber` (internal/json/field.go:228-266). -/
def parseNumber (U : Uni) (n : Nat) (c : Ctr) : Option (Num × Ctr × Sig) :=
  readLoop n (numberBody U) {} c

/-- The function literal of `parseString` (internal/json/field.go:304-321). -/
def stringBody (b : Bytes) (r : Nat) (c : Ctr) : Option (Bytes × Ctr × Sig) :=
  if r = 0x5C then
    match readRune c with
    | (c, none) => some (b ++ Utf8.encode r, c, .failed true)
    | (c, some e) => some (b ++ Utf8.encode r ++ Utf8.encode e, c, .ok)
  else if r = 0x22 then some (b, c, .finished)
  else some (b ++ Utf8.encode r, c, .ok)

/-- `parseString` (internal/json/field.go:302-323). -/
def parseString (n : Nat) (c : Ctr) : Option (Bytes × Ctr × Sig) := readLoop n stringBody [] c

/-- `goodKeywords` (internal/json/field.go:325-329). -/
def goodKeyword (s : Bytes) : Bool := s == b!"true" || s == b!"false" || s == b!"null"

/-- `runeKeywords` (internal/json/field.go:331-338). -/
def runeKeyword (r : Nat) : Bool :=
  r == 0x74 || r == 0x54 || r == 0x66 || r == 0x46 || r == 0x6E || r == 0x4E

/-- A parser called by another one. -/
abbrev Parser := Ctr → Option (Ctr × Sig)

/-- What a nested parser returned, wrapped. -/
def nested {σ : Type} (st : σ) (finished : Bool) : Option (Ctr × Sig) → Option (σ × Ctr × Sig)
  | none => none
  | some (c, s) => some (st, c, wrap finished s)

/-- The function literal of `parseArray` (internal/json/field.go:156-177); the state is
expectComma. -/
def arrayBody (pv : Parser) (expectComma : Bool) (r : Nat) (c : Ctr) : Option (Bool × Ctr × Sig) :=
  if isSpace r then some (expectComma, c, .ok)
  else if r = 0x2C then
    if expectComma then some (false, c, .ok) else some (expectComma, c, .failed false)
  else if r = 0x5D then some (expectComma, c, .finished)
  else if expectComma then some (expectComma, c, .failed false)
  else match unreadRune c with
    | (c, .ok) => nested true false (pv c)
    | (c, e) => some (expectComma, c, wrap false e)

/-- The function literal of `parseField` (internal/json/field.go:182-209); the state is
expectColon. -/
def fieldBody (po : Bool → Parser) (pa pv : Parser) (field : Bytes) (expectColon : Bool) (r : Nat) (c : Ctr) :
    Option (Bool × Ctr × Sig) :=
  if isSpace r then some (expectColon, c, .ok)
  else if r = 0x3A then
    if expectColon then some (false, c, .ok) else some (expectColon, c, .failed false)
  else if expectColon then some (expectColon, c, .failed false)
  else if r = 0x7B then
    if field = b!"fields" then nested expectColon true (po true { c with counts := c.counts.del field })
    else nested expectColon true (po false c)
  else if r = 0x5B then nested expectColon true (pa c)
  else match unreadRune c with
    | (c, .ok) => nested expectColon true (pv c)
    | (c, e) => some (expectColon, c, wrap false e)

/-- The function literal of `parseObject` (internal/json/field.go:270-299); the state is
expectComma. -/
def objectBody (n : Nat) (pf : Bytes → Parser) (countFields : Bool) (expectComma : Bool) (r : Nat) (c : Ctr) :
    Option (Bool × Ctr × Sig) :=
  if isSpace r then some (expectComma, c, .ok)
  else if r = 0x2C then
    if expectComma then some (false, c, .ok) else some (expectComma, c, .failed false)
  else if r = 0x22 then
    if expectComma then some (expectComma, c, .failed false)
    else match parseString n c with
      | none => none
      | some (field, c, .ok) =>
        nested true false
          (pf field (if countFields then { c with counts := c.counts.set field ((c.counts.get field).getD 0 + 1) } else c))
      | some (_, c, e) => some (expectComma, c, wrap false e)
  else if r = 0x7D then some (expectComma, c, .finished)
  else some (expectComma, c, .failed false)

/-- The function literal of `parseValue` (internal/json/field.go:341-365). -/
def valueBody (U : Uni) (n : Nat) (po : Bool → Parser) (pa : Parser) (_ : Unit) (r : Nat) (c : Ctr) :
    Option (Unit × Ctr × Sig) :=
  if isSpace r then some ((), c, .ok)
  else if runeKeyword r then
    match parseKeyword U n r c with
    | none => none
    | some (kw, c, .ok) =>
      if !goodKeyword (U.toLower kw) then some ((), c, .failed false) else some ((), c, .finished)
    | some (_, c, e) => some ((), c, wrap false e)
  else if r = 0x22 then
    match parseString n c with
    | none => none
    | some (_, c, e) => some ((), c, wrap true e)
  else if U.isDigit r || r == 0x2D then
    match parseNumber U n c with
    | none => none
    | some (_, c, e) => some ((), c, wrap true e)
  else if r = 0x5B then nested () true (pa c)
  else if r = 0x7B then nested () true (po false c)
  else some ((), c, .failed false)

/-- The caller does not see the variables of the loop. -/
def drop1 {σ : Type} : Option (σ × Ctr × Sig) → Option (Ctr × Sig)
  | none => none
  | some (_, c, s) => some (c, s)

mutual
/-- `parseObject` (internal/json/field.go:268-300). -/
def parseObject (U : Uni) : Nat → Bool → Parser
  | 0, _, _ => none
  | n + 1, countFields, c => drop1 (readLoop (n + 1) (objectBody n (parseField U n) countFields) false c)
/-- `parseField` (internal/json/field.go:180-210). -/
def parseField (U : Uni) : Nat → Bytes → Parser
  | 0, _, _ => none
  | n + 1, field, c =>
    drop1 (readLoop (n + 1) (fieldBody (parseObject U n) (parseArray U n) (parseValue U n) field) true c)
/-- `parseArray` (internal/json/field.go:154-178). -/
def parseArray (U : Uni) : Nat → Parser
  | 0, _ => none
  | n + 1, c => drop1 (readLoop (n + 1) (arrayBody (parseValue U n)) false c)
/-- `parseValue` (internal/json/field.go:340-366). -/
def parseValue (U : Uni) : Nat → Parser
  | 0, _ => none
  | n + 1, c => drop1 (readLoop (n + 1) (valueBody U n (parseObject U n) (parseArray U n)) () c)
end

/-- The function literal of `Parse` (internal/json/field.go:138-151). -/
def parseBody (po : Bool → Parser) (_ : Unit) (r : Nat) (c : Ctr) : Option (Unit × Ctr × Sig) :=
  if isSpace r then some ((), c, .ok)
  else if r = 0x7B then
    match po true c with
    | none => none
    | some (c, s) =>
      match wrapStatus c s with
      | (c, .failed true) => some ((), c, .ok)
      | (c, s) => some ((), c, s)
  else some ((), c, .failed false)

/-- `Parse` (internal/json/field.go:137-152) with the number of rounds allowed. -/
def parseWith (U : Uni) (n : Nat) (c : Ctr) : Option (Ctr × Sig) :=
  drop1 (readLoop n (parseBody (parseObject U n)) () c)

/-- `Parse` (internal/json/field.go:137-152), with enough rounds. -/
def parse (U : Uni) (src : Bytes) : Option (Ctr × Sig) := parseWith U (2 * src.length + 4) (new src)

/-- `Duplicates` (internal/json/field.go:38-46): the entries above one. -/
def Ctr.duplicates (c : Ctr) : Map Bytes Nat := c.counts.filter fun e => e.2 > 1

/-- `Fields` (internal/json/field.go:50-57): the keys, sorted; `pick` is the order in
which the map is visited. -/
def Ctr.fields (S : Sorter) (pick : List Bytes → List Bytes) (c : Ctr) : List Bytes :=
  S.sort less (pick c.counts.keys)

/-- `NumFields` (internal/json/field.go:60-62). -/
def Ctr.numFields (c : Ctr) : Nat := c.counts.length

end Verif.Count
