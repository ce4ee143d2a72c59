import Verif.Basic

/-
Model of the `log/slog` data types the handlers work on (Go standard library),
together with the standard-library formatting functions they call.

Values that Go hands out behind interfaces are represented by the results of
the calls the handlers make on them (`Obj`): which of the interfaces
`fmt.Stringer`, `error`, `json.Marshaler`, `encoding.TextMarshaler` the dynamic
value implements, what the method returns, and what `json.Marshal` returns.
Methods that panic are outside the model.
-/

namespace Verif.Slog

/-- Result of a call that can fail: the text, or the error message. -/
inductive Res
  | ok (text : Bytes)
  | error (msg : Bytes)
deriving DecidableEq

/-- A dynamic value as seen through the calls made on it by
`addAny` (/repo/handlers/flash/composer.go:127-149,
/repo/handlers/sloggy/composer.go:152-180). -/
structure Obj where
  /-- `String()` of a `net.IP`, `net.IPNet` or `net.HardwareAddr` value. -/
  net : Option Bytes := none
  /-- `String()` if the value is a `fmt.Stringer`. -/
  stringer : Option Bytes := none
  /-- `Error()` if the value is an `error`. -/
  error : Option Bytes := none
  /-- `MarshalJSON()` if the value is a `json.Marshaler`. -/
  jsonM : Option Res := none
  /-- `MarshalText()` if the value is an `encoding.TextMarshaler`. -/
  textM : Option Res := none
  /-- `json.Marshal(value)`. -/
  marshal : Res
deriving DecidableEq

/-- Contents of a Go `any`. -/
inductive AnyVal
  | nil
  | obj (o : Obj)
deriving DecidableEq

/-- A float64 as `strconv.AppendFloat(f, 'f', -1, 64)` shows it: a finite value
is a sign, an integer part and fraction digits. -/
inductive F64
  | fin (neg : Bool) (ip : Nat) (frac : List (Fin 10))
  | nan
  | posInf
  | negInf
deriving DecidableEq

mutual
/-- `slog.Value`, one constructor per kind (log/slog/value.go). A `LogValuer`
carries the dynamic value and what its `LogValue` method returns; chains are
finite (slog gives up after 100 steps and substitutes an error value). Times
are opaque instants. -/
inductive Value
  | any (a : AnyVal)
  | bool (b : Bool)
  | duration (ns : Int)
  | float64 (f : F64)
  | int64 (i : Int)
  | string (s : Bytes)
  | time (t : Nat)
  | uint64 (n : Nat)
  | group (as : List Attr)
  | logValuer (o : Obj) (r : Value)
/-- `slog.Attr`. -/
inductive Attr
  | mk (key : Bytes) (value : Value)
end

namespace Attr
/-- `attr.Key`. -/
def key : Attr → Bytes | .mk k _ => k
/-- `attr.Value`. -/
def value : Attr → Value | .mk _ v => v
/-- `slog.Group(key, attrs...)` with the members given. -/
def grp (k : Bytes) (as : List Attr) : Attr := .mk k (.group as)
@[simp] theorem key_mk (k v) : (Attr.mk k v).key = k := rfl
@[simp] theorem value_mk (k v) : (Attr.mk k v).value = v := rfl
end Attr

/-- `infra.EmptyAttr()` (/repo/infra/attributes.go:11-13): the zero attribute. -/
def emptyAttr : Attr := .mk [] (.any .nil)

/-- `attr.Equal(infra.EmptyAttr())`: empty key and the nil `any` value
(log/slog/attr.go `Attr.Equal`, value.go `Value.Equal`). -/
def Attr.isEmpty : Attr → Bool
  | .mk [] (.any .nil) => true
  | _ => false

/-- `value.Resolve()` (log/slog/value.go): follow `LogValue` to the end. -/
def Value.resolve : Value → Value
  | .logValuer _ r => r.resolve
  | v => v

/-- `value.Kind() == slog.KindLogValuer`. -/
def Value.isLogValuer : Value → Bool
  | .logValuer _ _ => true
  | _ => false

/-- `value.Kind() == slog.KindGroup`. -/
def Value.isGroup : Value → Bool
  | .group _ => true
  | _ => false

/-- Decimal digits of a natural number (`strconv.AppendUint(_, n, 10)`). -/
def decNat (n : Nat) : Bytes :=
  if n < 10 then [UInt8.ofNat (0x30 + n)] else decNat (n / 10) ++ [UInt8.ofNat (0x30 + n % 10)]

/-- `strconv.AppendInt(_, i, 10)`. -/
def decInt : Int → Bytes
  | .ofNat n => decNat n
  | .negSucc n => 0x2D :: decNat (n + 1)

/-- `strconv.AppendFloat(_, f, 'f', -1, 64)`. -/
def F64.text : F64 → Bytes
  | .fin neg ip frac =>
    (if neg then [0x2D] else []) ++ decNat ip ++
      (if frac.isEmpty then [] else 0x2E :: frac.map fun d => UInt8.ofNat (0x30 + d.val))
  | .nan => b!"NaN"
  | .posInf => b!"+Inf"
  | .negInf => b!"-Inf"

/-- Standard-library functions and run-time facts the handlers depend on. -/
structure Env where
  /-- `t.Format(layout)`. -/
  formatTime : Bytes → Nat → Bytes
  /-- `time.Time.String()`. -/
  timeString : Nat → Bytes
  /-- `time.Duration.String()`. -/
  durationString : Int → Bytes
  /-- `json.Marshal` of a string. -/
  marshalString : Bytes → Bytes
  /-- `json.Marshal` of a float64. -/
  marshalFloat : F64 → Res
  /-- `json.Marshal` of a `[]slog.Attr`. -/
  marshalAttrs : List Attr → Res
  /-- Function, file and line of a program counter (`runtime.CallersFrames`). -/
  frame : Nat → Bytes × Bytes × Nat
  /-- `strconv.IsPrint` on code points from 0x80 on. -/
  isPrint : Nat → Bool
  /-- How deeply rendering may recurse before the goroutine stack overflows. -/
  stack : Nat

/-- The dynamic value `value.Any()` returns (log/slog/value.go `Any`). -/
def Value.anyOf (env : Env) : Value → AnyVal
  | .any a => a
  | .bool b => .obj { marshal := .ok (if b then b!"true" else b!"false") }
  | .duration d =>
    .obj { stringer := some (env.durationString d), marshal := .ok (decInt d) }
  | .float64 f => .obj { marshal := env.marshalFloat f }
  | .int64 i => .obj { marshal := .ok (decInt i) }
  | .string s => .obj { marshal := .ok (env.marshalString s) }
  | .time t =>
    .obj { stringer := some (env.timeString t),
           marshal := .ok (env.marshalString (env.timeString t)) }
  | .uint64 n => .obj { marshal := .ok (decNat n) }
  | .group as => .obj { marshal := env.marshalAttrs as }
  | .logValuer o _ => .obj o

/-- `slog.Record`; a zero time is `none` and a zero program counter 0. -/
structure Record where
  time : Option Nat
  level : Int
  message : Bytes
  pc : Nat := 0
  attrs : List Attr := []

/-- The levels `slog.LevelDebug`, `LevelInfo`, `LevelWarn`, `LevelError`. -/
def levelDebug : Int := -4
/-- `slog.LevelInfo`. -/
def levelInfo : Int := 0
/-- `slog.LevelWarn`. -/
def levelWarn : Int := 4
/-- `slog.LevelError`. -/
def levelError : Int := 8

/-- The offset shown after a base level name: nothing for 0, else with sign (`%+d`). -/
def levelOffset (v : Int) : Bytes :=
  if v = 0 then [] else if v < 0 then decInt v else 0x2B :: decInt v

/-- `slog.Level.String()` (log/slog/level.go). -/
def levelString (l : Int) : Bytes :=
  if l < levelInfo then b!"DEBUG" ++ levelOffset (l - levelDebug)
  else if l < levelWarn then b!"INFO" ++ levelOffset (l - levelInfo)
  else if l < levelError then b!"WARN" ++ levelOffset (l - levelWarn)
  else b!"ERROR" ++ levelOffset (l - levelError)

/-- A `ReplaceAttr` function (`infra.AttrFn`, /repo/infra/attributes.go). -/
abbrev AttrFn := List Bytes → Attr → Attr

/-- A derivation step: `WithAttrs(as)` or `WithGroup(name)`. -/
inductive Op
  | attrs (as : List Attr)
  | group (name : Bytes)

end Verif.Slog
