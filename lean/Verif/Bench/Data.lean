import Verif.Bench.Checks
import Verif.Flash.Options

/-
Model of the benchmarks of the suite: their data (/repo/bench/tests/data.go), their
definitions (/repo/bench/tests/benchmarks.go:57-257) and the part of `Run` that verifies
the output of one execution (/repo/bench/tests/suite.go:62-72, 127-141), for flash.

Simplifications: key/value arguments are given as the attributes `slog.Record.Add` makes
of them; a logger is a handler, and what it logs is a list of calls; errors of `Handle`
are ignored, as `slog.Logger` does; the data of the Logging benchmark (made at startup
from an embedded file, /repo/bench/tests/logging.go:29-56) is a parameter.
-/

namespace Verif.Bench
open Go Warning Slog Flash

/-- The float64 values the expected maps contain. -/
structure Nums (F : Type) where
  /-- `float64(i)`. -/
  ofInt : Int → F
  /-- `math.Pi`. -/
  pi : F

/-- `message` (bench/tests/utility.go:50). -/
def message : Bytes := b!"This is a message"

/-- `math.Pi` as a float64 (bench/tests/data.go:38): 3.141592653589793. -/
def piValue : F64 := .fin false 3 [1, 4, 1, 5, 9, 2, 6, 5, 3, 5, 8, 9, 7, 9, 3]

/-- `valString` (bench/tests/data.go:40). -/
def valString : Bytes := b!"The only Thing we have to fear is fear itself."

/-- `valAny`, a `*Thing` (bench/tests/data.go:26-31, 51): it implements none of the
interfaces, and `json.Marshal` shows its fields. -/
def valAny : Value := .any (.obj { marshal := .ok b!"{\"Name\":\"Skidoo\",\"Num\":23}" })

/-- `valError` (bench/tests/data.go:52), made by `errors.New`. -/
def valError : Value :=
  .any (.obj { error := some b!"I'm sorry, Dave. I'm afraid I can't do that.", marshal := .ok b!"{}" })

/-- `slog.Group(valGroupName, valKVs...)` (bench/tests/data.go:49, 78). -/
def valGroup : Attr :=
  .grp b!"group" [.mk b!"alpha" (.string b!"omega"), .mk b!"never" (.string b!"mind")]

/-- `allAttributes` (bench/tests/data.go:69-81); `allKeyValues` (bench/tests/data.go:55-67)
gives the same attributes. `now` is `valTime`. -/
def allAttributes (now : Nat) : List Attr :=
  [.mk b!"Bool" (.bool true), .mk b!"Int" (.int64 17), .mk b!"Int64" (.int64 (-654)),
   .mk b!"Uint64" (.uint64 29399459393), .mk b!"Float64" (.float64 piValue),
   .mk b!"String" (.string valString), .mk b!"Time" (.time now),
   .mk b!"Duration" (.duration 3600000000000), valGroup, .mk b!"Any" valAny, .mk b!"Error" valError]

/-- `withAttributes` (bench/tests/data.go:102-114). -/
def withAttributes (now : Nat) : List Attr :=
  [.mk b!"withBool" (.bool true), .mk b!"withInt" (.int64 17), .mk b!"withInt64" (.int64 (-654)),
   .mk b!"withUint64" (.uint64 29399459393), .mk b!"withFloat64" (.float64 piValue),
   .mk b!"withString" (.string valString), .mk b!"withTime" (.time now),
   .mk b!"withDuration" (.duration 3600000000000), valGroup, .mk b!"Any" valAny, .mk b!"Error" valError]

variable {F : Type}

/-- `expectedBasic` (bench/tests/data.go:17-22). -/
def expectedBasic : AMap F :=
  [(b!"level", .str b!"INFO"), (b!"msg", .str message)]

/-- The group in the expected maps (bench/tests/data.go:91-94, 124-127). -/
def expectedGroup : Any F := .map [(b!"alpha", .str b!"omega"), (b!"never", .str b!"mind")]

/-- The object in the expected maps (bench/tests/data.go:95-98, 128-131). -/
def expectedAny (N : Nums F) : Any F :=
  .map [(b!"Name", .str b!"Skidoo"), (b!"Num", .num (N.ofInt 23))]

/-- `allValuesMap` (bench/tests/data.go:83-100). -/
def allValuesMap (N : Nums F) : AMap F :=
  [(b!"Bool", .bool true), (b!"Int", .num (N.ofInt 17)), (b!"Int64", .num (N.ofInt (-654))),
   (b!"Uint64", .num (N.ofInt 29399459393)), (b!"Float64", .num N.pi), (b!"String", .str valString),
   (b!"group", expectedGroup), (b!"Any", expectedAny N)]

/-- `withValuesMap` (bench/tests/data.go:116-133). -/
def withValuesMap (N : Nums F) : AMap F :=
  [(b!"withBool", .bool true), (b!"withInt", .num (N.ofInt 17)), (b!"withInt64", .num (N.ofInt (-654))),
   (b!"withUint64", .num (N.ofInt 29399459393)), (b!"withFloat64", .num N.pi),
   (b!"withString", .str valString), (b!"group", expectedGroup), (b!"Any", expectedAny N)]

/-- The loop of `bigGroupBuilder` over its children (bench/tests/data.go:158-164): `todo`
children from number `i` on; `child` builds one from its name and the number of random
numbers drawn so far. -/
def childLoop (child : Bytes → Nat → Attr × Nat) (stem : Bytes) : Nat → Nat → Nat → List Attr × Nat
  | 0, _, drawn => ([], drawn)
  | todo + 1, i, drawn =>
    let (other, drawn) := child (stem ++ (0x2D :: decNat i)) drawn
    let (others, drawn) := childLoop child stem todo (i + 1) drawn
    (if other.isEmpty then others else other :: others, drawn)

/-- `bigGroupBuilder` (bench/tests/data.go:152-166). The first argument is `limit + 1 -
depth`, zero if `depth > limit`; `rand i` is the i-th result of `rand.Intn(5)`; the result
comes with the number of random numbers drawn. -/
def bigGroupBuilder (rand : Nat → Fin 5) (limit : Nat) : Nat → Bytes → Nat → Attr × Nat
  | 0, _, drawn => (emptyAttr, drawn)
  | left + 1, stem, drawn =>
    let depth := limit - left
    let count := (rand drawn).val + 1
    let (others, drawn) := childLoop (bigGroupBuilder rand limit left) stem count 0 (drawn + 1)
    (.grp stem ([.mk b!"count" (.int64 count), .mk b!"depth" (.uint64 depth),
      .mk b!"limit" (.uint64 limit)] ++ others), drawn)

/-- `BigGroup` (bench/tests/data.go:140-145); the attribute is made once and kept, so the
random numbers are the same for the whole run. -/
def bigGroup (rand : Nat → Fin 5) : Attr :=
  (bigGroupBuilder rand bigGroupLimit (bigGroupLimit + 1) b!"group" 0).1

/-- A call of a logging method. -/
structure Call where
  level : Int
  message : Bytes
  attrs : List Attr := []

/-- `Benchmark` (bench/tests/benchmarks.go:35-55): the option AddSource (the level is Info
in all of them, infra/options.go:8-32), what `HandlerFn` does to the handler, what
`BenchmarkFn` logs, `DontCount`, and `VerifyFn` applied to the output and the manager. -/
structure Benchmark where
  name : Bytes
  addSource : Bool := false
  ops : List Op := []
  calls : List Call
  dontCount : Bool := false
  check : Bytes → Manager → Option (Manager × Option Err)

/-- A check called by `Run` with a nil map (bench/tests/suite.go:138). -/
def Check.run (c : Check F) (captured : Bytes) (m : Manager) : Option (Manager × Option Err) :=
  some (c captured none m).2

/-- The check of the benchmark Disabled (bench/tests/benchmarks.go:68-74). -/
def disabledCheck (L : Lib F) (captured : Bytes) (m : Manager) : Option (Manager × Option Err) :=
  if captured.length > 0 then
    some (m.addWarning L.fn notDisabled b!"Disabled" captured, some (.warning notDisabled))
  else some (m, none)

/-- `logger.Info(message, attrs...)`. -/
def info (attrs : List Attr) : List Call := [⟨levelInfo, message, attrs⟩]

variable [DecidableEq F]

/-- The checks of the benchmarks with all attributes below a group (bench/tests/
benchmarks.go:202-208, 221-227). -/
def groupChecks (L : Lib F) (N : Nums F) (name dup : Bytes) : Check F :=
  verify L [finder L (name ++ b!":Basic") expectedBasic,
    finder L (name ++ b!":All") [(b!"withGroup", .map (allValuesMap N))], noDuplicates L dup]

/-- The checks of the benchmarks with attributes of the handler and of the record
(bench/tests/benchmarks.go:164-169, 182-187). -/
def bothChecks (L : Lib F) (N : Nums F) (name : Bytes) : Check F :=
  verify L [finder L (name ++ b!":Basic") expectedBasic, finder L (name ++ b!":All") (allValuesMap N),
    finder L (name ++ b!":With") (withValuesMap N), noDuplicates L name]

/-- The benchmarks of the suite (bench/tests/benchmarks.go:62-257). -/
def benchmarks (L : Lib F) (N : Nums F) (now : Nat) (rand : Nat → Fin 5) (logData : List (List Attr)) :
    List Benchmark :=
  [{ name := b!"Disabled", calls := [⟨levelDebug, message, []⟩], dontCount := true,
     check := disabledCheck L },
   { name := b!"Simple", calls := info [],
     check := (matcher L b!"Simple" expectedBasic).run },
   { name := b!"SimpleSource", addSource := true, calls := info [],
     check := (verify L [finder L b!"SimpleSource" expectedBasic, sourcerer L b!"SimpleSource"]).run },
   { name := b!"Attributes", calls := info (allAttributes now),
     check := (verify L [finder L b!"Attributes" expectedBasic, finder L b!"Attributes" (allValuesMap N),
       noDuplicates L b!"Attributes"]).run },
   { name := b!"KeyValues", calls := info (allAttributes now),
     check := (verify L [finder L b!"KeyValues" expectedBasic, finder L b!"KeyValues" (allValuesMap N),
       noDuplicates L b!"KeyValues"]).run },
   { name := b!"WithAttrsSimple", ops := [.attrs (withAttributes now)], calls := info [],
     check := (verify L [finder L b!"WithAttrsSimple:Basic" expectedBasic,
       finder L b!"WithAttrsSimple:With" (withValuesMap N), noDuplicates L b!"WithAttrsSimple"]).run },
   { name := b!"WithAttrsAttributes", ops := [.attrs (withAttributes now)],
     calls := info (allAttributes now), check := (bothChecks L N b!"WithAttrsAttributes").run },
   { name := b!"WithAttrsKeyValues", ops := [.attrs (withAttributes now)],
     calls := info (allAttributes now), check := (bothChecks L N b!"WithAttrsKeyValues").run },
   { name := b!"WithGroupAttributes", ops := [.group b!"withGroup"], calls := info (allAttributes now),
     check := (groupChecks L N b!"WithGroupAttributes" b!"With_Group_Attributes").run },
   { name := b!"WithGroupKeyValues", ops := [.group b!"withGroup"], calls := info (allAttributes now),
     check := (groupChecks L N b!"WithGroupKeyValues" b!"WithGroupKeyValues").run },
   { name := b!"BigGroup", calls := info [bigGroup rand], check := (bigGroupChecker L b!"BigGroup").run },
   { name := b!"Logging", calls := logData.map fun attrs => ⟨levelInfo, b!"Handle", attrs⟩,
     dontCount := true,
     check := verifyLinesWith L 4096 [fields L b!"Logging"
       [b!"level", b!"msg", b!"code", b!"elapsed", b!"method", b!"url"]] }]

/-- What a call logs through a flash handler (package log/slog, `Logger.log`, with a
context without values): nothing if the level is not enabled or `Handle` fails. `t` is the
time and `pc` the caller. -/
def logCall (h : H) (c : Call) (t pc : Nat) : Bytes :=
  if h.enabled t c.level then
    match h.handle none ⟨some t, c.level, c.message, pc, c.attrs⟩ with
    | .line b => b
    | _ => []
  else []

/-- What a number of calls log; `clock i` is the time and the caller of the i-th. -/
def logCalls (h : H) (clock : Nat → Nat × Nat) : Nat → List Call → Bytes
  | _, [] => []
  | i, c :: cs => logCall h c (clock i).1 (clock i).2 ++ logCalls h clock (i + 1) cs

/-- The handler of a benchmark: `suite.logger` (bench/tests/suite.go:63-72) with the creator
of flash (creator/madkinsflash/creator.go:28-30). `none`: stack overflow. -/
def flashHandler (env : Env) (b : Benchmark) : Option H :=
  (H.plain (build env (some ⟨b.addSource, some fun _ => levelInfo, none⟩) none)).derive b.ops

/-- One execution of a benchmark and the verification of its output (bench/tests/
suite.go:127-141). -/
def verifyFlash (env : Env) (clock : Nat → Nat × Nat) (b : Benchmark) (m : Manager) :
    Option (Manager × Option Err) :=
  (flashHandler env b).bind fun h => b.check (logCalls h clock 0 b.calls) m

end Verif.Bench
