import Verif.Bench.Data
import Verif.Tools.CountWriter
import Verif.Tools.FunctionName

/-
Model of the benchmark harness: `Run` (/repo/bench/tests/suite.go:78-183).

Simplifications: all methods of the suite that begin with `Benchmark` return a benchmark
with a `BenchmarkFn` and a `VerifyFn` (lines 102-114, 136), as all of them do; debug output
is off (lines 154-157); no benchmark is left out by a pattern given to `go test`. The
function given to `b.Run` is called by package testing in rounds with a growing number of
executions; how many rounds and how large they are is up to the clock, and so is the order
of the writes of the goroutines of `RunParallel`: rounds are an argument.
-/

namespace Verif.Bench
open Go Warning Slog Flash Tools

/-- `NoHandlerCreation` (infra/warning/admin.go:11-14), without its description. -/
def noHandlerCreation : Warning :=
  ⟨1, b!"NoHandlerCreation", b!"Test depends on unavailable handler creation", []⟩

/-- `benchmarkMethodPrefix` (bench/tests/suite.go:76). -/
def methodPrefix : Bytes := b!"Benchmark"

/-- What `Run` takes from the creator: its name (bench/tests/suite.go:91), whether it makes
handlers (bench/tests/suite.go:118), and the writes of one execution of a benchmark
(bench/tests/suite.go:127-131); `none`: the process dies. -/
structure Subject where
  name : Bytes
  canMake : Bool
  output : Benchmark → Option (List Bytes)

/-- One call of the function given to `b.Run` (bench/tests/suite.go:150-180): `b.N` and what
is written to the `CountWriter`. -/
structure Round where
  n : Nat
  writes : List Bytes

/-- What package testing prints for a benchmark: a result with the number of executions and
the number given to `SetBytes` (bench/tests/suite.go:165), or a failure (bench/tests/
suite.go:177). -/
inductive Outcome
  | result (test : Bytes) (runs bytes : Nat)
  | failed (test : Bytes) (expected : Nat) (actual : UInt64)
deriving DecidableEq, Repr

/-- The condition of line 176 (bench/tests/suite.go:176), for failure; `int` has 64 bits. -/
def mismatched (b : Benchmark) (r : Round) (written : UInt64) : Bool :=
  !b.dontCount && (r.n : Int) != written.toInt64.toInt

/-- The rounds of a benchmark (bench/tests/suite.go:150-180); package testing goes on to the
next round if there is no failure and reports the number of executions of the last one. -/
def measureAll (b : Benchmark) (bytesPerOp : Nat) : Nat → List Round → Outcome
  | last, [] => .result b.name last bytesPerOp
  | _, r :: rs =>
    let count := (({} : CountWriter).writeAll r.writes).written
    if mismatched b r count then .failed b.name r.n count
    else measureAll b bytesPerOp r.n rs

/-- The body of the loop for one benchmark (bench/tests/suite.go:116-180). The error of
`VerifyFn` is only logged. -/
def runOne (s : Subject) (justTests : Bool) (rounds : Benchmark → List Round) (b : Benchmark) (m : Manager) :
    Option (List Outcome × Manager) :=
  if !b.ops.isEmpty && !s.canMake then
    some ([], m.addWarningFn noHandlerCreation (methodPrefix ++ b.name) [])
  else
    match s.output b with
    | none => none
    | some ws =>
      let buffer := ws.flatten
      match b.check buffer m with
      | none => none
      | some (m, _) =>
        if justTests then some ([], m)
        else some ([measureAll b buffer.length 0 (rounds b)], m)

/-- The loop (bench/tests/suite.go:97-182). -/
def runLoop (s : Subject) (justTests : Bool) (rounds : Benchmark → List Round) : List Benchmark → Manager →
    Option (List Outcome × Manager)
  | [], m => some ([], m)
  | b :: bs, m =>
    match runOne s justTests rounds b m with
    | none => none
    | some (out, m) =>
      match runLoop s justTests rounds bs m with
      | none => none
      | some (outs, m) => some (out ++ outs, m)

/-- `Run` (bench/tests/suite.go:82-183): the line that names the handler, what is printed for
the benchmarks, and the manager. Package reflect has the methods sorted by name. -/
def run (S : Sorter) (stack : List Bytes) (s : Subject) (justTests : Bool) (rounds : Benchmark → List Round)
    (suite : List Benchmark) (m : Manager) : Option (Bytes × List Outcome × Manager) :=
  match runLoop s justTests rounds
      (S.sort (fun a b => less (methodPrefix ++ a.name) (methodPrefix ++ b.name)) suite) m with
  | none => none
  | some (outs, m) => some (handlerLine stack s.name, outs, m)

/-! ### Flash -/

/-- What a call writes through a flash handler: `Handle` writes once (handlers/flash/
handler.go). See `logCall`. -/
def callWrites (h : H) (c : Call) (t pc : Nat) : List Bytes :=
  if h.enabled t c.level then
    match h.handle none ⟨some t, c.level, c.message, pc, c.attrs⟩ with
    | .line b => [b]
    | _ => []
  else []

/-- What an execution of a benchmark writes; `clock i` is the time and the caller of the
i-th call. -/
def execution (h : H) (clock : Nat → Nat × Nat) : Nat → List Call → List Bytes
  | _, [] => []
  | i, c :: cs => callWrites h c (clock i).1 (clock i).2 ++ execution h clock (i + 1) cs

/-- Flash as a subject (creator/madkinsflash/creator.go:13-30). -/
def flashSubject (env : Env) (clock : Nat → Nat × Nat) (name : Bytes) : Subject :=
  { name, canMake := true
    output := fun b => (flashHandler env b).map fun h => execution h clock 0 b.calls }

end Verif.Bench
