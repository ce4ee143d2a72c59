import Verif.Data.WarnParser
import Verif.Spec.Numeral

/-
Model of the benchmark data of the server, /repo/internal/data/bench.go, and of its
parser, /repo/internal/data/bench_parser.go.

Simplifications: numbers of type float64 are of any type, with what the code uses of them
(`Floats`); the input is a text, reading it never fails; log output is left out; the cache
of the `Name` methods is left out.
-/

namespace Verif.Data
open Go Verif.Warning

/-- What is used of float64: `strconv.ParseFloat`, zero, and division by 1_000 and by
1_000_000. -/
structure Floats (F : Type) where
  parse : Bytes → Option F
  zero : F
  kilo : F → F
  mega : F → F

/-- `TestRecord` (internal/data/bench.go:20-28). -/
structure Record (F : Type) where
  runs : Nat
  nanosPerOp : F
  memBytesPerOp : Nat
  memAllocsPerOp : Nat
  mbPerSec : F
  gbPerSec : F
  tbPerSec : F
deriving DecidableEq

/-- `Benchmarks` (internal/data/bench.go:61-71); a list that is nil is `none`. -/
structure Bench (F : Type) where
  byTest : Map Bytes (Map Bytes (Record F)) := []
  byHandler : Map Bytes (Map Bytes (Record F)) := []
  tests : Option (List Bytes) := none
  handlers : Option (List Bytes) := none
  testNames : Map Bytes Bytes := []
  testCPUs : Map Bytes Nat := []
  handlerNames : Map Bytes Bytes := []
  warningText : Bytes := []
  lookup : Option (Map Bytes Bytes) := none

/-- `[^/]` and `[^-]`. -/
def isNot (c : UInt8) (b : UInt8) : Bool := b != c

/-- `p+`. -/
def plus (p : UInt8 → Bool) : Re := .cat (.one p) (.star p)

/-- `\d+(?:\.\d+)?`. -/
def decimal : Re := .cat (plus isD) (.opt (.cat (.lit b!".") (plus isD)))

/-- `ptnHandlerDef` (internal/data/bench_parser.go:13). -/
def ptnHandlerDef : Re := seq [.lit b!"#", .star isS, .lit b!"Handler[", .cap 1 (plus isNS), .lit b!"]", .star isS,
  .lit b!"=", .star isS, .lit b!"\"", .cap 2 (plus isNS), .lit b!"\"", .star isS, .eot]
/-- `ptnWarnLine` (internal/data/bench_parser.go:14). -/
def ptnWarnLine : Re := seq [.lit b!"# ", .cap 1 (.star isDot)]
/-- `ptnDataLine` (internal/data/bench_parser.go:15). -/
def ptnDataLine : Re := seq [.lit b!"Benchmark", .cap 1 (plus (isNot 0x2F)), .lit b!"/Benchmark", .cap 2 (plus (isNot 0x2D)),
  .lit b!"-", .cap 3 (plus isD), plus isS, .cap 4 (plus isD), plus isS, .cap 5 decimal, plus isS, .lit b!"ns/op", .nw]
/-- `ptnAllocsOp` (internal/data/bench_parser.go:16). -/
def ptnAllocsOp : Re := seq [.one isS, .cap 1 (plus isD), plus isS, .lit b!"allocs/op", .nw]
/-- `ptnBytesOp` (internal/data/bench_parser.go:17). -/
def ptnBytesOp : Re := seq [.one isS, .cap 1 (plus isD), plus isS, .lit b!"B/op", .nw]
/-- `ptnMbSec` (internal/data/bench_parser.go:18). -/
def ptnMbSec : Re := seq [.one isS, .cap 1 decimal, plus isS, .lit b!"MB/s"]

/-- `strconv.ParseUint(s, 10, 64)`. -/
def parseUint64 (s : Bytes) : Option Nat :=
  match Slog.readNat s with
  | some n => if n < 2 ^ 64 then some n else none
  | none => none

/-- A measurement that need not be there (internal/data/bench_parser.go:74-88): what was
set before if it is not there, `none` if it cannot be read. -/
def optional {V : Type} (p : Re) (parse : Bytes → Option V) (zero : V) (line : Bytes) : Option V :=
  match p.findAny line with
  | some m => parse (Caps.text m 1)
  | none => some zero

/-- What is read from a data line (internal/data/bench_parser.go:62-90). -/
structure Data (F : Type) where
  handler : Bytes
  test : Bytes
  cpus : Nat
  runs : Nat
  nsOps : F
  allocsOp : Nat
  bytesOp : Nat
  mbSec : F

/-- A data line (internal/data/bench_parser.go:62-90); `none` if a number cannot be read. -/
def readData {F : Type} (fl : Floats F) (line : Bytes) (m : Caps) : Option (Data F) := do
  let cpus ← parseUint64 (Caps.text m 3)
  let runs ← parseUint64 (Caps.text m 4)
  let nsOps ← fl.parse (Caps.text m 5)
  let allocsOp ← optional ptnAllocsOp parseUint64 0 line
  let bytesOp ← optional ptnBytesOp parseUint64 0 line
  let mbSec ← optional ptnMbSec fl.parse fl.zero line
  return { handler := Caps.text m 1, test := Caps.text m 2, cpus, runs, nsOps, allocsOp, bytesOp, mbSec }

/-- What is stored of a data line (internal/data/bench_parser.go:92-125). -/
def Bench.store {F : Type} (E : Env) (fl : Floats F) (b : Bench F) (d : Data F) : Bench F :=
  let test := b!"Bench" ++ b!"." ++ d.test
  let handler := d.handler
  { b with
    testNames := b.testNames.set test (testName E test)
    handlerNames := if (b.handlerNames.get handler).isSome then b.handlerNames
      else b.handlerNames.set handler (handlerName E handler)
    testCPUs := b.testCPUs.set test d.cpus
    byTest := b.byTest.set test (((b.byTest.get test).getD []).set handler
      { runs := d.runs, nanosPerOp := d.nsOps, memBytesPerOp := d.bytesOp, memAllocsPerOp := d.allocsOp
        mbPerSec := d.mbSec, gbPerSec := fl.kilo d.mbSec, tbPerSec := fl.mega d.mbSec })
    byHandler := b.byHandler.set handler (((b.byHandler.get handler).getD []).set test
      { runs := d.runs, nanosPerOp := d.nsOps, memBytesPerOp := d.bytesOp, memAllocsPerOp := d.allocsOp
        mbPerSec := d.mbSec, gbPerSec := fl.zero, tbPerSec := fl.zero }) }

/-- One pass of the loop (internal/data/bench_parser.go:42-126); `none` is the return
with an error. -/
def Bench.line {F : Type} (E : Env) (fl : Floats F) (b : Bench F) (line : Bytes) : Option (Bench F) :=
  match ptnHandlerDef.find line with
  | some m => some { b with handlerNames := b.handlerNames.set (Caps.text m 1) (Caps.text m 2) }
  | none =>
    match ptnWarnLine.find line with
    | some m =>
      some { b with warningText := (if b.warningText.length > 0 then b.warningText ++ b!"\n" else b.warningText) ++ Caps.text m 1 }
    | none =>
      match ptnDataLine.find line with
      | some m =>
        match readData fl line m with
        | some d => some (b.store E fl d)
        | none => none
      | none => some b

/-- The loop of `ParseBenchmarkData` (internal/data/bench_parser.go:42-126): what is
stored, and whether it was left with an error. -/
def Bench.lines {F : Type} (E : Env) (fl : Floats F) (b : Bench F) : List Bytes → Bench F × Bool
  | [] => (b, false)
  | l :: ls =>
    match b.line E fl l with
    | some b => b.lines E fl ls
    | none => (b, true)

/-- `ParseBenchmarkData` (internal/data/bench_parser.go:29-132): what is stored, and whether
an error is returned. -/
def Bench.parse {F : Type} (E : Env) (fl : Floats F) (b : Bench F) (text : Bytes) : Bench F × Bool :=
  let r := b.lines E fl (scanLines text)
  (r.1, r.2 || (splitLines text).any fun l => 65536 ≤ l.length)

/-- `HasHandler` (internal/data/bench.go:86-89). -/
def Bench.hasHandler {F : Type} (b : Bench F) (tag : Bytes) : Bool := (b.byHandler.get tag).isSome
/-- `HasTest` (internal/data/bench.go:92-95). -/
def Bench.hasTest {F : Type} (b : Bench F) (tag : Bytes) : Bool := (b.byTest.get tag).isSome

/-- The loop of `HandlerLookup` (internal/data/bench.go:105-107), over the map in the
order in which it happens to be visited. -/
def invert (m : Map Bytes Bytes) : List Bytes → Map Bytes Bytes → Map Bytes Bytes
  | [], acc => acc
  | tag :: tags, acc =>
    match m.get tag with
    | some name => invert m tags (acc.set name tag)
    | none => invert m tags acc

/-- `HandlerLookup` (internal/data/bench.go:102-110); `pick` is the order of the map. -/
def Bench.handlerLookup {F : Type} (pick : List Bytes → List Bytes) (b : Bench F) : Bench F × Map Bytes Bytes :=
  match b.lookup with
  | some l => (b, l)
  | none =>
    let l := invert b.handlerNames (pick b.handlerNames.keys) []
    ({ b with lookup := some l }, l)

/-- `HandlerName` (internal/data/bench.go:114-120). -/
def Bench.handlerName {F : Type} (b : Bench F) (handler : Bytes) : Bytes := (b.handlerNames.get handler).getD handler
/-- `TestName` (internal/data/bench.go:142-148). -/
def Bench.testName {F : Type} (b : Bench F) (test : Bytes) : Bytes := (b.testNames.get test).getD test

/-- `HandlerRecordsFor` (internal/data/bench.go:123-125); a nil map is empty. -/
def Bench.handlerRecordsFor {F : Type} (b : Bench F) (test : Bytes) : Map Bytes (Record F) := (b.byTest.get test).getD []
/-- `TestRecordsFor` (internal/data/bench.go:151-153); a nil map is empty. -/
def Bench.testRecordsFor {F : Type} (b : Bench F) (handler : Bytes) : Map Bytes (Record F) := (b.byHandler.get handler).getD []

/-- The result of appending the keys of a map to a nil slice: still nil if there are none. -/
def collect (keys : List Bytes) : Option (List Bytes) := if keys = [] then none else some keys

/-- `HandlerTags` (internal/data/bench.go:128-138); `pick` is the order of the map. -/
def Bench.handlerTags {F : Type} (S : Sorter) (pick : List Bytes → List Bytes) (b : Bench F) : Bench F × List Bytes :=
  match b.handlers with
  | some l => (b, l)
  | none =>
    let l := (collect (pick b.byHandler.keys)).map (S.sort fun i j => less (b.handlerName i) (b.handlerName j))
    ({ b with handlers := l }, l.getD [])

/-- `TestTags` (internal/data/bench.go:156-166); `pick` is the order of the map. -/
def Bench.testTags {F : Type} (S : Sorter) (pick : List Bytes → List Bytes) (b : Bench F) : Bench F × List Bytes :=
  match b.tests with
  | some l => (b, l)
  | none =>
    let l := (collect (pick b.byTest.keys)).map (S.sort fun i j => less (b.testName i) (b.testName j))
    ({ b with tests := l }, l.getD [])

/-- `HasWarningText` (internal/data/bench.go:169-171). -/
def Bench.hasWarningText {F : Type} (b : Bench F) : Bool := b.warningText.length > 0

end Verif.Data
