import Verif.Score.BenchAxis
import Verif.Score.WarnCheck

/-
The comparisons of the two calculations of scores of benchmarks, /repo/internal/scoring/axis/bench/original.go:78-122.

Simplified: texts of numbers are parameters; what is logged is the values compared.
-/

namespace Verif.Score
open Go Verif.Warning Verif.Data

/-- What is logged: `slog.Error` or `slog.Warn` (internal/scoring/axis/bench/original.go:101, 104, 113, 118), with the values. -/
inductive BenchLog
  | collect (original byTest : Val)
  | count (original byTest : Nat)
  | total (original byTest : Val)
  | tests (original byTest : Nat)
deriving DecidableEq

/-- `CheckTest` (internal/scoring/axis/bench/original.go:99-106), with the average of the handler for the test. -/
def checkTest (R : Rounding) (o : Original) (a : Average) : List BenchLog :=
  (if percentEqual R (Val.div R o.collect (Val.ofNat R o.count)) (a.average R) then []
    else [.collect (Val.div R o.collect (Val.ofNat R o.count)) (a.average R)]) ++
  if o.count ≠ a.count then [.count o.count a.count] else []

/-- `CheckTotal` (internal/scoring/axis/bench/original.go:111-122), with the sum over tests. -/
def checkTotal (R : Rounding) (o : Original) (a : Average) : List BenchLog :=
  (if percentEqual R (o.total.round R) a.value then [] else [.total (o.total.round R) a.value]) ++
  if o.tests ≠ a.count then [.tests o.tests a.count] else []

/-- What is logged in the loop over the tests of a handler (internal/scoring/axis/benchmarks.go:92-112), and what comes of it; `none` is a
panic. -/
def testLogs (R : Rounding) (weights : Weight → Nat) (tags : Map Bytes Bool) (ranges original : Map Bytes Ranges) :
    List (Bytes × Record Rat) → HandlerData → Original → Option (List BenchLog × HandlerData × Original)
  | [], hd, o => some ([], hd, o)
  | e :: es, hd, o =>
    match oneTest R weights tags ranges original (some (hd, o)) e with
    | none => none
    | some (hd, o) =>
      match testLogs R weights tags ranges original es hd o with
      | none => none
      | some (logs, hd', o') => some ((if isTrue tags e.1 then checkTest R o (hd.test e.1) else []) ++ logs, hd', o')

/-- What is logged for a handler without data from before (internal/scoring/axis/benchmarks.go:83-125). -/
def handlerLogs (R : Rounding) (weights : Weight → Nat) (tags : Map Bytes Bool) (ranges original : Map Bytes Ranges)
    (tests : List (Bytes × Record Rat)) : Option (List BenchLog) :=
  match testLogs R weights tags ranges original tests {} {} with
  | none => none
  | some (logs, hd, o) => some (logs ++ checkTotal R o hd.overTests)

/-- `String` of a range (internal/scoring/axis/common/range.go:56-58, 96-98, and internal/scoring/axis/bench/original.go:20-31), given how
numbers are written. -/
def rangeText (int : Nat → Bytes) (float : Rat → Bytes) (g : Ranges) : Weight → Bytes
  | .allocations => int g.allocs.low ++ b!" -> " ++ int g.allocs.high
  | .allocBytes => int g.bytes.low ++ b!" -> " ++ int g.bytes.high
  | .nanoseconds => float g.nanos.low ++ b!" -> " ++ float g.nanos.high

/-- `CheckRanges` (internal/scoring/axis/bench/original.go:81-95): the tests and weights for which there is an error, for tests in some
order; `none` is a panic. -/
def checkRanges (int : Nat → Bytes) (float : Rat → Bytes) (tags : Map Bytes Bool) (ranges original : Map Bytes Ranges) :
    List Bytes → Option (List (Bytes × Weight))
  | [] => some []
  | t :: ts =>
    match checkRanges int float tags ranges original ts with
    | none => none
    | some bad =>
      if isTrue tags t then
        match original.get t, ranges.get t with
        | some a, some b => some ((weightOrder.filter fun w => decide (rangeText int float b w ≠ rangeText int float a w)).map (t, ·) ++ bad)
        | _, _ => none
      else some bad

/-- What is logged in `Setup` of a new axis (internal/scoring/axis/benchmarks.go:57-125): the comparison of ranges, and that of each handler. The
tags of handlers are all different, so that there is no data from before. -/
def benchLogs (R : Rounding) (S : Sorter) (pick pickR : List Bytes → List Bytes) (int : Nat → Bytes) (float : Rat → Bytes) (o : AxisOptions)
    (ordT ordT' ordH : Bytes → Map Bytes (Record Rat) → List (Bytes × Record Rat)) (b : Bench Rat) :
    Option (List (Bytes × Weight)) × List (Bytes × Option (List BenchLog)) :=
  let tests := (b.testTags S pick).2
  let tags := testTagMap o.includes o.excludes tests
  let original := makeRanges Ranges.addOriginal ordT' b tags tests
  let ranges := makeRanges Ranges.add ordT b tags tests
  (checkRanges int float tags ranges original (pickR ranges.keys),
    (b.handlerTags S pick).2.map fun h => (h, handlerLogs R o.weights tags ranges original (ordH h (b.testRecordsFor h))))

end Verif.Score
