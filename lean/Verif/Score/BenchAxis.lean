import Verif.Score.Range
import Verif.Data.BenchParser

/-
Model of the benchmark axis of score keepers, /repo/internal/scoring/axis/benchmarks.go,
with the original calculation in /repo/internal/scoring/axis/bench/original.go.

Simplifications: the comparisons of the original calculation with the newer one, which
only log, are in Score/BenchCheck.lean; the exhibits are left out; counts are not limited. The order in which Go
visits a map is given by a function (`ord`), which knows the key of the map visited.
-/

namespace Verif.Score
open Go Verif.Warning Verif.Data

/-- `Weight` (internal/scoring/axis/bench/weight.go:7-13). -/
inductive Weight
  | allocations
  | allocBytes
  | nanoseconds
deriving DecidableEq

/-- `WeightOrder` (internal/scoring/axis/bench/weight.go:15-19). -/
def weightOrder : List Weight := [.nanoseconds, .allocBytes, .allocations]

/-- The ranges of a test (internal/scoring/axis/benchmarks.go:68-72). -/
structure Ranges where
  nanos : RangeF := .new
  allocs : RangeU := .new
  bytes : RangeU := .new

/-- What is added for a record (internal/scoring/axis/benchmarks.go:74-76). -/
def Ranges.add (r : Ranges) (rec : Record Rat) : Ranges where
  nanos := r.nanos.add rec.nanosPerOp
  allocs := r.allocs.add rec.memAllocsPerOp
  bytes := r.bytes.add rec.memBytesPerOp

/-- `Length` of a range (internal/scoring/axis/benchmarks.go:100). -/
def Ranges.length (R : Rounding) (r : Ranges) : Weight → Val
  | .allocations => r.allocs.length R
  | .allocBytes => r.bytes.length R
  | .nanoseconds => r.nanos.length R

/-- `RangedValue` of a range (internal/scoring/axis/benchmarks.go:101). -/
def Ranges.ranged (R : Rounding) (r : Ranges) (w : Weight) (v : Val) : Val :=
  match w with
  | .allocations => r.allocs.ranged R v
  | .allocBytes => r.bytes.ranged R v
  | .nanoseconds => r.nanos.ranged R v

/-- `ItemValue` for the item of a weight (internal/data/bench.go:36-56,
internal/scoring/axis/bench/weight.go:21-32). -/
def itemValue (R : Rounding) (rec : Record Rat) : Weight → Val
  | .allocations => Val.ofNat R rec.memAllocsPerOp
  | .allocBytes => Val.ofNat R rec.memBytesPerOp
  | .nanoseconds => .fin rec.nanosPerOp

/-- The scores of a handler by type (internal/scoring/axis/common/data.go:8-11); a score
that was not set is 0. -/
structure Scores where
  default : Val := .fin 0
  byData : Val := .fin 0
  original : Val := .fin 0
  byTest : Val := .fin 0
deriving DecidableEq

/-- `HandlerData` (internal/scoring/axis/bench/data.go:17-33). -/
structure HandlerData where
  byTest : Map Bytes Average := []
  sub : Weight → Average := fun _ => {}
  overTests : Average := {}
  overData : Average := {}
  scores : Scores := {}

/-- `ByTest` (internal/scoring/axis/common/data.go:20-25). -/
def HandlerData.test (hd : HandlerData) (test : Bytes) : Average := (hd.byTest.get test).getD {}

/-- `testTagMap` (internal/scoring/axis/benchmarks.go:187-208). -/
def testTagMap (includes : Option (List Bytes)) (excludes all : List Bytes) : Map Bytes Bool :=
  excludes.foldl (fun m t => m.set t false) ((includes.getD all).foldl (fun m t => m.set t true) [])

/-- Reading a map of bools (Go's `m[k]`). -/
def isTrue (m : Map Bytes Bool) (k : Bytes) : Bool := (m.get k).getD false

/-- `Original` (internal/scoring/axis/bench/original.go:39-47), without what does not
change. -/
structure Original where
  count : Nat := 0
  tests : Nat := 0
  collect : Val := .fin 0
  total : Val := .fin 0

/-- One pass of the inner loop of `MakeRanges` (internal/scoring/axis/bench/original.go:133-150). -/
def Ranges.addOriginal (r : Ranges) (rec : Record Rat) : Ranges :=
  let r := if rec.memAllocsPerOp > r.allocs.high then { r with allocs.high := rec.memAllocsPerOp } else r
  let r := if rec.memAllocsPerOp < r.allocs.low then { r with allocs.low := rec.memAllocsPerOp } else r
  let r := if rec.memBytesPerOp > r.bytes.high then { r with bytes.high := rec.memBytesPerOp } else r
  let r := if rec.memBytesPerOp < r.bytes.low then { r with bytes.low := rec.memBytesPerOp } else r
  let r := if rec.nanosPerOp > r.nanos.high then { r with nanos.high := rec.nanosPerOp } else r
  if rec.nanosPerOp < r.nanos.low then { r with nanos.low := rec.nanosPerOp } else r

/-- The difference of unsigned integers, which wraps around. -/
def usub (a b : Nat) : Nat := (a + 2 ^ 64 - b) % 2 ^ 64

/-- A part of `HandlerTest` (internal/scoring/axis/bench/original.go:62-65, 66-69, 70-73). -/
def Original.part (R : Rounding) (weight : Nat) (scoreRange diff : Val) (o : Original) : Original :=
  if scoreRange.isPos then
    { o with
      collect := Val.add R o.collect (Val.div R (Val.mul R (Val.mul R (Val.ofNat R weight) (.fin 100)) diff) scoreRange)
      count := o.count + weight }
  else o

/-- `HandlerTest` (internal/scoring/axis/bench/original.go:58-76). -/
def Original.handlerTest (R : Rounding) (weights : Weight → Nat) (rng : Ranges) (rec : Record Rat) (o : Original) : Original :=
  let o := { o with collect := .fin 0, count := 0 }
  let o := o.part R (weights .allocations) (Val.ofNat R (usub rng.allocs.high rng.allocs.low))
    (Val.ofNat R (usub rng.allocs.high rec.memAllocsPerOp))
  let o := o.part R (weights .allocBytes) (Val.ofNat R (usub rng.bytes.high rng.bytes.low))
    (Val.ofNat R (usub rng.bytes.high rec.memBytesPerOp))
  let o := o.part R (weights .nanoseconds) (Val.sub R (.fin rng.nanos.high) (.fin rng.nanos.low))
    (Val.sub R (.fin rng.nanos.high) (.fin rec.nanosPerOp))
  { o with total := Val.add R o.total (Val.div R o.collect (Val.ofNat R o.count)), tests := o.tests + 1 }

/-- `math.Round`: to the nearest integer, halves away from zero. -/
def roundAway (q : Rat) : Int := if 0 ≤ q then ⌊q + 1 / 2⌋ else -⌊-q + 1 / 2⌋

/-- `Round` (internal/scoring/score/axis.go:26-29). -/
def Val.round (R : Rounding) (v : Val) : Val :=
  match Val.mul R v (.fin 1000000000) with
  | .fin q => Val.div R (.fin (R.rnd (roundAway q))) (.fin 1000000000)
  | v => Val.div R v (.fin 1000000000)

/-- `Score` (internal/scoring/axis/bench/original.go:162-164). -/
def Original.score (R : Rounding) (o : Original) : Val := Val.div R (o.total.round R) (Val.ofNat R o.tests)

/-- The loop over measures for a handler and a test (internal/scoring/axis/benchmarks.go:98-107). -/
def measures (R : Rounding) (weights : Weight → Nat) (rng : Ranges) (rec : Record Rat) (test : Bytes) (hd : HandlerData) : HandlerData :=
  weightOrder.foldl (fun hd w =>
    if (rng.length R w).isPos then
      let ranged := rng.ranged R w (itemValue R rec w)
      { hd with
        byTest := hd.byTest.set test ((hd.test test).addMultiple R ranged (weights w))
        sub := fun w' => if w' = w then (hd.sub w).add R ranged else hd.sub w' }
    else hd) hd

/-- One test of a handler (internal/scoring/axis/benchmarks.go:92-109); `none` is a panic:
there is no range for the test. -/
def oneTest (R : Rounding) (weights : Weight → Nat) (tags : Map Bytes Bool) (ranges original : Map Bytes Ranges)
    (st : Option (HandlerData × Original)) (e : Bytes × Record Rat) : Option (HandlerData × Original) :=
  match st with
  | none => none
  | some (hd, o) =>
    if isTrue tags e.1 then
      match original.get e.1, ranges.get e.1 with
      | some rngO, some rng =>
        let o := o.handlerTest R weights rngO e.2
        let hd := measures R weights rng e.2 e.1 hd
        let hd := { hd with overTests := hd.overTests.add R ((hd.test e.1).average R)
                            byTest := hd.byTest.set e.1 (hd.test e.1) }
        some (hd, o)
      | _, _ => none
    else some (hd, o)

/-- One handler (internal/scoring/axis/benchmarks.go:83-125). -/
def oneHandler (R : Rounding) (weights : Weight → Nat) (tags : Map Bytes Bool) (ranges original : Map Bytes Ranges)
    (hd : HandlerData) (tests : List (Bytes × Record Rat)) : Option HandlerData :=
  match tests.foldl (oneTest R weights tags ranges original) (some (hd, {})) with
  | none => none
  | some (hd, o) =>
    let hd := { hd with scores.original := o.score R }
    let hd := { hd with scores.byTest := hd.overTests.average R }
    let hd := weightOrder.foldl (fun hd w => { hd with overData := hd.overData.addMultiple R ((hd.sub w).average R) (weights w) }) hd
    let hd := { hd with scores.byData := hd.overData.average R }
    some { hd with scores.default := Val.div R (Val.add R hd.scores.byData hd.scores.byTest) (.fin 2) }

/-- The ranges of the tests that count (internal/scoring/axis/benchmarks.go:64-79 and
internal/scoring/axis/bench/original.go:124-155). -/
def makeRanges (add : Ranges → Record Rat → Ranges) (ord : Bytes → Map Bytes (Record Rat) → List (Bytes × Record Rat))
    (b : Bench Rat) (tags : Map Bytes Bool) (tests : List Bytes) : Map Bytes Ranges :=
  tests.foldl (fun m t => if isTrue tags t then m.set t ((ord t (b.handlerRecordsFor t)).foldl (fun r e => add r e.2) {}) else m) []

/-- `BenchOptions` (internal/scoring/axis/benchmarks.go:39-43), and weights. -/
structure AxisOptions where
  weights : Weight → Nat
  includes : Option (List Bytes) := none
  excludes : List Bytes := []

/-- `Setup` (internal/scoring/axis/benchmarks.go:57-141): the data of handlers, with the
data from before; `none` is a panic. -/
def benchSetup (R : Rounding) (o : AxisOptions) (ordT ordT' ordH : Bytes → Map Bytes (Record Rat) → List (Bytes × Record Rat))
    (b : Bench Rat) (tests handlers : List Bytes) (before : Map Bytes HandlerData) : Option (Map Bytes HandlerData) :=
  let tags := testTagMap o.includes o.excludes tests
  let original := makeRanges Ranges.addOriginal ordT' b tags tests
  let ranges := makeRanges Ranges.add ordT b tags tests
  handlers.foldl (fun acc h =>
    match acc with
    | none => none
    | some m =>
      match oneHandler R o.weights tags ranges original ((m.get h).getD {}) (ordH h (b.testRecordsFor h)) with
      | none => none
      | some hd => some (m.set h hd)) (some before)

/-- `Setup` of a new axis, with the lists of tags of the benchmarks
(internal/scoring/axis/benchmarks.go:57-58, 65, 83). -/
def newBenchAxis (R : Rounding) (S : Sorter) (pick : List Bytes → List Bytes) (o : AxisOptions)
    (ordT ordT' ordH : Bytes → Map Bytes (Record Rat) → List (Bytes × Record Rat)) (b : Bench Rat) : Option (Map Bytes HandlerData) :=
  benchSetup R o ordT ordT' ordH b (b.testTags S pick).2 (b.handlerTags S pick).2 []

end Verif.Score
