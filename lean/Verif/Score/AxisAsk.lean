import Verif.Score.BenchAxis
import Verif.Server.TagNames

/-
What the page of scores asks a benchmark axis for: `HasTest` and `ScoreForTest` in
/repo/internal/scoring/axis/benchmarks.go, `ByTest` in /repo/internal/scoring/axis/common/data.go and the tables in
/repo/cmd/server/pages/scores.gohtml. `ByTest` makes an average for a test that has none, so that asking changes the axis.

Simplified: numbers are not written out (`FixValue`, `FixFloat`, `FixUint`); the columns of scores at the right of the tables, which
do not depend on tests, and names of handlers are left out. The order in which Go goes through the map of handlers is given by a
function of the number of times it was gone through before.
-/

namespace Verif.Score
open Go Verif.Warning Verif.Data

/-- `ByTest` (internal/scoring/axis/common/data.go:20-25): the average, and what the data is afterwards. -/
def HandlerData.ask (hd : HandlerData) (t : Bytes) : Average × HandlerData :=
  match hd.byTest.get t with
  | some a => (a, hd)
  | none => ({}, { hd with byTest := hd.byTest.set t {} })

/-- `HasTest` (internal/scoring/axis/benchmarks.go:150-159), for handlers in some order. A handler that is not in the map cannot be met. -/
def hasTest (t : Bytes) : List Bytes → Map Bytes HandlerData → Bool × Map Bytes HandlerData
  | [], m => (false, m)
  | h :: hs, m =>
    match m.get h with
    | none => hasTest t hs m
    | some hd =>
      let r := hd.ask t
      if r.1.count > 0 then (true, m.set h r.2) else hasTest t hs (m.set h r.2)

/-- The handlers that `HasTest` asks (internal/scoring/axis/benchmarks.go:151-157). -/
def askedFor (t : Bytes) (m : Map Bytes HandlerData) : List Bytes → List Bytes
  | [] => []
  | h :: hs =>
    match m.get h with
    | none => askedFor t m hs
    | some hd => if (hd.ask t).1.count > 0 then [h] else h :: askedFor t m hs

/-- `ScoreForTest` (internal/scoring/axis/benchmarks.go:165-167); `none` is a panic: there is no such handler. -/
def scoreForTest (R : Rounding) (h t : Bytes) (m : Map Bytes HandlerData) : Option (Val × Map Bytes HandlerData) :=
  match m.get h with
  | none => none
  | some hd => let r := hd.ask t; some (r.1.average R, m.set h r.2)

/-- An axis while pages are made (internal/scoring/axis/benchmarks.go:44-51), and the number of times that its map was gone through. -/
structure Asking where
  visits : Nat := 0
  handlers : Map Bytes HandlerData

/-- `HasTest` in a template (cmd/server/pages/scores.gohtml:98). -/
def Asking.has (ord : Nat → List Bytes) (t : Bytes) (s : Asking) : Bool × Asking :=
  let r := hasTest t (ord s.visits) s.handlers
  (r.1, ⟨s.visits + 1, r.2⟩)

/-- `ScoreForTest` in a template (cmd/server/pages/scores.gohtml:123). -/
def Asking.score (R : Rounding) (h t : Bytes) (s : Asking) : Option (Val × Asking) :=
  match scoreForTest R h t s.handlers with
  | none => none
  | some (v, m) => some (v, { s with handlers := m })

/-- The columns of a table (cmd/server/pages/scores.gohtml:97-101, 145-149, 195-199 and 245-249). -/
def columns (ord : Nat → List Bytes) : List Bytes → Asking → List Bytes × Asking
  | [], s => ([], s)
  | t :: ts, s =>
    let r := s.has ord t
    let q := columns ord ts r.2
    (if r.1 then t :: q.1 else q.1, q.2)

/-- The cells of scores of a handler (cmd/server/pages/scores.gohtml:121-125). -/
def scoreCells (R : Rounding) (ord : Nat → List Bytes) (h : Bytes) : List Bytes → Asking → Option (List Val × Asking)
  | [], s => some ([], s)
  | t :: ts, s =>
    let r := s.has ord t
    if r.1 then
      match r.2.score R h t with
      | none => none
      | some (v, s) =>
        match scoreCells R ord h ts s with
        | none => none
        | some (vs, s) => some (v :: vs, s)
    else scoreCells R ord h ts r.2

/-- The rows of scores (cmd/server/pages/scores.gohtml:118-134). -/
def scoreRows (R : Rounding) (ord : Nat → List Bytes) (ts : List Bytes) : List Bytes → Asking → Option (List (Bytes × List Val) × Asking)
  | [], s => some ([], s)
  | h :: hs, s =>
    match scoreCells R ord h ts s with
    | none => none
    | some (vs, s) =>
      match scoreRows R ord ts hs s with
      | none => none
      | some (rows, s) => some ((h, vs) :: rows, s)

/-- What is shown of a record: microseconds, allocations or bytes (cmd/server/pages/scores.gohtml:173, 223 and 273). A record that is
not in the map is the zero value (internal/data/bench.go:14, 20-28). -/
def shownValue (R : Rounding) (w : Weight) (r : Option (Record Rat)) : Val :=
  match w with
  | .nanoseconds => Val.div R (.fin (match r with | some r => r.nanosPerOp | none => 0)) (.fin 1000)
  | .allocations => .fin (match r with | some r => r.memAllocsPerOp | none => 0)
  | .allocBytes => .fin (match r with | some r => r.memBytesPerOp | none => 0)

/-- The cells of a measure of a handler (cmd/server/pages/scores.gohtml:169-175, 219-225 and 269-275). -/
def valueCells (R : Rounding) (ord : Nat → List Bytes) (w : Weight) (recs : Map Bytes (Record Rat)) : List Bytes → Asking → List Val × Asking
  | [], s => ([], s)
  | t :: ts, s =>
    let r := s.has ord t
    let q := valueCells R ord w recs ts r.2
    (if r.1 then shownValue R w (recs.get t) :: q.1 else q.1, q.2)

/-- The rows of a measure (cmd/server/pages/scores.gohtml:166-184, 216-234 and 266-284). -/
def valueRows (R : Rounding) (ord : Nat → List Bytes) (w : Weight) (b : Bench Rat) (ts : List Bytes) :
    List Bytes → Asking → List (Bytes × List Val) × Asking
  | [], s => ([], s)
  | h :: hs, s =>
    let r := valueCells R ord w (b.testRecordsFor h) ts s
    let q := valueRows R ord w b ts hs r.2
    ((h, r.1) :: q.1, q.2)

/-- A table: columns, and a row for each handler (cmd/server/pages/scores.gohtml:86-135). -/
structure Table where
  tests : List Bytes
  rows : List (Bytes × List Val)
deriving DecidableEq

/-- The table of scores (cmd/server/pages/scores.gohtml:86-135). -/
def scoreTable (R : Rounding) (ord : Nat → List Bytes) (ts hs : List Bytes) (s : Asking) : Option (Table × Asking) :=
  let c := columns ord ts s
  match scoreRows R ord ts hs c.2 with
  | none => none
  | some (rows, s) => some (⟨c.1, rows⟩, s)

/-- The table of a measure (cmd/server/pages/scores.gohtml:138-185, 188-235 and 238-285). -/
def valueTable (R : Rounding) (ord : Nat → List Bytes) (w : Weight) (b : Bench Rat) (ts hs : List Bytes) (s : Asking) : Table × Asking :=
  let c := columns ord ts s
  let r := valueRows R ord w b ts hs c.2
  (⟨c.1, r.1⟩, r.2)

/-- The four tables of a benchmark axis (cmd/server/pages/scores.gohtml:83-287); `none` is a template that fails, since a method
panics. -/
def axisTables (R : Rounding) (ord : Nat → List Bytes) (b : Bench Rat) (ts hs : List Bytes) (s : Asking) : Option (List Table × Asking) :=
  match scoreTable R ord ts hs s with
  | none => none
  | some (scores, s) =>
    let a := valueTable R ord .nanoseconds b ts hs s
    let b' := valueTable R ord .allocations b ts hs a.2
    let c := valueTable R ord .allocBytes b ts hs b'.2
    some ([scores, a.1, b'.1, c.1], c.2)

/-- The tests that the loops over tests of a page make a request ask the map of handler `h` for, with the orders in which the maps of
handlers are gone through (cmd/server/pages/scores.gohtml:97-98, internal/scoring/axis/benchmarks.go:150-159). Each time `ByTest` reads the map
twice: before and after it may have to write (internal/scoring/axis/common/data.go:21 and 24). -/
def mapReads (m : Map Bytes HandlerData) (h : Bytes) : List (Bytes × List Bytes) → List Bytes
  | [] => []
  | (t, order) :: l => if h ∈ askedFor t m order then t :: t :: mapReads m h l else mapReads m h l

end Verif.Score
