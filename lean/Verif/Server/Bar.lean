import Verif.Data.BenchParser
import Verif.Server.Chart
import Verif.Tools.Enum

/-
Model of what is shown by the bar charts of /repo/cmd/server/chart/bar.go.

Simplifications: numbers of type float64 are of any type (`Floats`), with a conversion from integers; drawing the chart is
left out; log output is left out. The cache is in Verif/Server/Cache.lean.
-/

namespace Verif.Server
open Go Verif.Data

/-- `ItemValue` (internal/data/bench.go:36-57), with the values of the enumeration `BenchItems`
(internal/data/bench_items.go:12-20); `num` is the conversion of `uint64` to `float64`. -/
def itemValue {F : Type} (fl : Floats F) (num : Nat → F) (r : Record F) (item : Nat) : F :=
  match item with
  | 0 => num r.runs
  | 1 => r.nanosPerOp
  | 2 => num r.memAllocsPerOp
  | 3 => num r.memBytesPerOp
  | 4 => r.mbPerSec
  | 5 => r.gbPerSec
  | 6 => r.tbPerSec
  | _ => fl.zero

/-- The loop of `chartTest` and of `chartHandler` (cmd/server/chart/bar.go:80-85, 95-100): labels and values so far. -/
def barLoop {F : Type} (fl : Floats F) (num : Nat → F) (name : Bytes → Bytes) (records : Map Bytes (Record F)) (item : Nat) :
    List Bytes → Array Bytes × Array F → Array Bytes × Array F
  | [], acc => acc
  | tag :: tags, acc =>
    match records.get tag with
    | some record => barLoop fl num name records item tags (acc.1.push (name tag), acc.2.push (itemValue fl num record item))
    | none => barLoop fl num name records item tags acc

/-- `chartTest` (cmd/server/chart/bar.go:77-89): labels and values; the list of tags is kept in the data. -/
def chartTest {F : Type} (fl : Floats F) (num : Nat → F) (S : Sorter) (pick : List Bytes → List Bytes) (b : Bench F)
    (records : Map Bytes (Record F)) (item : Nat) : Bench F × Array Bytes × Array F :=
  match b.handlerTags S pick with
  | (b, tags) =>
    match barLoop fl num b.handlerName records item tags (#[], #[]) with
    | (labels, values) => (b, reverse labels, reverse values)

/-- `chartHandler` (cmd/server/chart/bar.go:92-104). -/
def chartHandler {F : Type} (fl : Floats F) (num : Nat → F) (S : Sorter) (pick : List Bytes → List Bytes) (b : Bench F)
    (records : Map Bytes (Record F)) (item : Nat) : Bench F × Array Bytes × Array F :=
  match b.testTags S pick with
  | (b, tags) =>
    match barLoop fl num b.testName records item tags (#[], #[]) with
    | (labels, values) => (b, reverse labels, reverse values)

/-- What `Bar` (cmd/server/chart/bar.go:29-42) has drawn: labels and values; `none` if there is nothing for the tag. -/
def bars {F : Type} (fl : Floats F) (num : Nat → F) (S : Sorter) (pick : List Bytes → List Bytes) (b : Bench F) (tag : Bytes) (item : Nat) :
    Bench F × Option (Array Bytes × Array F) :=
  match b.byTest.get tag with
  | some records =>
    match chartTest fl num S pick b records item with
    | (b, r) => (b, some r)
  | none =>
    match b.byHandler.get tag with
    | some records =>
      match chartHandler fl num S pick b records item with
      | (b, r) => (b, some r)
    | none => (b, none)

/-- Bars asked for one after the other. -/
def barsAll {F : Type} (fl : Floats F) (num : Nat → F) (S : Sorter) (pick : List Bytes → List Bytes) :
    Bench F → List (Bytes × Nat) → Bench F
  | b, [] => b
  | b, (tag, item) :: rs => barsAll fl num S pick (bars fl num S pick b tag item).1 rs

end Verif.Server
