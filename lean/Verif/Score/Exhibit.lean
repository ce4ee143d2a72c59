import Verif.Score.WarnAxis
import Verif.Spec.Numeral

/-
Model of the exhibits that are shown beside the scores of an axis,
/repo/internal/scoring/axis/benchmarks.go:126-139 and
/repo/internal/scoring/axis/warnings.go:99-106, with /repo/internal/scoring/exhibit.

The templates list.gohtml and table.gohtml, which show everything that is in an exhibit, are
not modelled.
-/

namespace Verif.Score
open Go Verif.Warning Verif.Data

/-- `List` and `Table` (internal/scoring/exhibit/list.go:29-33,
internal/scoring/exhibit/table.go:29-34) without the templates. -/
inductive Exhibit
  | list (caption : Bytes) (items : List Bytes)
  | table (caption : Bytes) (columns : List Bytes) (rows : List (List Bytes))
deriving DecidableEq

/-- `int(value)` for a uint (internal/scoring/axis/benchmarks.go:130,
internal/scoring/axis/warnings.go:103). -/
def asInt (v : Nat) : Int := if v < 2 ^ 63 then v else (v : Int) - 2 ^ 64

/-- `strconv.Itoa(int(value))` (internal/scoring/axis/benchmarks.go:130,
internal/scoring/axis/warnings.go:103). -/
def weightText (v : Nat) : Bytes := Slog.decInt (asInt v)

/-- One row, or none (internal/scoring/axis/benchmarks.go:129-131,
internal/scoring/axis/warnings.go:102-104). -/
def weightRow {K : Type} (name : K → Bytes) (get : K → Option Nat) (k : K) : Option (List Bytes) :=
  match get k with
  | some v => some [name k, weightText v]
  | none => none

/-- The rows of a table of weights (internal/scoring/axis/benchmarks.go:127-132,
internal/scoring/axis/warnings.go:100-105). -/
def weightRows {K : Type} (name : K → Bytes) (order : List K) (get : K → Option Nat) : List (List Bytes) :=
  order.filterMap (weightRow name get)

/-- The constants (internal/scoring/axis/bench/weight.go:9-13). -/
def Weight.text : Weight → Bytes
  | .allocations => b!"Allocations"
  | .allocBytes => b!"Alloc Bytes"
  | .nanoseconds => b!"Nanoseconds"

/-- What `NewBenchmarks` is given (internal/scoring/axis/benchmarks.go:31-55): a map of
weights, and lists that may be nil. -/
structure AxisConfig where
  weights : Map Weight Nat
  includes : Option (List Bytes) := none
  excludes : Option (List Bytes) := none

/-- How `Setup` uses it (internal/scoring/axis/benchmarks.go:103, 119, 191-208). -/
def AxisConfig.options (o : AxisConfig) : AxisOptions where
  weights w := (o.weights.get w).getD 0
  includes := o.includes
  excludes := o.excludes.getD []

/-- A list of tests, if it is not nil (internal/scoring/axis/benchmarks.go:134-139, 212-218). -/
def testsExhibit (E : Env) (caption : Bytes) : Option (List Bytes) → List Exhibit
  | some l => [.list caption (l.map (testName E))]
  | none => []

/-- The exhibits of an axis of benchmarks (internal/scoring/axis/benchmarks.go:126-139); those
from before are replaced. -/
def benchExhibits (E : Env) (o : AxisConfig) : List Exhibit :=
  [.table [] [b!"Data", b!"Weight"] (weightRows Weight.text weightOrder o.weights.get)] ++
    testsExhibit E b!"Included" o.includes ++ testsExhibit E b!"Excluded" o.excludes

/-- The exhibits of an axis of warnings (internal/scoring/axis/warnings.go:99-106,
internal/scoring/score/axis.go:46-51), added to those from before. -/
def warnExhibits (before : List Exhibit) (weights : Map Nat Nat) : List Exhibit :=
  before ++ [.table [] [b!"Level", b!"Weight"] (weightRows levelText levelOrder weights.get)]

end Verif.Score
