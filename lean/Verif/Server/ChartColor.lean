import Mathlib.Algebra.Order.Floor.Ring
import Mathlib.Data.Rat.Floor

/-
The colours of the points in the chart of scores (cmd/server/chart/score.go:394-429).

Numbers are elements of an ordered field, rounded after every operation: the rational numbers with the rounding of `float64`, or
the real numbers without rounding, where square roots are exact. Simplified: `math.Pow(x, 2)` is the rounded product of `x`
with itself, and exponents are unbounded. A division by zero is not followed any further (`none`): in Go it makes an infinity or
not-a-number. Package chart hands over the ranges of the axes, which it may adapt to the ticks; so any ranges are allowed for.
-/

namespace Verif.Server

/-- The operations of `float64` used for colours: how results are rounded, and `math.Sqrt`
(cmd/server/chart/score.go:399, 423 and 428). -/
structure Arith (K : Type) where
  rnd : K → K
  sqrt : K → K

/-- The least and the greatest values of the two `chart.Range`s given to `scoreChartColorFunction`
(cmd/server/chart/score.go:408-410; the ranges of the chart are made in cmd/server/chart/score.go:243-253). -/
structure Box (K : Type) where
  xMin : K
  yMin : K
  xMax : K
  yMax : K

/-- `drawing.Color` (cmd/server/chart/score.go:413-418). -/
structure Colour where
  r : Nat
  g : Nat
  b : Nat
  a : Nat
deriving DecidableEq

section
variable {K : Type} [Field K] [LinearOrder K] [FloorRing K] (A : Arith K)

/-- A division (cmd/server/chart/score.go:399, 423 and 428). -/
def Arith.quot (a b : K) : Option K := if b = 0 then none else some (A.rnd (a / b))

/-- The conversion `byte(…)` of a number (cmd/server/chart/score.go:399): the fraction is discarded. `none`: a result which
the language leaves to the implementation, as what is left is no byte. -/
def toByte (v : K) : Option Nat := if -1 < v ∧ v < 256 then some ⌊v⌋.toNat else none

/-- `scoreChartRatio` (cmd/server/chart/score.go:426-429). -/
def scoreChartRatio (xMin yMin xMax yMax : K) : Option K := A.quot (A.rnd (xMax - xMin)) (A.rnd (yMax - yMin))

/-- `scoreChartDistance` (cmd/server/chart/score.go:421-424). -/
def scoreChartDistance (xMin yMin xMax yMax ratio : K) : Option K := do
  let w ← A.quot (A.rnd (xMax - xMin)) ratio
  let h := A.rnd (yMax - yMin)
  return A.sqrt (A.rnd (A.rnd (w * w) + A.rnd (h * h)))

/-- `scoreChartColor` (cmd/server/chart/score.go:394-400). -/
def scoreChartColor (distance diagonal : K) : Option Nat :=
  if diagonal < distance then some 0
  else do
    let part ← A.quot (A.rnd (255 * distance)) diagonal
    toByte (A.rnd (255 - part))

/-- `scoreChartColorFunction` (cmd/server/chart/score.go:402-419). -/
def scoreChartColorFunction (b : Box K) (x y : K) : Option Colour := do
  let ratio ← scoreChartRatio A b.xMin b.yMin b.xMax b.yMax
  let diagonal ← scoreChartDistance A b.xMin b.yMin b.xMax b.yMax ratio
  let distLow ← scoreChartDistance A x y b.xMin b.yMin ratio
  let distHigh ← scoreChartDistance A b.xMax b.yMax x y ratio
  let r ← scoreChartColor A distLow diagonal
  let g ← scoreChartColor A distHigh diagonal
  return ⟨r, g, 0, 255⟩

end

end Verif.Server
