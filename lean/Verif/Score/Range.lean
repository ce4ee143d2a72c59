import Verif.Score.Float

/-
The ranges of measurements and the averages of scores
(internal/scoring/axis/common/range.go, internal/scoring/score/average.go).
-/

namespace Verif.Score

/-- `math.MaxFloat64`. -/
def maxFloat : Rat := (2 ^ 53 - 1) * 2 ^ 971

/-- `RangeFloat64` (internal/scoring/axis/common/range.go:24-26). -/
structure RangeF where
  low : Rat
  high : Rat

/-- `NewRangeFloat64` (internal/scoring/axis/common/range.go:28-33). -/
def RangeF.new : RangeF := ⟨maxFloat, 0⟩

/-- `RangeFloat64.AddValueFloat64` (internal/scoring/axis/common/range.go:39-46). -/
def RangeF.add (r : RangeF) (val : Rat) : RangeF :=
  let r := if val < r.low then { r with low := val } else r
  if val > r.high then { r with high := val } else r

/-- `RangeFloat64.Length` (internal/scoring/axis/common/range.go:48-50). -/
def RangeF.length (R : Rounding) (r : RangeF) : Val := Val.sub R (.fin r.high) (.fin r.low)

/-- `RangeFloat64.RangedValue` (internal/scoring/axis/common/range.go:52-54). -/
def RangeF.ranged (R : Rounding) (r : RangeF) (v : Val) : Val :=
  Val.div R (Val.mul R (.fin 100) (Val.sub R (.fin r.high) v)) (r.length R)

/-- `RangeUint64` (internal/scoring/axis/common/range.go:64-66). -/
structure RangeU where
  low : Nat
  high : Nat

/-- `NewRangeUint64` (internal/scoring/axis/common/range.go:68-73). -/
def RangeU.new : RangeU := ⟨2 ^ 64 - 1, 0⟩

/-- `RangeUint64.AddValueUint64` (internal/scoring/axis/common/range.go:79-86). -/
def RangeU.add (r : RangeU) (val : Nat) : RangeU :=
  let r := if val < r.low then { r with low := val } else r
  if val > r.high then { r with high := val } else r

/-- `RangeUint64.Length` (internal/scoring/axis/common/range.go:88-90): the difference of
unsigned integers wraps around. -/
def RangeU.length (R : Rounding) (r : RangeU) : Val := Val.ofNat R ((r.high + 2 ^ 64 - r.low) % 2 ^ 64)

/-- `RangeUint64.RangedValue` (internal/scoring/axis/common/range.go:92-94). -/
def RangeU.ranged (R : Rounding) (r : RangeU) (v : Val) : Val :=
  Val.div R (Val.mul R (.fin 100) (Val.sub R (Val.ofNat R r.high) v)) (r.length R)

/-- `Average` (internal/scoring/score/average.go:7-10). Simplified: counts are not
limited. -/
structure Average where
  value : Val := .fin 0
  count : Nat := 0
deriving DecidableEq

/-- `Add` (internal/scoring/score/average.go:12-16). -/
def Average.add (R : Rounding) (a : Average) (v : Val) : Average := ⟨Val.add R a.value v, a.count + 1⟩

/-- `AddMultiple` (internal/scoring/score/average.go:18-22). -/
def Average.addMultiple (R : Rounding) (a : Average) (v : Val) (multiple : Nat) : Average :=
  ⟨Val.add R a.value (Val.mul R v (Val.ofNat R multiple)), a.count + multiple⟩

/-- `Average.Average` (internal/scoring/score/average.go:24-32). -/
def Average.average (R : Rounding) (a : Average) : Val :=
  if a.count > 1 then Val.div R a.value (Val.ofNat R a.count) else if a.count = 1 then a.value else .nan

end Verif.Score
