import Verif.Score.WarnAxis

/-
The comparison of the two calculations of scores of warnings, /repo/internal/scoring/axis/warn/original.go:86-95, with
/repo/internal/scoring/axis/common/stuff.go.

Simplified: what is logged is the pair of scores; the handler is added to it.
-/

namespace Verif.Score
open Go Verif.Warning Verif.Data

/-- Go's `==` on `float64`. -/
def Val.same : Val → Val → Bool
  | .nan, _ => false
  | _, .nan => false
  | .inf s, .inf t => s == t
  | .fin a, .fin b => a == b
  | _, _ => false

/-- Go's `<` on `float64`. -/
def Val.below : Val → Val → Bool
  | .nan, _ => false
  | _, .nan => false
  | .inf s, .inf t => s && !t
  | .inf s, .fin _ => s
  | .fin _, .inf t => !t
  | .fin a, .fin b => a < b

/-- `math.Abs`. -/
def Val.abs : Val → Val
  | .nan => .nan
  | .inf _ => .inf false
  | .fin q => .fin |q|

/-- `PercentDifference` (internal/scoring/axis/common/stuff.go:24-29). -/
def percentDifference (R : Rounding) (a b : Val) : Val :=
  if a.same b then .fin 0
  else Val.div R (Val.mul R (.fin 200) (Val.sub R a b).abs) (Val.add R a b).abs

/-- `PercentEqual` (internal/scoring/axis/common/stuff.go:20-22), with `percent` (line 10). -/
def percentEqual (R : Rounding) (a b : Val) : Bool := (percentDifference R a b).below (.fin 5)

/-- `CheckByDataScores` (internal/scoring/axis/warn/original.go:86-95), called at internal/scoring/axis/warnings.go:98: what is logged; `none` is a panic,
there is no data for a handler. The original score of a handler is that stored at internal/scoring/axis/warnings.go:96. -/
def checkByData (R : Rounding) (m : Map Bytes WarnHandler) : List Bytes → Option (List (Bytes × Val × Val))
  | [] => some []
  | h :: hs =>
    match m.get h with
    | none => none
    | some hd => match checkByData R m hs with
      | none => none
      | some logged => some (if percentEqual R hd.scores.original hd.scores.byData then logged
          else (h, hd.scores.original, hd.scores.byData) :: logged)

end Verif.Score
