import Verif.GoLib
import Verif.Score.Float

/-
Charts of the server: cmd/server/chart/score.go and cmd/server/chart/bar.go.

Simplified: scores of a keeper are given as functions of the handler (a missing handler, for which
`ScoreFor` panics, is not modelled). Drawing is not modelled.
-/

namespace Verif.Server

open Verif.Go Verif.Score

/-- `a < b` of `float64`: false if one is not a number. -/
def lt : Val → Val → Bool
  | .nan, _ => false
  | _, .nan => false
  | .inf s, .inf t => s && !t
  | .inf s, .fin _ => s
  | .fin _, .inf t => !t
  | .fin a, .fin b => a < b

/-- `a >= b` of `float64`: false if one is not a number. -/
def ge : Val → Val → Bool
  | .nan, _ => false
  | _, .nan => false
  | a, b => !lt a b

/-- The part of `sizeData` that matters here (cmd/server/chart/score.go:74-80): the lowest values that are shown. -/
structure Size where
  x : Rat
  y : Rat

/-- `sizes` (cmd/server/chart/score.go:82-118). -/
def sizes : List Size := [⟨0, 0⟩, ⟨25, 25⟩, ⟨50, 50⟩, ⟨75, 75⟩]

/-- `sizes[i]`. -/
def size (i : Nat) : Size := sizes.getD i ⟨0, 0⟩

/-- The digits of a number, most significant first (`strconv.Atoi` of package strconv). -/
def digitsValue : Bytes → Nat → Option Nat
  | [], n => some n
  | a :: s, n => if 0x30 ≤ a && a ≤ 0x39 then digitsValue s (n * 10 + (a.toNat - 0x30)) else none

/-- The sign of a number, and the rest (`strconv.Atoi`). -/
def signOf : Bytes → Bool × Bytes
  | 0x2D :: t => (true, t)
  | 0x2B :: t => (false, t)
  | t => (false, t)

/-- `strconv.Atoi`: `none` is an error, for text that is no number or one that is no `int64`. -/
def atoi (s : Bytes) : Option Int :=
  if (signOf s).2 = [] then none
  else match digitsValue (signOf s).2 0 with
    | none => none
    | some n => if (signOf s).1 then (if n ≤ 2 ^ 63 then some (-(n : Int)) else none) else (if n < 2 ^ 63 then some n else none)

/-- `scoreChartSize` (cmd/server/chart/score.go:147-170), for the URL parameter `size`. -/
def scoreChartSize (sizeStr : Bytes) : Int :=
  if sizeStr ≠ [] then
    let size := match atoi sizeStr with
      | some n => n
      | none => 0
    let size := if size < 0 then 0 else size
    if size > 0 then
      let high : Int := sizes.length - 1
      if size > high then high else size
    else size
  else 0

/-- Coordinates of a handler (cmd/server/chart/score.go:53-55). -/
structure Coords where
  x : Val
  y : Val
deriving DecidableEq

/-- The scores of a keeper (`keeper.X().ScoreFor`, `keeper.Y().ScoreFor`). -/
structure Scored where
  tags : List Bytes
  x : Bytes → Val
  y : Bytes → Val

/-- A handler of the warnings in `newChartData` (cmd/server/chart/score.go:206-216). -/
def addX (k : Scored) (s : Size) (m : Map Bytes Coords) (h : Bytes) : Map Bytes Coords :=
  match m.get h with
  | none => m
  | some c => if ge (k.x h) (.fin s.x) then m.set h { c with x := k.x h } else m.del h

/-- The handlers of `newChartData` (cmd/server/chart/score.go:189-220), for the handlers of the warnings. -/
def chartHandlers (k : Scored) (warnTags : List Bytes) (s : Size) : Map Bytes Coords :=
  let m : Map Bytes Coords := k.tags.foldl (fun m h => if ge (k.y h) (.fin s.y) then m.set h ⟨.fin 0, k.y h⟩ else m) []
  warnTags.foldl (addX k s) m

/-- Some handler is out of the chart of a size (cmd/server/chart/score.go:225-230). -/
def outside (k : Scored) (s : Size) : Bool := k.tags.any fun h => lt (k.y h) (.fin s.y) || lt (k.x h) (.fin s.x)

/-- The loop of `SmallestChartSize` over the sizes from `sz` (cmd/server/chart/score.go:224-232). -/
def smallestFrom (k : Scored) : List Size → Nat → Nat → Nat
  | [], _, smallest => smallest
  | s :: ss, sz, smallest => if outside k s then smallest else smallestFrom k ss (sz + 1) sz

/-- `SmallestChartSize` (cmd/server/chart/score.go:222-234). -/
def smallestChartSize (k : Scored) : Nat := smallestFrom k sizes.tail 1 0

/-- `tickDistance` (cmd/server/chart/score.go:433-440). -/
def tickDistance (low : Nat) : Nat :=
  if 100 - low ≤ 10 then 2
  else if 100 - low ≤ 25 then 2
  else if 100 - low ≤ 50 then 5
  else 10

/-- The next tick (cmd/server/chart/score.go:447-451). -/
def nextTick (d t : Nat) : Nat := if t % d = 0 then t + d else (t + d - 1) / d * d

theorem nextTick_gt {d : Nat} (h : 0 < d) (t : Nat) : t < nextTick d t := by
  unfold nextTick
  split
  · omega
  · rename_i hm
    have h1 := Nat.div_add_mod t d
    have h2 : (t + d - 1) / d = t / d + 1 := by
      rw [show t + d - 1 = d * (t / d) + (t % d + d - 1) by omega, Nat.mul_add_div h]
      have : (t % d + d - 1) / d = 1 := by
        have := Nat.mod_lt t h
        apply Nat.div_eq_of_lt_le <;> omega
      omega
    rw [h2, Nat.add_mul, Nat.mul_comm]
    have := Nat.mod_lt t h
    omega

/-- The loop of `scoreChartTicks` (cmd/server/chart/score.go:442-452). -/
def ticksFrom (d t : Nat) : List Nat :=
  if _h : t ≤ 100 ∧ 0 < d then t :: ticksFrom d (nextTick d t) else []
termination_by 101 - t
decreasing_by
  have := nextTick_gt _h.2 t
  omega

/-- `scoreChartTicks` (cmd/server/chart/score.go:432-454) for integers up to 100, such as those in `sizes`, where the arithmetic of
`float64` is exact. -/
def scoreChartTicks (low : Nat) : List Nat := ticksFrom (tickDistance low) low

/-- The loop of `reverse` (cmd/server/chart/bar.go:113-117): exchanging elements `i` and `j`. -/
def reverseLoop {α : Type} (a : Array α) (i j : Nat) : Array α :=
  if h : i < j ∧ j < a.size then
    reverseLoop ((a.set i a[j]).set j (a[i]'(by omega)) (by simp; omega)) (i + 1) (j - 1)
  else a
termination_by j - i

/-- `reverse` (cmd/server/chart/bar.go:110-118). For the empty slice `j` is -1, and the loop ends at once. -/
def reverse {α : Type} (a : Array α) : Array α := reverseLoop a 0 (a.size - 1)

end Verif.Server
