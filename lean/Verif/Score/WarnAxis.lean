import Verif.Score.BenchAxis
import Verif.Data.WarnParser
import Verif.Warning.Registry

/-
Model of the warnings axis of score keepers, /repo/internal/scoring/axis/warnings.go,
with the original calculation in /repo/internal/scoring/axis/warn/original.go.

Simplifications: the comparisons of the original calculation with the newer one, which
only log, and the exhibits are left out. The lists that `HandlerTags`, `Levels` and
`Warnings` keep after the first call are not modelled: nothing is parsed after scoring
has begun.
-/

namespace Verif.Score
open Go Verif.Warning Verif.Data

/-- `HandlerData` (internal/scoring/axis/warn/data.go:9-13 and
internal/scoring/axis/common/data.go:8-11). -/
structure WarnHandler where
  byTest : Map Bytes Average := []
  byLevel : Map Nat Average := []
  counts : Map Nat Nat := []
  scores : Scores := {}

/-- `ByLevel` (internal/scoring/axis/warn/data.go:32-37). -/
def WarnHandler.level (hd : WarnHandler) (l : Nat) : Average := (hd.byLevel.get l).getD {}

/-- `CountFor` (internal/scoring/axis/warn/data.go:24-26). -/
def WarnHandler.countFor (hd : WarnHandler) (l : Nat) : Nat := (hd.counts.get l).getD 0

/-- `(*Levels).Level` (internal/data/warnings.go:286-288). -/
def _root_.Verif.Data.Levels.level (ls : Levels) (l : Nat) : Option DLevel := ls.lookup.get (levelText l)

/-- `(*DataLevel).Count` (internal/data/warnings.go:330-332, 342-353). -/
def _root_.Verif.Data.DLevel.count (d : DLevel) : Nat := d.lookup.length

/-- Whether a warning is counted (internal/scoring/axis/warnings.go:61-65). -/
def seen (w : Warns) (n : Bytes) : Bool :=
  match w.byWarning.get n with
  | some wx => 0 < wx.count.length
  | none => false

/-- The loop over the warnings of a level (internal/scoring/axis/warnings.go:59-66 and
internal/scoring/axis/warn/original.go:47-54), given their names. -/
def seenCount (w : Warns) (names : List Bytes) : Nat := (names.filter (seen w)).length

/-- The range of a level (internal/scoring/axis/warnings.go:67-68). -/
def levelRange (reg : Nat → List Bytes) (w : Warns) (l : Nat) : RangeU := RangeU.add ⟨0, 0⟩ (seenCount w (reg l))

/-- `ranges[level]` (internal/scoring/axis/warnings.go:56-70): there is one for the levels
in `LevelOrder` only. -/
def rangeOf (reg : Nat → List Bytes) (w : Warns) (l : Nat) : Option RangeU :=
  if l ∈ levelOrder then some (levelRange reg w l) else none

/-- The weights (internal/scoring/axis/warnings.go:34): reading a map. -/
def weightOf (weights : Map Nat Nat) (l : Nat) : Nat := (weights.get l).getD 0

/-- One level of a handler (internal/scoring/axis/warnings.go:82-93); `none` is a panic:
there is no range. -/
def oneLevel (R : Rounding) (weights : Map Nat Nat) (reg : Nat → List Bytes) (w : Warns) (ls : Levels)
    (st : Option (WarnHandler × Average)) (l : Nat) : Option (WarnHandler × Average) :=
  match st with
  | none => none
  | some (hd, byData) =>
    let put (hd : WarnHandler) (ranged : Val) : WarnHandler × Average :=
      let hd := { hd with byLevel := hd.byLevel.set l ((hd.level l).add R ranged) }
      (hd, byData.addMultiple R ((hd.level l).average R) (weightOf weights l))
    match ls.level l with
    | none => some (put hd (.fin 100))
    | some d =>
      let hd := { hd with counts := hd.counts.set l d.count }
      match rangeOf reg w d.level with
      | none => none
      | some rng => some (put hd (rng.ranged R (Val.ofNat R (hd.countFor l))))

/-- `MakeMaxScore` (internal/scoring/axis/warn/original.go:45-57): unsigned integers wrap
around. -/
def maxScore (weights : Map Nat Nat) (reg : Nat → List Bytes) (w : Warns) : Nat :=
  levelOrder.foldl (fun acc l => (acc + weightOf weights l * seenCount w (reg l)) % 2 ^ 64) 0

/-- The first loop of `MakeWarnScores` for a handler (internal/scoring/axis/warn/original.go:61-65),
with `(*Levels).Levels` (internal/data/warnings.go:298-308). -/
def testScore (weights : Map Nat Nat) (ls : Levels) : Nat :=
  (levelOrder.filterMap ls.level).foldl (fun acc d => (acc + weightOf weights d.level * d.count) % 2 ^ 64) 0

/-- The second loop of `MakeWarnScores` for a handler
(internal/scoring/axis/warn/original.go:69-76). -/
def warnScore (R : Rounding) (max test : Nat) : Val :=
  if max = 0 then .fin 100
  else Val.div R (Val.mul R (.fin 100) (Val.ofNat R (usub max test))) (Val.ofNat R max)

/-- One handler (internal/scoring/axis/warnings.go:74-98); `none` is a panic: `ForHandler`
returned nil, or there is no range. -/
def oneWarnHandler (R : Rounding) (weights : Map Nat Nat) (reg : Nat → List Bytes) (w : Warns) (h : Bytes)
    (hd : WarnHandler) : Option WarnHandler :=
  match w.byHandler.get h with
  | none => none
  | some ls =>
    match levelOrder.foldl (oneLevel R weights reg w ls) (some (hd, {})) with
    | none => none
    | some (hd, byData) =>
      let hd := { hd with scores.byData := byData.average R }
      let hd := { hd with scores.default := hd.scores.byData }
      some { hd with scores.original := warnScore R (maxScore weights reg w) (testScore weights ls) }

/-- `HandlerTags` (internal/data/warnings.go:104-115), called the first time; `pick` is
the order in which the map is visited. -/
def warnTags (S : Sorter) (pick : List Bytes → List Bytes) (w : Warns) : List Bytes :=
  S.sort (fun a b => less ((w.handlerData.get a).elim a HData.name) ((w.handlerData.get b).elim b HData.name))
    (pick w.byHandler.keys)

/-- `Setup` (internal/scoring/axis/warnings.go:45-111), given the names of the warnings
registered for each level (`WarningsForLevel`, infra/warning/warning.go:83-90) and the
data from before. -/
def warnSetup (R : Rounding) (weights : Map Nat Nat) (reg : Nat → List Bytes) (w : Warns) (tags : List Bytes)
    (before : Map Bytes WarnHandler) : Option (Map Bytes WarnHandler) :=
  tags.foldl (fun acc h =>
    match acc with
    | none => none
    | some m =>
      match oneWarnHandler R weights reg w h ((m.get h).getD {}) with
      | none => none
      | some hd => some (m.set h hd)) (some before)

/-- `NewWarnings` and `Setup` (internal/scoring/axis/warnings.go:36-43, 45). -/
def newWarnAxis (R : Rounding) (S : Sorter) (pick : List Bytes → List Bytes) (weights : Map Nat Nat)
    (reg : Nat → List Bytes) (w : Warns) : Option (Map Bytes WarnHandler) :=
  warnSetup R weights reg w (warnTags S pick w) []

/-- The types of scores (internal/scoring/score/type.go:9-15). -/
inductive ScoreType
  | default
  | byData
  | original
  | byTest
deriving DecidableEq

/-- `Score` (internal/scoring/axis/common/data.go:27-29). -/
def Scores.get (s : Scores) : ScoreType → Val
  | .default => s.default
  | .byData => s.byData
  | .original => s.original
  | .byTest => s.byTest

/-- `ScoreForType` (internal/scoring/axis/warnings.go:145-147); `none` is a panic: there
is no data for the handler. -/
def warnScoreFor (m : Map Bytes WarnHandler) (h : Bytes) (t : ScoreType) : Option Val :=
  (m.get h).map fun hd => hd.scores.get t

/-- `ScoreForLevel` (internal/scoring/axis/warnings.go:129-135). -/
def warnScoreForLevel (R : Rounding) (m : Map Bytes WarnHandler) (h : Bytes) (l : Nat) : Option Val :=
  (m.get h).map fun hd => if (hd.level l).count > 0 then (hd.level l).average R else .fin 100

/-- `ScoreForTest` (internal/scoring/axis/warnings.go:137-143). -/
def warnScoreForTest (R : Rounding) (m : Map Bytes WarnHandler) (h t : Bytes) : Option Val :=
  (m.get h).map fun hd =>
    let a := (hd.byTest.get t).getD {}
    if a.count > 0 then a.average R else .fin 100

end Verif.Score
