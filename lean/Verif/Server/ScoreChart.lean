import Verif.Server.Chart

/-
What is drawn in the chart of scores: cmd/server/chart/score.go.

Simplified: positions of labels are computed without rounding, and the factors 0.7, 0.5 and 0.4 of `sizes` are not rounded either.
A handler whose score is an infinity has no point here; scores are never infinite (C41, C42). Colours, strokes and the drawing of the
library are not modelled, nor are the axes (their ticks are in `Server.Chart`).
-/

namespace Verif.Server

open Verif.Go Verif.Score

/-- `sort.Slice` with a comparison that need not be a strict order: elements at different places are compared, and never an element
with itself (package sort: `insertionSort_func`, `heapSort_func` and `pdqsort_func` call `less` with different indices). Two
comparisons that agree on elements at different places have the same result. Used in cmd/server/chart/score.go:319-321. -/
structure PairSorter extends Sorter where
  agree : ∀ {α : Type} (lt lt' : α → α → Bool) (l : List α),
    (l.Pairwise fun a b => lt a b = lt' a b ∧ lt b a = lt' b a) → sort lt l = sort lt' l

/-- `sizeData` (cmd/server/chart/score.go:74-80): of `adjust` only `y` is used. -/
structure SizeData where
  name : Bytes
  low : Size
  adjustY : Rat
  labelX : Rat
  sizeX : Rat

/-- `sizes` (cmd/server/chart/score.go:82-118), with `defaultLabelSize` (cmd/server/chart/score.go:64-72) and `adjust`
(cmd/server/chart/score.go:57-62). -/
def sizeDatas : List SizeData :=
  [⟨b!"Full Size", ⟨0, 0⟩, 9 / 2, 110, 0⟩,
   ⟨b!"3/4", ⟨25, 25⟩, 9 / 2 * (7 / 10), 215 / 2, 85⟩,
   ⟨b!"Half", ⟨50, 50⟩, 9 / 2 * (5 / 10), 105, 90⟩,
   ⟨b!"Quarter", ⟨75, 75⟩, 9 / 2 * (4 / 10), 205 / 2, 93⟩]

/-- `scoreChartDataItem` (cmd/server/chart/score.go:174-178). -/
structure Item where
  label : Bytes
  x : Val
  y : Rat
  labelY : Rat
deriving DecidableEq

/-- What is drawn: a line through points, points, or labels at places (`chart.ContinuousSeries` and `chart.AnnotationSeries`). -/
inductive Series
  | line (points : List (Val × Rat))
  | dots (points : List (Val × Rat))
  | labels (labels : List (Bytes × Rat × Rat))
deriving DecidableEq

/-- The item of a handler (cmd/server/chart/score.go:291-301), if its second coordinate is greater than 0.00001. -/
def itemOf (name : Bytes → Bytes) (e : Bytes × Coords) : Option Item :=
  match e.2.y with
  | .fin q => if 1 / 100000 < q then some ⟨name e.1, e.2.x, q, 0⟩ else none
  | _ => none

/-- The room for the labels (cmd/server/chart/score.go:302). -/
def necessary (d : SizeData) (handlers : Nat) : Rat := handlers * (d.adjustY + 1) + 1

/-- The greatest and the least second coordinate (cmd/server/chart/score.go:304-313): `top` and `bottom`. -/
def spanItem (tb : Rat × Rat) (i : Item) : Rat × Rat :=
  (if tb.1 < i.y then i.y else tb.1, if i.y < tb.2 then i.y else tb.2)

/-- The place of the first label (cmd/server/chart/score.go:303-317). -/
def labelTop (d : SizeData) (handlers : Nat) (items : List Item) : Rat :=
  let tb := items.foldl spanItem (0, 100)
  let top := (tb.1 + tb.2) / 2 + necessary d handlers / 2
  if 100 < top then 100 else top

/-- The comparison (cmd/server/chart/score.go:319-321). -/
def notBelow (a b : Item) : Bool := decide (b.y ≤ a.y)

/-- The last loop of `dataMarkers` (cmd/server/chart/score.go:322-334): the line to the label, and the place of the label. -/
def placeLabels (d : SizeData) : List Item → Rat → List Item × List Series
  | [], _ => ([], [])
  | i :: l, top =>
    let r := placeLabels d l (top - (d.adjustY + 1))
    ({ i with labelY := top } :: r.1, .line [(i.x, i.y), (.fin d.labelX, top)] :: r.2)

/-- `dataMarkers` (cmd/server/chart/score.go:289-335), for the handlers in the order in which the map is gone through. -/
def dataMarkers (S : Sorter) (name : Bytes → Bytes) (d : SizeData) (handlers : List (Bytes × Coords)) : List Item × List Series :=
  let items := handlers.filterMap (itemOf name)
  placeLabels d (S.sort notBelow items) (labelTop d handlers.length items)

/-- The loop of `sizeMarkers` (cmd/server/chart/score.go:339-363): the lines and the labels. -/
def sizeLoop (d : SizeData) : List SizeData → Rat → List Series × List (Bytes × Rat × Rat)
  | [], _ => ([], [])
  | s :: l, labelX =>
    if d.low.x < s.low.x ∧ d.low.y < s.low.y then
      let labelX := if labelX = 0 then s.sizeX else labelX
      let r := sizeLoop d l labelX
      (.line [(.fin s.low.x, 100), (.fin s.low.x, s.low.y), (.fin 100, s.low.y)] :: r.1, (s.name, labelX, s.low.y) :: r.2)
    else sizeLoop d l labelX

/-- `sizeMarkers` (cmd/server/chart/score.go:337-374). -/
def sizeMarkers (d : SizeData) : List Series :=
  let r := sizeLoop d sizeDatas 0
  r.1 ++ (if r.2 = [] then [] else [.labels r.2])

/-- `annotations` (cmd/server/chart/score.go:276-287). -/
def annotations (d : SizeData) (items : List Item) : List (Bytes × Rat × Rat) :=
  items.map fun i => (i.label, d.labelX, i.labelY)

/-- `generate` (cmd/server/chart/score.go:236-274): everything drawn; `xValues` and `yValues` (cmd/server/chart/score.go:376-390). -/
def generate (S : Sorter) (name : Bytes → Bytes) (d : SizeData) (handlers : List (Bytes × Coords)) : List Series :=
  let r := dataMarkers S name d handlers
  r.2 ++ sizeMarkers d ++ [.dots (r.1.map fun i => (i.x, i.y)), .labels (annotations d r.1)]

end Verif.Server
