import Verif.GoLib
import Mathlib.Logic.Function.Basic

/-
Lists that are made when they are first asked for, asked for by any number of requests at the same time. There are
many functions of this kind, none with a mutex:

* `Keepers` (internal/scoring/score/keeper.go:162-180), `(*WarningData).Handlers` and `Tests`
  (internal/data/warnings.go:247-273), `(*DataLevel).Warnings` (internal/data/warnings.go:342-353): if the list is nil, an
  empty one is made, filled and sorted;
* `(*Benchmarks).HandlerTags` and `TestTags` (internal/data/bench.go:128-138, 156-166): if the list is nil it is filled and
  sorted;
* `(*Warnings).HandlerTags` and `TestTags` (internal/data/warnings.go:104-114, 149-159): the same if the list is empty;
* `(*Levels).Levels` (internal/data/warnings.go:298-308): if the list is empty, an empty one is made and filled; not
  sorted.

Simplified: reading the variable, appending one element, and sorting are one step each; lists are values, so that a
list somebody holds is not changed by sorting or appending afterwards; sorting never panics.
-/

namespace Verif.Server

/-- The ways in which the functions differ. -/
structure Lazy where
  /-- An empty list is made again, not only one that is nil. -/
  short : Bool
  /-- An empty list is stored before the elements. -/
  made : Bool

/-- internal/scoring/score/keeper.go:162-180; internal/data/warnings.go:247-257, 263-273, 342-353 -/
def Lazy.keepers : Lazy := { short := false, made := true }

/-- internal/data/bench.go:128-138, 156-166 -/
def Lazy.bench : Lazy := { short := false, made := false }

/-- internal/data/warnings.go:104-114, 149-159 -/
def Lazy.warnings : Lazy := { short := true, made := false }

/-- internal/data/warnings.go:298-308 -/
def Lazy.levels : Lazy := { short := true, made := true }

/-- Where a request is in the function (lines of internal/scoring/score/keeper.go). -/
inductive Listing (α : Type)
  /-- 163 -/
  | ask
  /-- 164 -/
  | make
  /-- 165-167, with the elements that are still to be appended -/
  | fill (rest : List α)
  /-- 168-177 -/
  | sort
  /-- 179 -/
  | ret
deriving DecidableEq

/-- A request: how often it is still going to ask, where it is, and the lists it got. -/
structure Viewer (α : Type) where
  calls : Nat
  phase : Listing α := .ask
  shown : List (List α) := []

/-- The variable (internal/scoring/score/keeper.go:142; nil is `none`) and the requests. -/
structure ListWorld (α : Type) where
  var : Option (List α)
  viewers : Nat → Viewer α

variable {α : Type}

/-- The condition under which a list is made (internal/scoring/score/keeper.go:163, internal/data/warnings.go:105). -/
def Lazy.cold (z : Lazy) (var : Option (List α)) : Bool :=
  match var with
  | none => true
  | some l => z.short && l.isEmpty

/-- Request `t` is at another place. -/
def ListWorld.goto (s : ListWorld α) (t : Nat) (p : Listing α) : ListWorld α :=
  { s with viewers := Function.update s.viewers t { s.viewers t with phase := p } }

/-- One step of request `t` (internal/scoring/score/keeper.go:162-180 and the functions named above). `order t n` is the
order in which it visits the map when it has still `n` calls to make, `srt` sorts. -/
def ListWorld.step (z : Lazy) (srt : List α → List α) (order : Nat → Nat → List α) (s : ListWorld α) (t : Nat) : ListWorld α :=
  if (s.viewers t).calls = 0 then s
  else match (s.viewers t).phase with
    | .ask => s.goto t (if z.cold s.var then .make else .ret)
    | .make => { s with var := if z.made then some [] else s.var }.goto t (.fill (order t (s.viewers t).calls))
    | .fill [] => s.goto t .sort
    | .fill (x :: rest) => { s with var := some (s.var.getD [] ++ [x]) }.goto t (.fill rest)
    | .sort => { s with var := s.var.map srt }.goto t .ret
    | .ret =>
      { s with
        viewers := Function.update s.viewers t
          { calls := (s.viewers t).calls - 1, phase := .ask, shown := (s.viewers t).shown ++ [s.var.getD []] } }

/-- A schedule. -/
def ListWorld.run (z : Lazy) (srt : List α → List α) (order : Nat → Nat → List α) (s : ListWorld α) (ts : List Nat) : ListWorld α :=
  ts.foldl (ListWorld.step z srt order) s

/-- Requests that have just come in. -/
def ListWorld.start (var : Option (List α)) (calls : Nat → Nat) : ListWorld α :=
  { var, viewers := fun t => { calls := calls t } }

end Verif.Server
