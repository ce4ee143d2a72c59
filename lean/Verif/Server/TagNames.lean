import Verif.Data.WarnParser
import Mathlib.Logic.Function.Basic

/-
The cached names of tags, internal/data/tags.go, asked for by any number of requests at the same time.

Each request runs in a goroutine (net/http). The maps `testTagNames` and `handlerTagNames` have no mutex. The Go
runtime marks a map while it is written, and ends the program if a goroutine begins to read or write a
map that is marked ("concurrent map read and map write", "concurrent map writes"; neither can be recovered).

The values of the map are of any type: the same model is used for the averages of tests (Verif/Score/AxisAsk.lean).

Simplified: reading a map is one step; writing is two, marking and storing. (A read that has begun when a write
begins can also go wrong; that is left out.)
-/

namespace Verif.Server

open Verif.Go

variable {α : Type}

/-- Where a request is in `Name` (internal/data/tags.go:23-42 or 53-68). -/
inductive Naming (α : Type)
  /-- before line 24 or 54 -/
  | look
  /-- before line 38 or 65, with the name made -/
  | store (name : α)
  /-- writing to the map, line 38 or 65 -/
  | mid (name : α)
deriving DecidableEq

/-- A request: the tags whose names are still to be asked for (the first one is being asked for), and the
names it got. -/
structure Asker (α : Type) where
  todo : List Bytes
  phase : Naming α := .look
  got : List (Bytes × α) := []

/-- One of the maps (internal/data/tags.go:20 or 50), the goroutine that is writing to it, whether the program was
ended by the runtime, and the requests. -/
structure NameWorld (α : Type) where
  names : Map Bytes α
  writing : Option Nat := none
  dead : Bool := false
  askers : Nat → Asker α

/-- A request has got a name. -/
def Asker.take (a : Asker α) (tag : Bytes) (name : α) : Asker α :=
  { todo := a.todo.tail, phase := .look, got := a.got ++ [(tag, name)] }

/-- One step of goroutine `t` (internal/data/tags.go:23-42 and 53-68); `name` makes a name (`testName`, lines 26-37, or
`handlerName`, lines 56-64). -/
def NameWorld.step (name : Bytes → α) (s : NameWorld α) (t : Nat) : NameWorld α :=
  if s.dead then s
  else match (s.askers t).todo with
    | [] => s
    | tag :: _ =>
      match (s.askers t).phase with
      | .look =>
        if s.writing.isSome then { s with dead := true }
        else match s.names.get tag with
          | some n => { s with askers := Function.update s.askers t ((s.askers t).take tag n) }
          | none => { s with askers := Function.update s.askers t { s.askers t with phase := .store (name tag) } }
      | .store n =>
        if s.writing.isSome then { s with dead := true }
        else { s with writing := some t, askers := Function.update s.askers t { s.askers t with phase := .mid n } }
      | .mid n =>
        { s with names := s.names.set tag n, writing := none,
                 askers := Function.update s.askers t ((s.askers t).take tag n) }

/-- A schedule. -/
def NameWorld.run (name : Bytes → α) (s : NameWorld α) (ts : List Nat) : NameWorld α := ts.foldl (NameWorld.step name) s

/-- Requests that have just come in. -/
def NameWorld.start (names : Map Bytes α) (asks : Nat → List Bytes) : NameWorld α :=
  { names, askers := fun t => { todo := asks t } }

end Verif.Server
