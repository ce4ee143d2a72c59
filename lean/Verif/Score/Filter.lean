import Verif.Score.BenchAxis
import Verif.Data.WarnParser

/-
Filters of handlers by name, the filters of the score keepers, and what a keeper keeps:
internal/scoring/score/filter.go, internal/scoring/group, internal/scoring/filter,
internal/scoring/score/keeper.go.

Simplified: a `*Group` is its map, as nothing changes the map of a group once it is made.
The order in which the map of a group is visited is a function `ord` of the map.
-/

namespace Verif.Score

open Verif.Go Verif.Data

/-- `Group` (internal/scoring/score/filter.go:11-13). -/
abbrev Group := Map Bytes Bool

/-- What may be passed to `NewFilterGroup`: a string, a pointer to a group (which may be
nil), anything else (internal/scoring/score/filter.go:22-34). -/
inductive Item where
  | str (s : Bytes)
  | group (g : Option Group)
  | other

/-- One pass of the loop over another group (internal/scoring/score/filter.go:26-32). -/
def Group.merge (g : Group) (e : Bytes × Bool) : Group :=
  if e.2 then g.set e.1 true else g.del e.1

/-- One pass of the loop over the items (internal/scoring/score/filter.go:21-36); `none` is
the panic that reading a nil group is. -/
def Group.add (ord : Group → List (Bytes × Bool)) (g : Group) : Item → Option Group
  | .str s => some (g.set s true)
  | .group (some h) => some ((ord h).foldl Group.merge g)
  | .group none => none
  | .other => some g

/-- The loop over the items (internal/scoring/score/filter.go:21-36). -/
def Group.addAll (ord : Group → List (Bytes × Bool)) (g : Group) : List Item → Option Group
  | [] => some g
  | i :: is =>
    match Group.add ord g i with
    | some g => Group.addAll ord g is
    | none => none

/-- `NewFilterGroup` (internal/scoring/score/filter.go:17-38). -/
def newFilterGroup (ord : Group → List (Bytes × Bool)) (items : List Item) : Option Group :=
  Group.addAll ord [] items

/-- `keep` (internal/scoring/score/filter.go:40-42). -/
def Group.keep (g : Group) (handler : Bytes) : Bool := (g.get handler).getD false

/-- `includeFilter` and `excludeFilter` (internal/scoring/score/filter.go:46-48, 64-66). -/
inductive Filter where
  | incl (g : Group)
  | excl (g : Group)

/-- `NewIncludeFilter` (internal/scoring/score/filter.go:52-56). -/
def newIncludeFilter (ord : Group → List (Bytes × Bool)) (items : List Item) : Option Filter :=
  (newFilterGroup ord items).map .incl

/-- `NewExcludeFilter` (internal/scoring/score/filter.go:70-74). -/
def newExcludeFilter (ord : Group → List (Bytes × Bool)) (items : List Item) : Option Filter :=
  (newFilterGroup ord items).map .excl

/-- `Keep` (internal/scoring/score/filter.go:58-60, 76-78). -/
def Filter.keep : Filter → Bytes → Bool
  | .incl g, h => g.keep h
  | .excl g, h => !g.keep h

/-- The names of the modes (creator/veqryndedup/mode_enumer.go:10-20) that are used as names of
handlers (creator/veqryndedup/creator.go:30-32). -/
def veqrynName (mode : Bytes) : Bytes := b!"veqryn/dedup" ++ b!"/" ++ mode

/-- `group.Dedup` (internal/scoring/group/dedup.go:13-24) with
creator/snqkmeld/creator.go:12. The variable that remembers the result is left out. -/
def groupDedup (ord : Group → List (Bytes × Bool)) : Option Group :=
  newFilterGroup ord [.str b!"snqk/meld", .str (veqrynName b!"Append"), .str (veqrynName b!"Ignore"),
    .str (veqrynName b!"Increment"), .str (veqrynName b!"Overwrite")]

/-- `group.ReplAttr` (internal/scoring/group/replattr.go:12-19) with
creator/madkinsreplattr/creator.go:12. -/
def groupReplAttr (ord : Group → List (Bytes × Bool)) : Option Group :=
  newFilterGroup ord [.str b!"madkins/replattr"]

/-- `filter.Basic` (internal/scoring/filter/basic.go:10-18). -/
def filterBasic (ord : Group → List (Bytes × Bool)) : Option Filter :=
  newExcludeFilter ord [.group (groupReplAttr ord), .group (groupDedup ord)]

/-- `filter.Dedup` (internal/scoring/filter/dedup.go:13-21) with
creator/slogjson/creator.go:10. -/
def filterDedup (ord : Group → List (Bytes × Bool)) : Option Filter :=
  newIncludeFilter ord [.str b!"slog/JSONHandler", .group (groupDedup ord)]

/-- `filter.ReplAttr` (internal/scoring/filter/replattr.go:13-21) with
creator/madkinsflash/creator.go:11. -/
def filterReplAttr (ord : Group → List (Bytes × Bool)) : Option Filter :=
  newIncludeFilter ord [.str b!"madkins/flash", .group (groupReplAttr ord)]

/-- `HandlerName` of warnings (internal/data/warnings.go:61-67). -/
def warnHandlerName (w : Warns) (tag : Bytes) : Bytes :=
  match w.handlerData.get tag with
  | some d => d.name
  | none => tag

/-- `TestName` of warnings (internal/data/warnings.go:135-141). -/
def warnTestName (w : Warns) (tag : Bytes) : Bytes :=
  match w.testNames.get tag with
  | some n => n
  | none => tag

/-- `k.filter == nil || k.filter.Keep(name)` (internal/scoring/score/keeper.go:66, 72). -/
def kept (f : Option Filter) (name : Bytes) : Bool :=
  match f with
  | none => true
  | some f => f.keep name

/-- The handlers of a keeper (internal/scoring/score/keeper.go:63, 65-69). -/
def keeperHandlers {F : Type} (S : Sorter) (pick : List Bytes → List Bytes) (f : Option Filter) (b : Bench F) (w : Warns) : List Bytes :=
  (b.handlerTags S pick).2.filter fun h => kept f (warnHandlerName w h)

/-- The tests of a keeper (internal/scoring/score/keeper.go:64, 70-76). -/
def keeperTests {F : Type} (S : Sorter) (pick : List Bytes → List Bytes) (f : Option Filter) (b : Bench F) (w : Warns) : List Bytes :=
  (b.testTags S pick).2.filter fun t => b.hasTest t && kept f (warnTestName w t)

/-- `largeTests` (internal/scoring/keeper/size.go:51-56). -/
def largeTests : List Bytes := [b!"Bench.BigGroup", b!"Bench.Logging"]

/-- The tests of the axis X of the keeper `Size` (internal/scoring/keeper/size.go:36-39, with
internal/scoring/axis/benchmarks.go:186-204). -/
def sizeLarge (tests : List Bytes) : Map Bytes Bool := testTagMap (some largeTests) [] tests

/-- The tests of the axis Y of the keeper `Size` (internal/scoring/keeper/size.go:40-43). -/
def sizeSmall (tests : List Bytes) : Map Bytes Bool := testTagMap none largeTests tests

end Verif.Score
