import Verif.Flash.Handler

/-
Model of `fixOptions` and `fixExtras`, /repo/handlers/flash/handler.go:217-227 and
/repo/handlers/flash/extras.go:46-87, and of `NewHandler` as the user calls it.

Simplification: the functions change the object they are given and return it;
the model returns the changed object.
-/

namespace Verif.Flash
open Slog

/-- `slog.HandlerOptions` as the user fills it in: a nil `Level` is `none`. -/
structure RawOptions where
  addSource : Bool := false
  level : Option (Nat → Int) := none
  replace : Option AttrFn := none

/-- `fixOptions` (handlers/flash/handler.go:219-227). -/
def fixOptions (options : Option RawOptions) : RawOptions :=
  let options := options.getD {}
  match options.level with
  | none => { options with level := some fun _ => levelInfo }
  | some _ => options

/-- Options whose level is set, as the handler reads them. -/
def RawOptions.view (o : RawOptions) : Options :=
  { addSource := o.addSource, replace := o.replace, level := o.level.getD fun _ => levelInfo }

/-- `DefaultTimeFormat` (handlers/flash/extras.go:9, time.RFC3339Nano). -/
def defaultTimeFormat : Bytes := b!"2006-01-02T15:04:05.999999999Z07:00"

/-- `Extras` as the user fills it in (handlers/flash/extras.go:17-44); a nil map
is `none`, a map is its lookup function. -/
structure RawExtras where
  timeFormat : Bytes := []
  levelNames : Option (Int → Option Bytes) := none
  levelKey : Bytes := []
  messageKey : Bytes := []
  sourceKey : Bytes := []
  timeKey : Bytes := []

/-- One of the four level name defaults (handlers/flash/extras.go:62-73): `m[l] == ""`
holds for a missing entry, too. -/
def fixLevel (l : Int) (m : Int → Option Bytes) : Int → Option Bytes :=
  if (m l).getD [] = [] then fun x => if x = l then some (levelString l) else m x else m

/-- A key default (handlers/flash/extras.go:74-85). -/
def orDefault (key dflt : Bytes) : Bytes := if key = [] then dflt else key

/-- `fixExtras` (handlers/flash/extras.go:52-87). -/
def fixExtras (extras : Option RawExtras) : RawExtras :=
  let x := extras.getD {}
  let names := x.levelNames.getD fun _ => none
  { timeFormat := orDefault x.timeFormat defaultTimeFormat
    levelNames := some (fixLevel levelError (fixLevel levelWarn (fixLevel levelInfo
      (fixLevel levelDebug names))))
    levelKey := orDefault x.levelKey b!"level"
    messageKey := orDefault x.messageKey b!"msg"
    sourceKey := orDefault x.sourceKey b!"source"
    timeKey := orDefault x.timeKey b!"time" }

/-- Extras as the composer reads them: a missing level name reads as "". -/
def RawExtras.view (x : RawExtras) : Extras :=
  { timeFormat := x.timeFormat
    levelNames := fun l => ((x.levelNames.getD fun _ => none) l).getD []
    levelKey := x.levelKey
    messageKey := x.messageKey
    sourceKey := x.sourceKey
    timeKey := x.timeKey }

/-- `NewHandler` (handlers/flash/handler.go:32-42). -/
def build (env : Env) (options : Option RawOptions) (extras : Option RawExtras) : Handler :=
  newHandler env (fixOptions options).view (fixExtras extras).view

end Verif.Flash
