import Verif.Warning.Registry

/-
Model of the warning manager, /repo/infra/warning/manager.go.

Simplifications: nil maps and empty maps are not told apart (reading is the same, and the
code makes a map before writing to one); the function name `misc.CurrentFunctionName`
finds on the call stack is an argument of the operation; counters do not overflow; the
`*Instances` handed out by `GetWarnings` are values (a caller that changes them, or goes
on adding warnings while holding them, is not modelled); log output is left out.
-/

namespace Verif.Warning
open Go

/-- `Instance` (infra/warning/manager.go:67-71). -/
structure Instance where
  function : Bytes
  record : Bytes
  text : Bytes
deriving DecidableEq, Repr

/-- `Instances` (infra/warning/manager.go:49-64). -/
structure Instances where
  level : Nat
  name : Bytes
  summary : Bytes
  count : Nat
  data : List Instance
deriving DecidableEq, Repr

/-- `Manager` (infra/warning/manager.go:37-46); `fnPrefix` is used on the call stack
only. -/
structure Manager where
  name : Bytes := []
  showPrefix : Bytes := []
  predefined : Map Bytes Warning := []
  warnOnly : Map Bytes Bool := []
  warnings : Map Bytes Instances := []
deriving DecidableEq, Repr

/-- `SkippingTest` (infra/warning/admin.go:17-18), without its description. -/
def skippingTest : Warning := ⟨1, b!"SkippingTest", b!"Skipping test", []⟩
/-- `Undefined` (infra/warning/admin.go:24-26), without its description. -/
def undefinedWarning : Warning := ⟨1, b!"Undefined", b!"Undefined Warnings(s)", []⟩
/-- `Unused` (infra/warning/admin.go:28-32), without its description. -/
def unused : Warning := ⟨1, b!"Unused", b!"Unused Warnings(s)", []⟩

/-- `strings.TrimRight(s, "\n")`. -/
def trimRightNL (s : Bytes) : Bytes := (s.reverse.dropWhile (· == 0x0A)).reverse

/-- `Predefine` (infra/warning/manager.go:94-101). -/
def Manager.predefine (m : Manager) : List Warning → Manager
  | [] => m
  | w :: ws => Manager.predefine { m with predefined := m.predefined.set w.name w } ws

/-- `AddWarningFnText` (infra/warning/manager.go:143-168). -/
def Manager.addWarningFnText (m : Manager) (w : Warning) (fnName text logRecordJSON : Bytes) : Manager :=
  let record := match m.warnings.get w.name with
    | some r => r
    | none => { level := w.level, name := w.name, summary := w.summary, count := 0, data := [] }
  let inst : Instance :=
    { function := fnName, text, record := if logRecordJSON ≠ [] then trimRightNL logRecordJSON else [] }
  let record := { record with count := record.count + 1, data := record.data ++ [inst] }
  { m with warnings := m.warnings.set w.name record }

/-- `AddWarning` (infra/warning/manager.go:129-131). -/
def Manager.addWarning (m : Manager) (fn : Bytes) (w : Warning) (text logRecordJSON : Bytes) : Manager :=
  m.addWarningFnText w fn text logRecordJSON

/-- `AddWarningFn` (infra/warning/manager.go:136-138). -/
def Manager.addWarningFn (m : Manager) (w : Warning) (fnName logRecordJSON : Bytes) : Manager :=
  m.addWarningFnText w fnName [] logRecordJSON

/-- `AddUnused` (infra/warning/manager.go:122-124). -/
def Manager.addUnused (m : Manager) (fn : Bytes) (w : Warning) (logRecordJSON : Bytes) : Manager :=
  m.addWarning fn unused w.name logRecordJSON

/-- `WarnOnly` (infra/warning/manager.go:106-115). -/
def Manager.setWarnOnly (m : Manager) (fn : Bytes) (w : Warning) : Manager :=
  let m := if (m.predefined.get w.name).isSome then m
    else m.addWarning fn undefinedWarning w.summary []
  { m with warnOnly := m.warnOnly.set w.name true }

/-- `HasWarning` (infra/warning/manager.go:171-173); a missing entry reads as false. -/
def Manager.hasWarning (useWarnings : Bool) (m : Manager) (w : Warning) : Bool :=
  useWarnings && (m.warnOnly.get w.name).getD false

/-- The loop of `HasWarnings` (infra/warning/manager.go:181-185). -/
def hasLoop (useWarnings : Bool) (m : Manager) (found : List Warning) : List Warning → List Warning
  | [] => found
  | w :: ws => hasLoop useWarnings m (if m.hasWarning useWarnings w then found ++ [w] else found) ws

/-- `HasWarnings` (infra/warning/manager.go:178-188). -/
def Manager.hasWarnings (useWarnings : Bool) (m : Manager) (ws : List Warning) : List Warning :=
  if useWarnings then hasLoop useWarnings m [] ws else []

/-- `SkipTest` (infra/warning/manager.go:193-196). -/
def Manager.skipTest (m : Manager) (fn : Bytes) (because : Warning) : Manager :=
  (m.addWarning fn skippingTest because.summary []).addWarning fn because skippingTest.summary []

/-- `SkipTestIf` (infra/warning/manager.go:201-210). -/
def Manager.skipTestIf (m : Manager) (fn : Bytes) : List Warning → Manager × Bool
  | [] => (m, false)
  | w :: ws =>
    if (m.warnOnly.get w.name).getD false then
      ((m.addWarning fn skippingTest w.summary []).addWarning fn w skippingTest.summary [], true)
    else m.skipTestIf fn ws

/-- The clean-up of Unused instances in `GetWarnings` (infra/warning/manager.go:224-239). -/
def Manager.cleanUp (m : Manager) : Manager :=
  match m.warnings.get unused.name with
  | none => m
  | some u =>
    let really := u.data.filter fun i => (m.warnings.get i.text).isNone
    if really.length > 0 then
      { m with warnings := m.warnings.set unused.name { u with data := really, count := really.length } }
    else { m with warnings := m.warnings.del unused.name }

/-- The comparison of two records in `GetWarnings` (infra/warning/manager.go:249-254). -/
def moreSevere (iw jw : Instances) : Bool :=
  if iw.level > jw.level then true
  else if iw.level < jw.level then false
  else less iw.name jw.name

/-- The comparison of two keys of the map (infra/warning/manager.go:246-255). A key
without entry would be a nil pointer; all keys compared come from the map. -/
def before (m : Manager) (i j : Bytes) : Bool :=
  let entry := fun k => (m.warnings.get k).getD ⟨0, [], [], 0, []⟩
  moreSevere (entry i) (entry j)

/-- `GetWarnings` (infra/warning/manager.go:219-262); `pick` is the order in which the
loop of lines 243-245 happens to visit the map, nil is `none`. -/
def Manager.getWarnings (S : Sorter) (pick : List Bytes → List Bytes) (m : Manager) :
    Manager × Option (List Instances) :=
  if m.warnings.length < 1 then (m, none)
  else
    let m := m.cleanUp
    let warningStrings := S.sort (before m) (pick m.warnings.keys)
    (m, some (warningStrings.filterMap fun w => m.warnings.get w))

/-- Operations of a manager. -/
inductive MOp
  | predefine (ws : List Warning)
  | warnOnly (fn : Bytes) (w : Warning)
  | add (w : Warning) (fn text logRecordJSON : Bytes)
  | unused (fn : Bytes) (w : Warning) (logRecordJSON : Bytes)
  | skipTest (fn : Bytes) (w : Warning)
  | skipTestIf (fn : Bytes) (ws : List Warning)
  | get
deriving DecidableEq, Repr

/-- One operation. What `GetWarnings` leaves behind depends neither on the sorting nor on
the order of the map. -/
def Manager.step (m : Manager) : MOp → Manager
  | .predefine ws => m.predefine ws
  | .warnOnly fn w => m.setWarnOnly fn w
  | .add w fn text rec => m.addWarningFnText w fn text rec
  | .unused fn w rec => m.addUnused fn w rec
  | .skipTest fn w => m.skipTest fn w
  | .skipTestIf fn ws => (m.skipTestIf fn ws).1
  | .get => (m.getWarnings someSorter id).1

/-- A history. -/
def Manager.run (m : Manager) (ops : List MOp) : Manager := ops.foldl Manager.step m

end Verif.Warning
