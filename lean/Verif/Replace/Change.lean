import Verif.Slog
import Verif.Flash.Options

/-
Model of /repo/replace (change.go, multiple.go, group.go) and of the
`madkins/replattr` creator, /repo/creator/madkinsreplattr/creator.go.

Simplification: the message logged for an unknown case setting is not modelled.
-/

namespace Verif.Replace
open Slog

/-- Functions of the standard library used here. -/
structure Lib where
  /-- `strings.EqualFold`. -/
  equalFold : Bytes → Bytes → Bool
  /-- `strings.ToLower`. -/
  toLower : Bytes → Bytes
  /-- `strings.ToUpper`. -/
  toUpper : Bytes → Bytes
  /-- `slog.Value.String`. -/
  valueString : Value → Bytes

/-- `GroupCheckFn` (replace/group.go:8); nil is `none`. -/
abbrev GroupCheck := Option (List Bytes → Bool)

/-- `TopCheck` (replace/group.go:17-19). -/
def topCheck (groups : List Bytes) : Bool := groups.length == 0

/-- `Current` (replace/group.go:29-33). -/
def current (name : Bytes) (groups : List Bytes) : Bool :=
  decide (groups.length > 0) && groups[groups.length - 1]? == some name

/-- `checkFieldGroups` (replace/change.go:127-137). -/
def checkFieldGroups (L : Lib) (groups : List Bytes) (a : Attr) (key : Bytes) (caseInsensitive : Bool)
    (grpChk : GroupCheck) : Bool :=
  let found := if caseInsensitive then L.equalFold a.key key else a.key == key
  found && (match grpChk with | none => true | some chk => chk groups)

/-- `ChangeFn` (replace/change.go:13). -/
abbrev ChangeFn := Value → Value

/-- `SetValueTo` (replace/change.go:17-21). -/
def setValueTo (v : Value) : ChangeFn := fun _ => v

/-- `ChangeKey` (replace/change.go:80-87). -/
def changeKey (L : Lib) (src dst : Bytes) (caseInsensitive : Bool) (grpChk : GroupCheck) : AttrFn :=
  fun groups a => if checkFieldGroups L groups a src caseInsensitive grpChk then .mk dst a.value else a

/-- `ChangeValue` (replace/change.go:95-102). -/
def changeValue (L : Lib) (key : Bytes) (chgFn : ChangeFn) (caseInsensitive : Bool) (grpChk : GroupCheck) :
    AttrFn :=
  fun groups a =>
    if checkFieldGroups L groups a key caseInsensitive grpChk then .mk a.key (chgFn a.value) else a

/-- `RemoveKey` (replace/change.go:112-119). -/
def removeKey (L : Lib) (key : Bytes) (caseInsensitive : Bool) (grpChk : GroupCheck) : AttrFn :=
  fun groups a => if checkFieldGroups L groups a key caseInsensitive grpChk then emptyAttr else a

/-- `ChangeCases` (replace/change.go:24-30), a uint8: none 0, lower 1, upper 2. -/
abbrev ChangeCases := UInt8

/-- `caseFn[c]` (replace/change.go:32-35). -/
def caseFn (L : Lib) (c : ChangeCases) : Option (Bytes → Bytes) :=
  if c = 1 then some L.toLower else if c = 2 then some L.toUpper else none

/-- `ChangeCase` (replace/change.go:55-69). -/
def changeCase (L : Lib) (key : Bytes) (chgCase : ChangeCases) (caseInsensitive : Bool)
    (grpChk : GroupCheck) : AttrFn :=
  if chgCase ≠ 0 then
    match caseFn L chgCase with
    | some fn => changeValue L key (fun v => .string (fn (L.valueString v))) caseInsensitive grpChk
    | none => fun _ a => a
  else fun _ a => a

/-- The loop of `Multiple` (replace/multiple.go:14-23). -/
def multiple : List AttrFn → AttrFn
  | [], _, a => a
  | fn :: fns, groups, a =>
    let a := fn groups a
    if a.isEmpty then a else multiple fns groups a

/-- The functions of the replattr handler (creator/madkinsreplattr/creator.go:35-42). -/
def replattrFns (L : Lib) (user : Option AttrFn) : List AttrFn :=
  [changeKey L b!"message" b!"msg" false (some topCheck),
   changeKey L b!"lvl" b!"level" false (some topCheck),
   changeCase L b!"level" 2 false (some topCheck)] ++
  (match user with | none => [] | some f => [f])

/-- The extras of the replattr handler (creator/madkinsreplattr/creator.go:49-58). -/
def replattrExtras : Flash.RawExtras where
  levelNames := some fun l =>
    if l = levelDebug then some b!"Debug" else if l = levelInfo then some b!"Info"
    else if l = levelWarn then some b!"Warn" else if l = levelError then some b!"Error" else none
  levelKey := b!"lvl"
  messageKey := b!"message"

/-- `handlerFn` of the replattr creator (creator/madkinsreplattr/creator.go:34-59). -/
def replattr (L : Lib) (env : Env) (options : Flash.RawOptions) : Flash.Handler :=
  Flash.build env
    (some { addSource := options.addSource, level := options.level,
            replace := some (multiple (replattrFns L options.replace)) })
    (some replattrExtras)

end Verif.Replace
