import Verif.Verify.Complex
import Verif.Warning.Show
import Verif.Replace.Change

/-
Model of the verification suite, /repo/verify/tests: its state, the logger under test, the
utilities (utility.go) and the checks several tests have in common (checks.go).

A test is a function on the state of the suite: the capture buffer, the warning manager, the
number of failed assertions. A failed `Require` ends the test. The handler under test is any
function of what was done with it, told how many calls of handlers went before: nothing is
assumed about it.

Simplifications: output of the -debug flag is left out; texts that `fmt` makes of arbitrary
values are parameters; the name `AddWarning` finds on the call stack is that of the test; the
time a logger takes and the caller it finds are given by a clock, told the number of the call;
a handler only ever appends to the buffer, and `Empty(suite.Buffer)` asks whether anything
is in it; the field counter not coming to an end counts as an error.
-/

namespace Verif.Verify
open Go Warning Slog Bench

variable {F : Type} [DecidableEq F]

/-! ### State -/

/-- The handler under test (verify/tests/suite.go:26, 60-63), with the number of calls made
before: `Enabled` for the options, the derivations and the level; `Handle` for the options,
the derivations, whether the context is cancelled, and the record: what is written to the
buffer, and whether there is an error. -/
structure Sut where
  enabled : Nat → Flash.RawOptions → List Op → Int → Bool
  handle : Nat → Flash.RawOptions → List Op → Bool → Record → Bytes × Bool

/-- What the suite takes from its surroundings. -/
structure Suite (F : Type) where
  sut : Sut
  N : Consts F
  /-- Functions of package strings, and `slog.Value.String`. -/
  L : Replace.Lib
  /-- Character classes of package unicode, for the field counter. -/
  U : Count.Uni
  /-- `json.Unmarshal` into a fresh `map[string]any`: the map, if one was made, and the text
  of the error. -/
  unmarshal : Bytes → Option (AMap F) × Option Bytes
  /-- The flag `-useWarnings` (infra/warning/manager.go:33, 172). -/
  useWarnings : Bool
  /-- Time and caller at a call. -/
  clock : Nat → Nat × Nat
  /-- `t.Format(layout)`. -/
  formatTime : Bytes → Nat → Bytes
  /-- Year, month and day of `time.Parse(time.RFC3339, s)`; `none` is an error. -/
  parseDate : Bytes → Option (Nat × Nat × Nat)
  /-- Year, month and day of a time. -/
  date : Nat → Nat × Nat × Nat
  /-- The order in which a `range` loop visits the keys of a map. -/
  pick : List Bytes → List Bytes
  /-- `fmt.Sprintf("%v", v)`. -/
  showAny : Any F → Bytes
  /-- `fmt.Sprintf("%f", x)`. -/
  showFloat : F → Bytes
  /-- `fmt.Sprintf("%v", counts)`. -/
  showCounts : Map Bytes Nat → Bytes
  /-- The text of the mismatches found (verify/tests/complex.go:106-112). -/
  showMismatches : List Bytes → Bytes
  /-- `time.Duration.String`. -/
  durationString : Int → Bytes
  /-- Values of the kinds Any and Time as such (verify/tests/complex.go:334-381). -/
  goValue : Value → Any F
  /-- `time.Now().Format(time.RFC3339)` when the package was set up (verify/tests/complex.go:311). -/
  stamp : Bytes

/-- The state of `SlogTestSuite` (verify/tests/suite.go:18-27) during a test: the buffer, the
manager, how many assertions have failed, how many calls of handlers were made, and the name of
the test. -/
structure St where
  buffer : Bytes
  mgr : Manager
  fails : Nat
  moment : Nat
  test : Bytes

/-- A piece of a test; `none`: the test has ended. -/
def Run (α : Type) : Type := St → Option α × St

/-- Nothing. -/
def Run.pure {α : Type} (a : α) : Run α := fun s => (some a, s)

/-- One after the other. -/
def Run.bind {α β : Type} (x : Run α) (f : α → Run β) : Run β := fun s =>
  match x s with
  | (some a, s') => f a s'
  | (none, s') => (none, s')

instance : Monad Run where
  pure := Run.pure
  bind := Run.bind

/-- `Assert()`: a failed assertion is counted (testify `assert`). -/
def assert (b : Bool) : Run Unit := fun s => (some (), if b then s else { s with fails := s.fails + 1 })

/-- `Require()`: a failed assertion is counted and ends the test (testify `require`). -/
def require (b : Bool) : Run Unit := fun s =>
  if b then (some (), s) else (none, { s with fails := s.fails + 1 })

/-- `suite.HasWarning` (infra/warning/manager.go:171-173). -/
def has (S : Suite F) (w : Warning) : Run Bool := fun s => (some (s.mgr.hasWarning S.useWarnings w), s)

/-- `suite.HasWarnings` (infra/warning/manager.go:178-188). -/
def hasAny (S : Suite F) (ws : List Warning) : Run (List Warning) := fun s =>
  (some (s.mgr.hasWarnings S.useWarnings ws), s)

/-- `suite.AddWarning` (infra/warning/manager.go:129-131). -/
def addWarning (w : Warning) (text record : Bytes) : Run Unit := fun s =>
  (some (), { s with mgr := s.mgr.addWarning s.test w text record })

/-- `suite.AddUnused` (infra/warning/manager.go:122-124). -/
def addUnused (w : Warning) (record : Bytes) : Run Unit := fun s =>
  (some (), { s with mgr := s.mgr.addUnused s.test w record })

/-- `suite.String()`, `suite.Buffer.String()`. -/
def captured : Run Bytes := fun s => (some s.buffer, s)

/-- `bufferReset` (verify/tests/utility.go:31-33). -/
def bufferReset : Run Unit := fun s => (some (), { s with buffer := [] })

/-- The number of the next call of a handler. -/
def tick : Run Nat := fun s => (some s.moment, { s with moment := s.moment + 1 })

/-- The buffer takes what a handler writes. -/
def emit (b : Bytes) : Run Unit := fun s => (some (), { s with buffer := s.buffer ++ b })

/-- A `range` loop over a slice. -/
def each {α : Type} (f : α → Run Unit) : List α → Run Unit
  | [] => pure ()
  | a :: as => do f a; each f as

/-! ### Loggers -/

/-- `infra.SimpleOptions()` (infra/options.go:8-12). -/
def simple : Flash.RawOptions := { level := some fun _ => levelInfo }

/-- `infra.LevelOptions(level)` (infra/options.go:15-19) for a fixed level. -/
def levelOptions (level : Int) : Flash.RawOptions := { level := some fun _ => level }

/-- `infra.SourceOptions()` (infra/options.go:23-28). -/
def source : Flash.RawOptions := { addSource := true, level := some fun _ => levelInfo }

/-- `infra.ReplaceAttrOptions(fn)` (infra/options.go:31-36). -/
def replacing (fn : AttrFn) : Flash.RawOptions := { level := some fun _ => levelInfo, replace := some fn }

/-- A `*slog.Logger` (verify/tests/suite.go:60-63): the options given to the creator and what
was derived from them. -/
structure Logger where
  options : Flash.RawOptions
  ops : List Op := []

/-- `logger.With` with arguments (log/slog/logger.go). -/
def Logger.with (l : Logger) (as : List Attr) : Logger := { l with ops := l.ops ++ [.attrs as] }

/-- `logger.WithGroup` (log/slog/logger.go): the empty name gives the logger itself. -/
def Logger.group (l : Logger) (name : Bytes) : Logger :=
  if name.isEmpty then l else { l with ops := l.ops ++ [.group name] }

/-- `logger.Enabled`. -/
def enabled (S : Suite F) (l : Logger) (level : Int) : Run Bool := do
  let n ← tick
  pure (S.sut.enabled n l.options l.ops level)

/-- A group without members (log/slog/value.go `isEmptyGroup`). -/
def emptyGroupAttr : Attr → Bool
  | .mk _ (.group []) => true
  | _ => false

/-- `Record.Add`, `Record.AddAttrs` (log/slog/record.go): groups without members are left
out. -/
def recordAttrs (as : List Attr) : List Attr := as.filter fun a => !emptyGroupAttr a

/-- `logger.Log` and its relatives (log/slog/logger.go): the message is always the same one. -/
def log (S : Suite F) (l : Logger) (cancelled : Bool) (level : Int) (as : List Attr) : Run Unit := do
  if ← enabled S l level then
    let n ← tick
    emit (S.sut.handle n l.options l.ops cancelled
      ⟨some (S.clock n).1, level, message, (S.clock n).2, recordAttrs as⟩).1

/-- `logger.Info(message, ...)`. -/
def info (S : Suite F) (l : Logger) (as : List Attr) : Run Unit := log S l false levelInfo as

/-- `time.Now()` outside of a logger. -/
def now (S : Suite F) : Run Nat := do
  let n ← tick
  pure (S.clock n).1

/-! ### Values -/

/-- `m[k]`: nil if there is no such entry. -/
def field (m : AMap F) (k : Bytes) : Any F := (Map.get m k).getD .nil

/-- A type assertion `v.(string)`. -/
def asStr : Any F → Option Bytes
  | .str s => some s
  | _ => none

/-- A type assertion `v.(float64)`. -/
def asNum : Any F → Option F
  | .num x => some x
  | _ => none

/-- A type assertion `v.(map[string]any)`. -/
def asMap : Any F → Option (AMap F)
  | .map m => some m
  | _ => none

/-- A type assertion `v.([]any)`. -/
def asList : Any F → Option (List (Any F))
  | .list l => some l
  | _ => none

/-- `v == nil`. -/
def isNil : Any F → Bool
  | .nil => true
  | _ => false

/-- `Assert().Equal(x, m[k])`. -/
def assertField (m : AMap F) (k : Bytes) (x : Any F) : Run Unit := assert (deepEqual x (field m k))

/-- `math.SqrtPi`: 1.772453850905516. -/
def sqrtPi64 : F64 := .fin false 1 [7, 7, 2, 4, 5, 3, 8, 5, 0, 9, 0, 5, 5, 1, 6]
/-- `math.SqrtE`: 1.6487212707001282. -/
def sqrtE64 : F64 := .fin false 1 [6, 4, 8, 7, 2, 1, 2, 7, 0, 7, 0, 0, 1, 2, 8, 2]
/-- `math.Phi`: 1.618033988749895. -/
def phi64 : F64 := .fin false 1 [6, 1, 8, 0, 3, 3, 9, 8, 8, 7, 4, 9, 8, 9, 5]

/-! ### Utilities -/

/-- `adjustExpected` (verify/tests/utility.go:15-26). -/
def adjustExpected (expected logMap : AMap F) : AMap F :=
  let e := match Map.get logMap b!"time" with
    | some t => Map.set expected b!"time" t
    | none => expected
  let e := match Map.get logMap b!"level" with
    | some l => Map.set e b!"level" l
    | none => e
  match Map.get logMap b!"message" with
  | some _ => Map.del (Map.set e b!"message" (field e b!"msg")) b!"msg"
  | none => e

/-- `fieldCounter` and `Parse` with the error required to be nil (verify/tests/utility.go:36-38,
verify/tests/checks.go:21-22). -/
def counted (S : Suite F) : Run Count.Ctr := do
  let b ← captured
  match Count.parse S.U b with
  | some (c, .ok) => pure c
  | _ => do require false; pure (Count.new b)

/-- `logMap` (verify/tests/utility.go:42-50). -/
def logMap (S : Suite F) : Run (AMap F) := do
  let b ← captured
  match S.unmarshal b with
  | (m, none) => pure (m.getD [])
  | (_, some _) => do require false; pure []

/-- `skipTest` (verify/tests/utility.go:56-63). -/
def skipTest (S : Suite F) (w : Warning) : Run Bool := do
  if ← has S w then
    addWarning w b!"Skipping test" []
    addWarning skippingTest w.name []
    pure true
  else pure false

/-! ### Checks -/

/-- The end of `checkFieldCount` (verify/tests/checks.go:28-33). -/
def exactFields (S : Suite F) (fieldCount : Nat) (logMap : AMap F) : Run Unit := do
  assert (logMap.length == fieldCount)
  let c ← counted S
  assert (fieldCount == c.numFields)
  assert c.duplicates.isEmpty

/-- `checkFieldCount` (verify/tests/checks.go:19-34). -/
def checkFieldCount (S : Suite F) (fieldCount : Nat) (logMap : AMap F) : Run Unit := do
  if ← has S duplicates then
    let c ← counted S
    if c.duplicates.length > 0 then addWarning duplicates (S.showCounts c.duplicates) []
    else exactFields S fieldCount logMap
  else exactFields S fieldCount logMap

/-- `checkLevelKey` (verify/tests/checks.go:36-53). -/
def checkLevelKey (S : Suite F) (level : Bytes) (logMap : AMap F) : Run Unit := do
  let level := S.L.toUpper level
  if ← has S levelCase then
    match asStr (field logMap b!"level") with
    | some logLevel =>
      if level != S.L.toUpper logLevel then
        addWarning levelWrong (b!"should be '" ++ level ++ b!"', not '" ++ logLevel ++ b!"'") []
      else if level != logLevel then addWarning levelCase (b!"'" ++ logLevel ++ b!"'") []
      else addUnused levelCase []
    | none => addUnused levelCase []
  else assertField logMap b!"level" (.str level)

/-- `checkLevelMath` (verify/tests/checks.go:55-65). -/
def checkLevelMath (S : Suite F) (l : Logger) (level : Int) (wantEnabled : Bool) (text : Bytes) : Run Unit := do
  let e ← enabled S l level
  let good := e == wantEnabled
  if ← has S levelMath then
    if good then addUnused levelMath [] else addWarning levelMath text []
  else assert good

/-- `checkMessageKey` (verify/tests/checks.go:67-81). -/
def checkMessageKey (S : Suite F) (msg : Bytes) (logMap : AMap F) : Run Unit := do
  if ← has S messageKey then
    if (Map.get logMap b!"msg").isNone && deepEqual (.str msg) (field logMap b!"message") then
      addWarning messageKey b!"`message`" []
    else do
      addUnused messageKey []
      assertField logMap b!"msg" (.str msg)
  else assertField logMap b!"msg" (.str msg)

/-- The end of `checkNoEmptyAttribute` (verify/tests/checks.go:96-98). -/
def noBlankField (S : Suite F) (fieldCount : Nat) (logMap : AMap F) : Run Unit := do
  checkFieldCount S fieldCount logMap
  assert (Map.get logMap []).isNone

/-- `checkNoEmptyAttribute` (verify/tests/checks.go:83-99). -/
def checkNoEmptyAttribute (S : Suite F) (fieldCount : Nat) (logMap : AMap F) : Run Unit := do
  if ← has S emptyAttributes then
    let c ← counted S
    if c.numFields == fieldCount + 1 && (Map.get logMap []).any isNil then
      let b ← captured
      addWarning emptyAttributes [] b
    else do
      addUnused emptyAttributes []
      noBlankField S fieldCount logMap
  else noBlankField S fieldCount logMap

/-- `checkResolution` (verify/tests/checks.go:101-110) for a string. -/
def checkResolution (S : Suite F) (value : Bytes) (actual : Any F) : Run Unit := do
  if ← has S resolver then
    if !deepEqual (.str value) actual then
      let b ← captured
      addWarning resolver [] b
    else do
      addUnused resolver []
      assert (deepEqual (.str value) actual)
  else assert (deepEqual (.str value) actual)

/-- `sourceKeys` (verify/tests/checks.go:112-116): the names. -/
def sourceNames : List Bytes := [b!"file", b!"function", b!"line"]

/-- What is wrong with a field of the source (verify/tests/checks.go:154-160). -/
def sourceState (v : Any F) : Bytes :=
  match v with
  | .nil => b!"missing"
  | .str _ => []
  | _ => b!"not a string"

/-- The text of the loop (verify/tests/checks.go:151-165). -/
def sourceText (group : AMap F) : List Bytes → List Bytes
  | [] => []
  | f :: fs =>
    let state := sourceState (field group f)
    (if state.isEmpty then [] else [f ++ b!": " ++ state]) ++ sourceText group fs

/-- `IsType(exemplar, value)` for a field of the source (verify/tests/checks.go:175-178). -/
def sourceType (f : Bytes) (v : Any F) : Bool :=
  if f == b!"line" then (asNum v).isSome else (asStr v).isSome

/-- The end of `checkSourceKey` (verify/tests/checks.go:172-181). -/
def exactSource (S : Suite F) (fieldCount : Nat) (logMap : AMap F) : Run Unit := do
  checkFieldCount S fieldCount logMap
  match asMap (field logMap b!"source") with
  | some group => do
    assert (group.length == 3)
    each (fun f => do
      assert (!isNil (field group f))
      assert (sourceType f (field group f))) (S.pick sourceNames)
  | none => assert false

/-- The part of `checkSourceKey` for `SourceKey` (verify/tests/checks.go:131-171). -/
def sourceKeyPart (S : Suite F) (fieldCount : Nat) (logMap : AMap F) : Run Unit := do
  if ← has S sourceKey then
    let b ← captured
    match (Map.get logMap b!"caller").bind asStr with
    | some text => addWarning sourceCaller text b
    | none => pure ()
    match Map.get logMap b!"source" with
    | none => addWarning sourceKey b!"no 'source' key" b
    | some .nil => addWarning sourceKey b!"'source' key is nil" b
    | some (.map source) =>
      let text := joinSep b!", " (sourceText source (S.pick sourceNames))
      if text.length > 0 then addWarning sourceKey text b
      else do
        addUnused sourceKey b
        exactSource S fieldCount logMap
    | some _ => addWarning sourceKey b!"'source' key not a group" b
  else exactSource S fieldCount logMap

/-- `checkSourceKey` (verify/tests/checks.go:118-182). -/
def checkSourceKey (S : Suite F) (fieldCount : Nat) (logMap : AMap F) : Run Unit := do
  if ← has S sourceCaller then
    let b ← captured
    match (Map.get logMap b!"caller").bind asStr with
    | some text => do
      if ← has S sourceKey then addUnused sourceKey []
      addWarning sourceCaller text b
    | none => do
      addUnused sourceCaller b
      sourceKeyPart S fieldCount logMap
  else sourceKeyPart S fieldCount logMap

/-- `parseTime` (verify/tests/checks.go:184-191); without a result the date is that of the zero
time. -/
def parseTime (S : Suite F) (timeAny : Any F) : Run (Nat × Nat × Nat) := do
  assert (!isNil timeAny)
  assert (asStr timeAny).isSome
  let r := S.parseDate ((asStr timeAny).getD [])
  assert r.isSome
  pure (r.getD (1, 1, 1))

end Verif.Verify
