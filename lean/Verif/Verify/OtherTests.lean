import Verif.Verify.SlogTests

/-
Model of the tests in /repo/verify/tests/documented.go, other.go and of `TestComplexCases`
(/repo/verify/tests/complex.go:74-115).
-/

namespace Verif.Verify
open Go Warning Slog Bench

variable {F : Type} [DecidableEq F]

/-! ### documented.go -/

/-- Logging a message and looking at it (verify/tests/documented.go:25-30, 33-38). -/
def checkPlain (S : Suite F) : Run Unit := do
  let m ← logMap S
  checkFieldCount S 3 m
  checkBasics S m

/-- `TestCanceledContext` (verify/tests/documented.go:22-54). -/
def testCanceledContext (S : Suite F) : Run Unit := do
  log S ⟨simple, []⟩ false levelInfo []
  checkPlain S
  bufferReset
  log S ⟨simple, []⟩ false levelInfo []
  checkPlain S
  bufferReset
  log S ⟨simple, []⟩ true levelInfo []
  if ← has S canceledContext then
    let b ← captured
    if b.length > 0 then addUnused canceledContext b else addWarning canceledContext b []
  else checkPlain S

/-- `logLevels` (verify/tests/data.go:12-17), read by name. -/
def levelOf (name : Bytes) : Int :=
  if name == b!"DEBUG" then levelDebug else if name == b!"INFO" then levelInfo
  else if name == b!"WARN" then levelWarn else levelError

/-- The names in `logLevels` (verify/tests/data.go:12-17). -/
def levelNames : List Bytes := [b!"DEBUG", b!"INFO", b!"WARN", b!"ERROR"]

/-- The loop for the least level that is enabled (verify/tests/documented.go:69-80). -/
def leastEnabled (S : Suite F) (l : Logger) : List Bytes → Int → Bytes → Run Bytes
  | [], _, name => pure name
  | n :: ns, level, name => do
    let e ← enabled S l (levelOf n)
    if e && decide (levelOf n < level) then leastEnabled S l ns (levelOf n) n
    else leastEnabled S l ns level name

/-- Whether a level is enabled (verify/tests/documented.go:92-95 and often). -/
def assertEnabled (S : Suite F) (l : Logger) (level : Int) (want : Bool) : Run Unit := do
  let e ← enabled S l level
  assert (e == want)

/-- Lines 92-99 of verify/tests/documented.go. -/
def defaultLevels (S : Suite F) (l : Logger) : Run Unit := do
  assertEnabled S l (levelDebug - 1) false
  assertEnabled S l levelDebug false
  assertEnabled S l (levelInfo - 1) false
  assertEnabled S l levelInfo true
  checkLevelMath S l (levelInfo + 1) true b!"INFO+1 is not enabled when WARN is set"
  assertEnabled S l levelWarn true
  assertEnabled S l levelError true

/-- `TestDefaultLevel` (verify/tests/documented.go:61-101). -/
def testDefaultLevel (S : Suite F) : Run Unit :=
  each (fun addSource => do
    let l : Logger := ⟨{ addSource }, []⟩
    if ← has S defaultLevel then
      let name ← leastEnabled S l (S.pick levelNames) 100 []
      if name != [] then
        addWarning defaultLevel (b!"defaultlevel" ++ (if addSource then b!" with AddSource" else []) ++
          b!" is '" ++ name ++ b!"'") []
      else do
        addUnused defaultLevel []
        defaultLevels S l
    else defaultLevels S l) [false, true]

/-- `TestDerivedInvariantWith` (verify/tests/documented.go:106-119). -/
def testDerivedInvariantWith (S : Suite F) : Run Unit := do
  info S ⟨simple, []⟩ []
  let orig ← logMap S
  bufferReset
  info S ((Logger.mk simple []).with [.mk b!"alpha" (.string b!"omega")]) []
  bufferReset
  info S ⟨simple, []⟩ []
  let curr ← logMap S
  assert (deepEqual (.map (Map.del orig b!"time")) (.map (Map.del curr b!"time")))

/-- `TestDerivedInvariantWithGroup` (verify/tests/documented.go:124-137), which is the same test. -/
def testDerivedInvariantWithGroup (S : Suite F) : Run Unit := do
  info S ⟨simple, []⟩ []
  let orig ← logMap S
  bufferReset
  info S ((Logger.mk simple []).with [.mk b!"alpha" (.string b!"omega")]) []
  bufferReset
  info S ⟨simple, []⟩ []
  let curr ← logMap S
  assert (deepEqual (.map (Map.del orig b!"time")) (.map (Map.del curr b!"time")))

/-- `TestDisabled` (verify/tests/documented.go:141-145). -/
def testDisabled (S : Suite F) : Run Unit := do
  log S ⟨simple, []⟩ false levelDebug []
  let b ← captured
  assert b.isEmpty

/-- `TestSourceKey` (verify/tests/documented.go:150-161). -/
def testSourceKey (S : Suite F) : Run Unit := do
  let n ← tick
  handleRecord S ⟨source, []⟩ ⟨some (S.clock n).1, levelInfo, message, (S.clock n).2, []⟩
  let m ← logMap S
  checkBasics S m
  checkSourceKey S 4 m

/-- `TestKeyCase` (verify/tests/documented.go:165-174). -/
def testKeyCase (S : Suite F) : Run Unit :=
  each (fun name => do
    log S ⟨levelOptions levelDebug, []⟩ false (levelOf name) []
    let m ← logMap S
    checkLevelKey S name m
    bufferReset) (S.pick levelNames)

/-- `TestLevelVar` (verify/tests/documented.go:179-202). The variable changes after the first
three calls; reading it back is left out. -/
def testLevelVar (S : Suite F) : Run Unit := do
  let n ← tick
  let l : Logger := ⟨{ level := some fun i => if i ≤ n + 3 then levelInfo else levelWarn }, []⟩
  assertEnabled S l (-1) false
  assertEnabled S l levelInfo true
  checkLevelMath S l (levelInfo + 1) true b!"INFO+1  is not enabled when INFO is set"
  if ← has S levelVar then
    let e ← enabled S l 3
    if e then addWarning levelVar b!"level not changed" [] else addUnused levelVar []
  else assertEnabled S l 3 false
  assertEnabled S l levelWarn true
  checkLevelMath S l 5 true b!"5  is not enabled when WARN is enabled"

/-- `RFC3339Milli` (verify/tests/documented.go:226). -/
def rfc3339Milli : Bytes := b!"2006-01-02T15:04:05.999Z07:00"
/-- `time.RFC3339`. -/
def rfc3339 : Bytes := b!"2006-01-02T15:04:05Z07:00"
/-- `time.RFC3339Nano`. -/
def rfc3339Nano : Bytes := b!"2006-01-02T15:04:05.999999999Z07:00"

/-- The attributes of `TestLogAttributes` (verify/tests/documented.go:211-219). -/
def logAttributes (t : Nat) : List Attr :=
  [.mk b!"when" (.time t), .mk b!"howLong" (.duration 60000000000), .mk b!"goober" (.string b!"snoofus"),
   .mk b!"boolean" (.bool true), .mk b!"pi" (.float64 pi64), .mk b!"skidoo" (.int64 23),
   .mk b!"minus" (.int64 (-64)), .mk b!"unsigned" (.uint64 79),
   .mk b!"any" (.any (.obj { marshal := .ok b!"[\"alpha\",\"omega\"]" }))]

/-- The time in `TestLogAttributes` (verify/tests/documented.go:224-242). -/
def checkWhen (S : Suite F) (t : Nat) (when_ : Bytes) : Run Unit := do
  if ← has S timeMillis then
    if S.formatTime rfc3339Milli t == when_ then addWarning timeMillis when_ [] else addUnused timeMillis []
  else if ← has S timeSeconds then
    if S.formatTime rfc3339 t == when_ then addWarning timeMillis when_ [] else addUnused timeMillis []
  else assert (S.formatTime rfc3339Nano t == when_)

/-- The duration in `TestLogAttributes` (verify/tests/documented.go:245-273). -/
def checkHowLong (S : Suite F) (howLongObj : Any F) : Run Unit := do
  if ← has S Verify.durationString then
    let b ← captured
    match asStr howLongObj with
    | some howLong => addWarning Verify.durationString howLong b
    | none => addUnused Verify.durationString b
  else do
    assert (asNum howLongObj).isSome
    let howLong := (asNum howLongObj).getD (S.N.ofInt 0)
    if ← has S durationSeconds then
      if howLong = S.N.ofInt 60 then addWarning durationSeconds [] [] else addUnused durationSeconds []
    else if ← has S durationMillis then
      if howLong = S.N.ofInt 60000 then addWarning durationMillis [] [] else addUnused durationMillis []
    else assert (decide (S.N.ofInt 60000000000 = howLong))

/-- `TestLogAttributes` (verify/tests/documented.go:207-290). -/
def testLogAttributes (S : Suite F) : Run Unit := do
  let t ← now S
  log S ⟨simple, []⟩ false levelInfo (logAttributes t)
  let m ← logMap S
  checkFieldCount S 12 m
  assert (asStr (field m b!"when")).isSome
  checkWhen S t ((asStr (field m b!"when")).getD [])
  assert (Map.get m b!"howLong").isSome
  checkHowLong S (field m b!"howLong")
  assertField m b!"goober" (.str b!"snoofus")
  assertField m b!"boolean" (.bool true)
  checkPi S m
  assertField m b!"skidoo" (.num (S.N.ofInt 23))
  assertField m b!"minus" (.num (S.N.ofInt (-64)))
  assertField m b!"unsigned" (.num (S.N.ofInt 79))
  assert (asList (field m b!"any")).isSome
  let fixed := (asList (field m b!"any")).getD []
  each (fun x => assert (asStr x).isSome) fixed
  assert (fixed.map (fun x => (asStr x).getD []) == [b!"alpha", b!"omega"])

/-! ### other.go -/

/-- `json.Expect` (internal/json/parse.go:11-26). -/
def expect (S : Suite F) (text : Bytes) : AMap F :=
  match S.unmarshal text with
  | (m, none) => m.getD []
  | (_, some e) => [(b!"error", .str (b!"unmarshal json: " ++ e))]

/-- `TestAnyMap` (verify/tests/other.go:19-37). -/
def testAnyMap (S : Suite F) : Run Unit := do
  info S ⟨simple, []⟩ [.mk b!"any" (.any (.obj { marshal := .ok b!"{\"John\":\"Doe\"}" }))]
  let m ← logMap S
  assert (Map.get m b!"any").isSome
  let good := deepEqual (.map (expect S b!"{\"John\": \"Doe\"}")) (field m b!"any")
  if ← has S stringAny then
    let b ← captured
    if good then addUnused stringAny b
    else if (asStr (field m b!"any")).isSome then addWarning stringAny b!"map represented as string" b
    else addWarning stringAny b!"any map[string]any mismatch" b
  else assert good

/-- `TestLevelConfigured` (verify/tests/other.go:46-59). -/
def testLevelConfigured (S : Suite F) : Run Unit :=
  each (fun options => do
    let l : Logger := ⟨options, []⟩
    assertEnabled S l (-1) false
    assertEnabled S l levelInfo true
    checkLevelMath S l 1 true b!"1  is not enabled when INFO is set"
    assertEnabled S l levelWarn true
    assertEnabled S l levelError true) [simple, source]

/-- `TestLevelDifferent` (verify/tests/other.go:65-85). -/
def testLevelDifferent (S : Suite F) : Run Unit := do
  let l : Logger := ⟨levelOptions levelWarn, []⟩
  assertEnabled S l (-1) false
  assertEnabled S l levelInfo false
  assertEnabled S l 3 false
  assertEnabled S l levelWarn true
  checkLevelMath S l 5 true b!"5  is not enabled when WARN is set"
  assertEnabled S l levelError true
  let l : Logger := ⟨{ addSource := true, level := some fun _ => levelWarn }, []⟩
  assertEnabled S l (-1) false
  assertEnabled S l levelInfo false
  assertEnabled S l 1 false
  assertEnabled S l levelWarn true
  checkLevelMath S l 5 true b!"5  is not enabled when WARN is set"
  assertEnabled S l levelError true

/-- The value outside of the group (verify/tests/other.go:95-105). -/
def checkOuter (S : Suite F) (out : Any F) : Run Unit := do
  if ← has S Verify.durationString then
    let b ← captured
    match asNum out, asStr out with
    | some _, _ => addUnused Verify.durationString b
    | none, some s => addWarning Verify.durationString s b
    | none, none => pure ()
  else require (asNum out).isSome

/-- The value inside the group (verify/tests/other.go:112-128). Line 126 reads the value outside
once more: texts are compared with themselves. -/
def checkInner (S : Suite F) (out inner : Any F) : Run Unit := do
  let x := (asNum out).getD (S.N.ofInt 0)
  let y := (asNum inner).getD (S.N.ofInt 0)
  if ← has S Verify.durationString then
    match asNum inner with
    | some _ => assert (decide (x = y))
    | none =>
      match asStr out with
      | some s => assert ((if (asNum out).isSome then [] else s) == s)
      | none => pure ()
  else do
    require (asNum inner).isSome
    if ← has S groupDuration then
      let b ← captured
      if x = y then addUnused groupDuration b
      else addWarning groupDuration (S.showFloat x ++ b!" != " ++ S.showFloat y) b
    else assert (decide (x = y))

/-- `TestGroupDuration` (verify/tests/other.go:90-129): 8 hours, 3 minutes and 22 seconds. -/
def testGroupDuration (S : Suite F) : Run Unit := do
  info S (((Logger.mk simple []).with [.mk b!"outer" (.duration 29002000000000)]).group b!"group")
    [.mk b!"inner" (.duration 29002000000000)]
  let m ← logMap S
  require (Map.get m b!"outer").isSome
  checkOuter S (field m b!"outer")
  require (Map.get m b!"group").isSome
  match asMap (field m b!"group") with
  | none => require false
  | some group => do
    require (Map.get group b!"inner").isSome
    checkInner S (field m b!"outer") (field group b!"inner")

/-- Is the value there, as a string (verify/tests/other.go:142-144, 150-152, 169-171)? -/
def hasValue (v : Any F) : Bool := asStr v == some b!"value"

/-- `TestGroupWithTop` (verify/tests/other.go:133-183), without the list of failures. -/
def testGroupWithTop (S : Suite F) : Run Unit := do
  info S (((Logger.mk simple []).group b!"group").with [.mk b!"key" (.string b!"value")]) []
  let m ← logMap S
  if ← has S groupWithTop then
    if hasValue (field ((asMap (field m b!"group")).getD []) b!"key") then addUnused groupWithTop []
    else if hasValue (field m b!"key") then
      let b ← captured
      addWarning groupWithTop [] b
    else assert false
  else do
    require (Map.get m b!"group").isSome
    match asMap (field m b!"group") with
    | none => require false
    | some group => do
      require (Map.get group b!"key").isSome
      assertField group b!"key" (.str b!"value")

/-- `TestTimestampFormat` (verify/tests/other.go:187-196). -/
def testTimestampFormat (S : Suite F) : Run Unit := do
  info S ⟨simple, []⟩ []
  let m ← logMap S
  checkFieldCount S 3 m
  let t ← parseTime S (field m b!"time")
  let a ← now S
  assert ((S.date a).1 == t.1)
  let b ← now S
  assert ((S.date b).2.1 == t.2.1)
  let c ← now S
  assert ((S.date c).2.2 == t.2.2)

/-- `EscapeCases` (internal/test/data.go:72-79). -/
def escapeCases : Map Bytes Bytes :=
  [([0x33],
    [0x33]),
   ([0x54, 0x68, 0x65, 0x20, 0x71, 0x75, 0x69, 0x63, 0x6B, 0x20, 0x62, 0x72, 0x6F, 0x77, 0x6E, 0x20,
     0x66, 0x6F, 0x78, 0x20, 0x6A, 0x75, 0x6D, 0x70, 0x65, 0x64, 0x20, 0x6F, 0x76, 0x65, 0x72, 0x20,
     0x74, 0x68, 0x65, 0x20, 0x6C, 0x61, 0x7A, 0x79, 0x20, 0x64, 0x6F, 0x67, 0x2E],
    [0x54, 0x68, 0x65, 0x20, 0x71, 0x75, 0x69, 0x63, 0x6B, 0x20, 0x62, 0x72, 0x6F, 0x77, 0x6E, 0x20,
     0x66, 0x6F, 0x78, 0x20, 0x6A, 0x75, 0x6D, 0x70, 0x65, 0x64, 0x20, 0x6F, 0x76, 0x65, 0x72, 0x20,
     0x74, 0x68, 0x65, 0x20, 0x6C, 0x61, 0x7A, 0x79, 0x20, 0x64, 0x6F, 0x67, 0x2E]),
   ([0x43, 0x6F, 0x6E, 0x74, 0x72, 0x6F, 0x6C, 0x20, 0x63, 0x68, 0x61, 0x72, 0x61, 0x63, 0x74, 0x65,
     0x72, 0x73, 0x3A, 0x20, 0x20, 0x08, 0x2C, 0x20, 0x0C, 0x2C, 0x20, 0x0A, 0x2C, 0x20, 0x0D, 0x2C,
     0x20, 0x09],
    [0x43, 0x6F, 0x6E, 0x74, 0x72, 0x6F, 0x6C, 0x20, 0x63, 0x68, 0x61, 0x72, 0x61, 0x63, 0x74, 0x65,
     0x72, 0x73, 0x3A, 0x20, 0x20, 0x5C, 0x62, 0x2C, 0x20, 0x5C, 0x66, 0x2C, 0x20, 0x5C, 0x6E, 0x2C,
     0x20, 0x5C, 0x72, 0x2C, 0x20, 0x5C, 0x74]),
   ([0x51, 0x75, 0x6F, 0x74, 0x65, 0x20, 0x61, 0x6E, 0x64, 0x20, 0x73, 0x6C, 0x61, 0x73, 0x68, 0x65,
     0x73, 0x3A, 0x20, 0x22, 0x2C, 0x20, 0x5C, 0x2C, 0x20, 0x2F],
    [0x51, 0x75, 0x6F, 0x74, 0x65, 0x20, 0x61, 0x6E, 0x64, 0x20, 0x73, 0x6C, 0x61, 0x73, 0x68, 0x65,
     0x73, 0x3A, 0x20, 0x5C, 0x22, 0x2C, 0x20, 0x5C, 0x5C, 0x2C, 0x20, 0x5C, 0x2F]),
   ([0x55, 0x54, 0x46, 0x38, 0x20, 0x43, 0x68, 0x61, 0x72, 0x61, 0x63, 0x74, 0x65, 0x72, 0x73, 0x3A,
     0x20, 0xCF, 0xA2, 0xD3, 0xA6, 0xD6, 0x86, 0xC4, 0x92, 0xCD, 0x96, 0xCD, 0x84, 0xCD, 0xB2, 0x20,
     0x20, 0xC4, 0xA6, 0xC4, 0xAA, 0xC7, 0x82, 0xC7, 0xBC, 0xC9, 0x86, 0xCF, 0x88, 0xCF, 0xA0, 0xD1,
     0xAC, 0xD3, 0x9C, 0xD4, 0xAA],
    [0x55, 0x54, 0x46, 0x38, 0x20, 0x43, 0x68, 0x61, 0x72, 0x61, 0x63, 0x74, 0x65, 0x72, 0x73, 0x3A,
     0x20, 0xCF, 0xA2, 0xD3, 0xA6, 0xD6, 0x86, 0xC4, 0x92, 0xCD, 0x96, 0xCD, 0x84, 0xCD, 0xB2, 0x20,
     0x20, 0xC4, 0xA6, 0xC4, 0xAA, 0xC7, 0x82, 0xC7, 0xBC, 0xC9, 0x86, 0xCF, 0x88, 0xCF, 0xA0, 0xD1,
     0xAC, 0xD3, 0x9C, 0xD4, 0xAA]),
   ([0x55, 0x6E, 0x69, 0x63, 0x6F, 0x64, 0x65, 0x20, 0x43, 0x68, 0x61, 0x72, 0x61, 0x63, 0x74, 0x65,
     0x72, 0x73, 0x3A, 0x20, 0xF0, 0x9F, 0x98, 0x80, 0xF0, 0x9F, 0x90, 0xA6, 0xE2, 0x80, 0x8D, 0xF0,
     0x9F, 0x94, 0xA5, 0xE2, 0x9B, 0x93, 0xEF, 0xB8, 0x8F, 0xE2, 0x80, 0x8D, 0xF0, 0x9F, 0x92, 0xA5,
     0xF0, 0x9F, 0x8D, 0x8B, 0xE2, 0x80, 0x8D, 0xF0, 0x9F, 0x9F, 0xA9, 0x20, 0x20, 0xD8, 0xB8, 0xDB,
     0x87, 0x20, 0x20, 0xE2, 0x9D, 0x82, 0xE2, 0x9C, 0x88, 0xE2, 0x98, 0xAF, 0x20, 0x20, 0xE4, 0xBA,
     0xB3, 0xE4, 0xBA, 0xB4, 0xE4, 0xBA, 0xB5, 0xE4, 0xBA, 0xB6, 0xE4, 0xBA, 0xB7, 0xE4, 0xBA, 0xB8],
    [0x55, 0x6E, 0x69, 0x63, 0x6F, 0x64, 0x65, 0x20, 0x43, 0x68, 0x61, 0x72, 0x61, 0x63, 0x74, 0x65,
     0x72, 0x73, 0x3A, 0x20, 0xF0, 0x9F, 0x98, 0x80, 0xF0, 0x9F, 0x90, 0xA6, 0xE2, 0x80, 0x8D, 0xF0,
     0x9F, 0x94, 0xA5, 0xE2, 0x9B, 0x93, 0xEF, 0xB8, 0x8F, 0xE2, 0x80, 0x8D, 0xF0, 0x9F, 0x92, 0xA5,
     0xF0, 0x9F, 0x8D, 0x8B, 0xE2, 0x80, 0x8D, 0xF0, 0x9F, 0x9F, 0xA9, 0x20, 0x20, 0xD8, 0xB8, 0xDB,
     0x87, 0x20, 0x20, 0xE2, 0x9D, 0x82, 0xE2, 0x9C, 0x88, 0xE2, 0x98, 0xAF, 0x20, 0x20, 0xE4, 0xBA,
     0xB3, 0xE4, 0xBA, 0xB4, 0xE4, 0xBA, 0xB5, 0xE4, 0xBA, 0xB6, 0xE4, 0xBA, 0xB7, 0xE4, 0xBA, 0xB8])]

/-- `TestStringEscape` (verify/tests/other.go:198-208). -/
def testStringEscape (S : Suite F) : Run Unit :=
  each (fun esc => do
    let exp := (Map.get escapeCases esc).getD []
    info S ⟨simple, []⟩ [.mk b!"esc" (.string esc), .mk b!"exp" (.string exp)]
    let m ← logMap S
    checkFieldCount S 5 m
    assertField m b!"esc" (.str esc)
    assertField m b!"exp" (.str exp)
    bufferReset) (S.pick (Map.keys escapeCases))

/-! ### complex.go -/

/-- What the test programs take from the suite (verify/tests/complex.go:91, 118-138). -/
def ctxOf (S : Suite F) (m : Manager) : Ctx F where
  has := m.hasWarning S.useWarnings
  N := S.N
  durationString := S.durationString
  valueString := S.L.valueString
  goValue := S.goValue
  upper := S.L.toUpper
  stamp := S.stamp

/-- The same, read during a test. -/
def ctx (S : Suite F) : Run (Ctx F) := fun s => (some (ctxOf S s.mgr), s)

/-- One round of `TestComplexCases` (verify/tests/complex.go:90-104): is there a mismatch? -/
def complexRound (S : Suite F) (definition : Bytes) : Run Bool := do
  bufferReset
  let C ← ctx S
  each (fun e : List Op × List Attr => info S ⟨simple, e.1⟩ e.2) (runProgram C definition).1.logged
  assert (!(runProgram C definition).2)
  let actual ← logMap S
  let good := deepEqual (.map ((runProgram C definition).1.expected C)) (.map (fixActual C actual))
  if ← has S mismatch then pure () else assert good
  pure (!good)

/-- The loop of `TestComplexCases` (verify/tests/complex.go:82-105): the programs that did not
match. -/
def complexLoop (S : Suite F) : List Bytes → Run (List Bytes)
  | [] => pure []
  | p :: ps => do
    let bad ← complexRound S p
    let rest ← complexLoop S ps
    pure (if bad then p :: rest else rest)

/-- `TestComplexCases` (verify/tests/complex.go:74-115). -/
def testComplexCases (S : Suite F) : Run Unit := do
  if ← skipTest S skipDedup then pure ()
  else do
    let mismatches ← complexLoop S programs
    if mismatches.length > 0 then
      let b ← captured
      addWarning mismatch (S.showMismatches mismatches) b

end Verif.Verify
