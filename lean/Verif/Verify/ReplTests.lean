import Verif.Verify.OtherTests

/-
Model of the tests in /repo/verify/tests/replace.go.

Simplification: the replacement function of `TestReplaceAttrGroup` reports attributes it does
not know (`suite.Assert().Fail`, verify/tests/replace.go:147, 156, 167); this is left out.
-/

namespace Verif.Verify
open Go Warning Slog Bench

variable {F : Type} [DecidableEq F]

/-- An issue if there is one. -/
def issue (b : Bool) (text : Bytes) : List Bytes := if b then [text] else []

/-- The issue `too many attributes: %d` (verify/tests/replace.go:41-43, 94-96). -/
def tooMany (m : AMap F) (most : Nat) : List Bytes :=
  issue (decide (m.length > most)) (b!"too many attributes: " ++ decNat m.length)

/-- The issue `too few attributes: %d` (verify/tests/replace.go:256-258, 294-296, 340-342,
432-434). -/
def tooFew (m : AMap F) (least : Nat) : List Bytes :=
  issue (decide (m.length < least)) (b!"too few attributes: " ++ decNat m.length)

/-- A warning if there are issues, otherwise the warning is unused and the test goes on
(verify/tests/replace.go:55-59, 109-113, 265-269, 303-307, 351-355, 441-445). -/
def report (w : Warning) (sep : Bytes) (issues : List Bytes) (record : Bytes) (rest : Run Unit) : Run Unit := do
  if issues.length > 0 then addWarning w (joinSep sep issues) []
  else do
    addUnused w record
    rest

/-- The function of `TestReplaceAttr` (verify/tests/replace.go:22-32). -/
def replAlpha (L : Replace.Lib) : AttrFn := fun _ a =>
  if a.key == b!"alpha" then .mk a.key (.string b!"omega")
  else if a.key == b!"change" then .mk b!"bravo" (.string (L.valueString a.value))
  else if a.key == b!"remove" then emptyAttr
  else a

/-- The end of `TestReplaceAttr` (verify/tests/replace.go:61-65). -/
def replCount (S : Suite F) (m : AMap F) : Run Unit := do
  if ← has S emptyAttributes then checkFieldCount S 6 m else checkFieldCount S 5 m

/-- `TestReplaceAttr` (verify/tests/replace.go:21-66). -/
def testReplaceAttr (S : Suite F) : Run Unit := do
  info S ⟨replacing (replAlpha S.L), []⟩
    [.mk b!"alpha" (.string b!"beta"), .mk b!"change" (.string b!"my key"), .mk b!"remove" (.string b!"me")]
  let m ← logMap S
  if ← has S noReplAttr then
    require (asStr (field m b!"alpha")).isSome
    let value := (asStr (field m b!"alpha")).getD []
    let b ← captured
    report noReplAttr b!", "
      (tooMany m 5 ++ issue (value != b!"omega") (b!"alpha == " ++ value) ++
        issue (!isNil (field m b!"change")) b!"change still exists" ++
        issue (!isNil (field m b!"remove")) b!"remove still exists") b (replCount S m)
  else do
    assertField m b!"alpha" (.str b!"omega")
    assertField m b!"bravo" (.str b!"my key")
    assert (isNil (field m b!"remove"))
    replCount S m

/-- The function of `TestReplaceAttrBasic` (verify/tests/replace.go:75-87). -/
def replBasic (L : Replace.Lib) : AttrFn := fun _ a =>
  if a.key == b!"time" then emptyAttr
  else if a.key == b!"level" then .mk b!"level" (.string b!"Tilted")
  else if a.key == b!"msg" then .mk b!"Message" (.string (L.valueString a.value))
  else if a.key == b!"source" then .mk b!"source" (.string b!"all knowledge")
  else a

/-- The end of `TestReplaceAttrBasic` (verify/tests/replace.go:115-119). -/
def checkBasicRepl (S : Suite F) (m : AMap F) : Run Unit := do
  checkFieldCount S 3 m
  assert (isNil (field m b!"time"))
  assertField m b!"level" (.str b!"Tilted")
  assertField m b!"Message" (.str message)
  assertField m b!"source" (.str b!"all knowledge")

/-- The issue with the message (verify/tests/replace.go:100-104). -/
def messageIssue (m : AMap F) (otherKey : Bool) : List Bytes :=
  if !isNil (field m b!"msg") then [b!"msg field still exists"]
  else issue (otherKey && !isNil (field m b!"message")) b!"message field still exists"

/-- `TestReplaceAttrBasic` (verify/tests/replace.go:71-120). -/
def testReplaceAttrBasic (S : Suite F) : Run Unit := do
  info S ⟨{ addSource := true, level := some fun _ => levelInfo, replace := some (replBasic S.L) }, []⟩ []
  let m ← logMap S
  match ← hasAny S [noReplAttr, noReplAttrBasic] with
  | w :: _ => do
    let k ← has S messageKey
    let b ← captured
    report w b!"\n"
      (tooMany m 3 ++ issue (!isNil (field m b!"time")) b!"time field still exists" ++ messageIssue m k ++
        issue (asStr (field m b!"source") != some b!"all knowledge")
          (b!"source == " ++ S.showAny (field m b!"source"))) b (checkBasicRepl S m)
  | [] => checkBasicRepl S m

/-- The last group, empty if there is none (verify/tests/replace.go:133-136). -/
def lastGroup (groups : List Bytes) : Bytes := groups.getLast?.getD []

/-- The function of `TestReplaceAttrGroup` (verify/tests/replace.go:132-171). -/
def replGroup : AttrFn := fun groups a =>
  if lastGroup groups == [] then
    if a.key == b!"alpha" then .mk b!"alpha" (.float64 pi64)
    else if a.key == b!"bravo" then emptyAttr
    else a
  else if lastGroup groups == b!"group" then
    if a.key == b!"charlie" then .mk b!"charlie" (.float64 e64)
    else if a.key == b!"delta" then emptyAttr
    else a
  else if lastGroup groups == b!"subGroup" then
    if a.key == b!"echo" then .mk b!"echo" (.float64 sqrtPi64)
    else if a.key == b!"foxtrot" then .mk b!"foxtrot" (.float64 sqrtE64)
    else if a.key == b!"golf" || a.key == b!"hotel" then emptyAttr
    else a
  else a

mutual
/-- `stripEmptyAttr` for a value (verify/tests/replace.go:220-222). -/
def stripBlank : Any F → Any F
  | .map g => .map (stripBlanks g)
  | .nil => .nil
  | .bool b => .bool b
  | .num x => .num x
  | .str s => .str s
  | .list l => .list l
/-- `stripEmptyAttr` (verify/tests/replace.go:214-224). -/
def stripBlanks : List (Bytes × Any F) → List (Bytes × Any F)
  | [] => []
  | (k, a) :: m => if k.isEmpty && isNil a then stripBlanks m else (k, stripBlank a) :: stripBlanks m
end

/-- The level in upper case (verify/tests/replace.go:194-198). -/
def upperLevel (S : Suite F) (m : AMap F) : AMap F :=
  match asStr (field m b!"level") with
  | some l => Map.set m b!"level" (.str (S.L.toUpper l))
  | none => m

/-- The message under its name (verify/tests/replace.go:199-204). -/
def renameMessage (m : AMap F) : AMap F :=
  match asStr (field m b!"message") with
  | some s => Map.del (Map.set m b!"msg" (.str s)) b!"message"
  | none => m

/-- What `TestReplaceAttrGroup` expects (verify/tests/replace.go:179-190). -/
def groupExpected (N : Consts F) : AMap F :=
  [(b!"level", .str b!"INFO"), (b!"msg", .str message), (b!"alpha", .num (N.ofF64 pi64)),
   (b!"group", .map [(b!"charlie", .num (N.ofF64 e64)),
     (b!"subGroup", .map [(b!"echo", .num (N.ofF64 sqrtPi64)), (b!"foxtrot", .num (N.ofF64 sqrtE64))])])]

/-- The logger of `TestReplaceAttrGroup` (verify/tests/replace.go:130-175). -/
def groupLogger : Logger :=
  ((((Logger.mk (replacing replGroup) []).with [.mk b!"alpha" (.int64 1), .mk b!"bravo" (.int64 2)]).group b!"group").with
    [.mk b!"charlie" (.int64 3), .mk b!"delta" (.int64 4)]).group b!"subGroup" |>.with
    [.mk b!"echo" (.int64 5), .mk b!"foxtrot" (.int64 6)]

/-- `TestReplaceAttrGroup` (verify/tests/replace.go:125-212). -/
def testReplaceAttrGroup (S : Suite F) : Run Unit := do
  if ← has S noReplAttr then pure ()
  else do
    info S groupLogger [.mk b!"golf" (.int64 7), .mk b!"hotel" (.int64 8)]
    let m ← logMap S
    let m := Map.del m b!"time"
    let blank ← has S emptyAttributes
    let m := if blank then stripBlanks m else m
    let upper ← has S levelCase
    let m := if upper then upperLevel S m else m
    let rename ← has S messageKey
    let m := if rename then renameMessage m else m
    let good := deepEqual (.map (groupExpected S.N)) (.map m)
    if ← has S replAttrGroup then
      let b ← captured
      if good then addUnused replAttrGroup b else addWarning replAttrGroup [] b
    else assert good

/-- `TestReplaceAttrFnLevelCase` (verify/tests/replace.go:231-272). The level is a string once
line 252 is passed. -/
def testReplaceAttrFnLevelCase (S : Suite F) : Run Unit := do
  let other ← has S levelCase
  let start := if other then b!"info" else b!"INFO"
  let fixed := if other then b!"INFO" else b!"info"
  info S ⟨simple, []⟩ []
  let m ← logMap S
  require (asStr (field m b!"level")).isSome
  assert (start == (asStr (field m b!"level")).getD [])
  bufferReset
  info S ⟨replacing (Replace.changeCase S.L b!"level" (if other then 2 else 1) false (some Replace.topCheck)), []⟩ []
  let m ← logMap S
  require (asStr (field m b!"level")).isSome
  let level := (asStr (field m b!"level")).getD []
  match ← hasAny S [noReplAttrBasic, noReplAttr] with
  | w :: _ =>
    report w b!"\n" (tooFew m 3 ++ issue (level != []) b!"level value not null") [] (assert (fixed == level))
  | [] => assert (fixed == level)

/-- The end of `TestReplaceAttrFnRemoveEmptyKey` (verify/tests/replace.go:309-316). -/
def checkNoBlank (S : Suite F) (m : AMap F) : Run Unit := do
  if ← has S emptyAttributes then
    assert (m.length == 4)
    assert (Map.get m []).isSome
    assert (isNil (field m []))
  else do
    assert (m.length == 3)
    assert (Map.get m []).isNone

/-- `TestReplaceAttrFnRemoveEmptyKey` (verify/tests/replace.go:276-317). -/
def testReplaceAttrFnRemoveEmptyKey (S : Suite F) : Run Unit := do
  match ← hasAny S [noReplAttr, noReplAttrBasic] with
  | w :: _ => do
    let b ← captured
    addWarning w [] b
  | [] => do
    info S ⟨simple, []⟩ [.mk [] (.string b!"garbage")]
    let m ← logMap S
    require (Map.get m []).isSome
    require (deepEqual (.str b!"garbage") (field m []))
    bufferReset
    info S ⟨replacing (Replace.removeKey S.L [] false (some Replace.topCheck)), []⟩ [aNone]
    let m ← logMap S
    if ← has S noReplAttr then
      report noReplAttr b!"\n"
        (tooFew m 4 ++ issue (Map.get m []).isNone b!"no empty key" ++
          issue (!isNil (field m [])) b!"empty key value not null") [] (checkNoBlank S m)
    else checkNoBlank S m

/-- The issue with the message (verify/tests/replace.go:346-350). -/
def wrongMessage (v : Any F) : List Bytes :=
  match asStr v with
  | none => [b!"message not string"]
  | some s => issue (message != s) (b!"wrong message: '" ++ s ++ b!"'")

/-- `TestReplaceAttrFnChangeKey` (verify/tests/replace.go:320-365). -/
def testReplaceAttrFnChangeKey (S : Suite F) : Run Unit := do
  info S ⟨simple, []⟩ []
  let m ← logMap S
  if (Map.get m b!"message").isNone then pure ()
  else do
    bufferReset
    info S ⟨replacing (Replace.changeKey S.L b!"message" b!"msg" false (some Replace.topCheck)), []⟩ []
    let m ← logMap S
    match ← hasAny S [noReplAttrBasic, noReplAttr] with
    | w :: _ =>
      report w b!"\n"
        (tooFew m 4 ++ issue (Map.get m b!"msg").isNone b!"no message key" ++ wrongMessage (field m b!"msg")) []
        (pure ())
    | [] => do
      assert (Map.get m b!"message").isNone
      assert (Map.get m b!"msg").isSome
      assert (asStr (field m b!"msg")).isSome
      assert (message == (asStr (field m b!"msg")).getD [])

/-- `strings.Replace(s, old, new, -1)`; the number counts bytes of `old` still to be passed. -/
def replaceAll (old new : Bytes) : Nat → Bytes → Bytes
  | _, [] => []
  | k + 1, _ :: s => replaceAll old new k s
  | 0, c :: s =>
    if old.isPrefixOf (c :: s) then new ++ replaceAll old new (old.length - 1) s else c :: replaceAll old new 0 s

/-- The function of `TestReplaceAttrFnMulti` (verify/tests/replace.go:370-376). -/
def replMulti (L : Replace.Lib) : AttrFn :=
  Replace.multiple
    [Replace.removeKey L b!"time" false (some Replace.topCheck),
     Replace.changeCase L b!"alpha" 2 false (some (Replace.current b!"group")),
     Replace.changeKey L b!"alpha" b!"la la la" false (some (Replace.current b!"subGroup")),
     Replace.changeValue L b!"gibbering"
       (fun v => .string (replaceAll b!"luna" b!"moon" 0 (L.valueString v))) false
       (some (Replace.current b!"oneMore"))]

/-- The logger of `TestReplaceAttrFnMulti` (verify/tests/replace.go:370-380). -/
def multiReplLogger (L : Replace.Lib) : Logger :=
  (((((Logger.mk (replacing (replMulti L)) []).group b!"group").with
    [.mk b!"alpha" (.string b!"omega"), aPi]).group b!"subGroup").with
    [.mk b!"alpha" (.string b!"omega"), .mk b!"goober" (.string b!"snoofus"), .mk b!"e" (.float64 e64)]).group
    b!"oneMore" |>.with
    [.mk b!"alpha" (.string b!"omega"), .mk b!"gibbering" (.string b!"lunatic"), .mk b!"phi" (.float64 phi64)]

/-- The text in `TestReplaceAttrFnMulti` (verify/tests/replace.go:383-402). -/
def multiText : Bytes :=
  [0x0A, 0x09, 0x09, 0x7B, 0x0A, 0x09, 0x09, 0x09, 0x22, 0x6C, 0x65, 0x76, 0x65, 0x6C, 0x22, 0x3A, 0x20, 0x22, 0x49, 0x4E,
   0x46, 0x4F, 0x22, 0x2C, 0x0A, 0x09, 0x09, 0x09, 0x22, 0x6D, 0x73, 0x67, 0x22, 0x3A, 0x20, 0x22, 0x54, 0x68, 0x69, 0x73,
   0x20, 0x69, 0x73, 0x20, 0x61, 0x20, 0x6D, 0x65, 0x73, 0x73, 0x61, 0x67, 0x65, 0x22, 0x2C, 0x0A, 0x09, 0x09, 0x09, 0x22,
   0x67, 0x72, 0x6F, 0x75, 0x70, 0x22, 0x3A, 0x20, 0x7B, 0x0A, 0x09, 0x09, 0x09, 0x09, 0x22, 0x61, 0x6C, 0x70, 0x68, 0x61,
   0x22, 0x3A, 0x20, 0x22, 0x4F, 0x4D, 0x45, 0x47, 0x41, 0x22, 0x2C, 0x0A, 0x09, 0x09, 0x09, 0x09, 0x22, 0x70, 0x69, 0x22,
   0x3A, 0x20, 0x33, 0x2E, 0x31, 0x34, 0x31, 0x35, 0x39, 0x32, 0x36, 0x35, 0x33, 0x35, 0x38, 0x39, 0x37, 0x39, 0x33, 0x2C,
   0x0A, 0x09, 0x09, 0x09, 0x09, 0x22, 0x73, 0x75, 0x62, 0x47, 0x72, 0x6F, 0x75, 0x70, 0x22, 0x3A, 0x20, 0x7B, 0x0A, 0x09,
   0x09, 0x09, 0x09, 0x09, 0x22, 0x6C, 0x61, 0x20, 0x6C, 0x61, 0x20, 0x6C, 0x61, 0x22, 0x3A, 0x20, 0x22, 0x6F, 0x6D, 0x65,
   0x67, 0x61, 0x22, 0x2C, 0x0A, 0x09, 0x09, 0x09, 0x09, 0x09, 0x22, 0x67, 0x6F, 0x6F, 0x62, 0x65, 0x72, 0x22, 0x3A, 0x20,
   0x22, 0x73, 0x6E, 0x6F, 0x6F, 0x66, 0x75, 0x73, 0x22, 0x2C, 0x0A, 0x09, 0x09, 0x09, 0x09, 0x09, 0x22, 0x65, 0x22, 0x3A,
   0x20, 0x32, 0x2E, 0x37, 0x31, 0x38, 0x32, 0x38, 0x31, 0x38, 0x32, 0x38, 0x34, 0x35, 0x39, 0x30, 0x34, 0x35, 0x2C, 0x0A,
   0x09, 0x09, 0x09, 0x09, 0x09, 0x22, 0x6F, 0x6E, 0x65, 0x4D, 0x6F, 0x72, 0x65, 0x22, 0x3A, 0x20, 0x7B, 0x0A, 0x09, 0x09,
   0x09, 0x09, 0x09, 0x09, 0x22, 0x61, 0x6C, 0x70, 0x68, 0x61, 0x22, 0x3A, 0x20, 0x22, 0x6F, 0x6D, 0x65, 0x67, 0x61, 0x22,
   0x2C, 0x0A, 0x09, 0x09, 0x09, 0x09, 0x09, 0x09, 0x22, 0x67, 0x69, 0x62, 0x62, 0x65, 0x72, 0x69, 0x6E, 0x67, 0x22, 0x3A,
   0x20, 0x22, 0x6D, 0x6F, 0x6F, 0x6E, 0x74, 0x69, 0x63, 0x22, 0x2C, 0x0A, 0x09, 0x09, 0x09, 0x09, 0x09, 0x09, 0x22, 0x70,
   0x68, 0x69, 0x22, 0x3A, 0x20, 0x31, 0x2E, 0x36, 0x31, 0x38, 0x30, 0x33, 0x33, 0x39, 0x38, 0x38, 0x37, 0x34, 0x39, 0x38,
   0x39, 0x35, 0x0A, 0x09, 0x09, 0x09, 0x09, 0x09, 0x7D, 0x0A, 0x09, 0x09, 0x09, 0x09, 0x7D, 0x0A, 0x09, 0x09, 0x09, 0x7D,
   0x0A, 0x09, 0x09, 0x7D, 0x0A, 0x09, 0x09]

/-- `TestReplaceAttrFnMulti` (verify/tests/replace.go:369-411). -/
def testReplaceAttrFnMulti (S : Suite F) : Run Unit := do
  info S (multiReplLogger S.L) []
  let m ← logMap S
  let good := deepEqual (.map (expect S multiText)) (.map m)
  match ← hasAny S [noReplAttrBasic, noReplAttr] with
  | w :: _ => do
    let b ← captured
    if good then addUnused w b else addWarning w [] b
  | [] => assert good

/-- The end of `TestReplaceAttrFnRemoveTime` (verify/tests/replace.go:447-454); `value` holds a
string, which is never nil. -/
def checkTimeGone (S : Suite F) (m : AMap F) : Run Unit := do
  if ← has S emptyAttributes then
    require (m.length == 3)
    assert (asStr (field m b!"time")).isSome
    assert false
  else do
    require (m.length == 2)
    assert (asStr (field m b!"time")).isNone

/-- `TestReplaceAttrFnRemoveTime` (verify/tests/replace.go:415-455). -/
def testReplaceAttrFnRemoveTime (S : Suite F) : Run Unit := do
  info S ⟨simple, []⟩ []
  let m ← logMap S
  require (m.length == 3)
  require (Map.get m b!"time").isSome
  assert (!isNil (field m b!"time"))
  bufferReset
  info S ⟨replacing (Replace.removeKey S.L b!"time" false (some Replace.topCheck)), []⟩ []
  let m ← logMap S
  match ← hasAny S [noReplAttrBasic, noReplAttr] with
  | w :: _ =>
    report w b!"\n"
      (tooFew m 3 ++ issue (asStr (field m b!"time")).isNone b!"no time key" ++
        issue ((asStr (field m b!"time")).getD [] != []) b!"time value not empty string") []
      (checkTimeGone S m)
  | [] => checkTimeGone S m

/-! ### The suite -/

/-- The tests in the order in which testify runs them, that of their names
(verify/tests/slogtest.go, duplicate.go, documented.go, other.go, replace.go, complex.go),
without `TestSlogTest`. -/
def allTests (S : Suite F) : List (Bytes × Run Unit) :=
  [(b!"TestAnyMap", testAnyMap S),
   (b!"TestAttributeDuplicate", testAttributeDuplicate S),
   (b!"TestAttributeEmptyName", testAttributeEmptyName S),
   (b!"TestAttributeNil", testAttributeNil S),
   (b!"TestAttributeWithDuplicate", testAttributeWithDuplicate S),
   (b!"TestAttributeWithEmpty", testAttributeWithEmpty S),
   (b!"TestAttributeWithEmptyName", testAttributeWithEmptyName S),
   (b!"TestAttributeWithNil", testAttributeWithNil S),
   (b!"TestAttributes", testAttributes S),
   (b!"TestAttributesEmpty", testAttributesEmpty S),
   (b!"TestAttributesNotEmpty", testAttributesNotEmpty S),
   (b!"TestAttributesWith", testAttributesWith S),
   (b!"TestAttributesWithEmpty", testAttributesWithEmpty S),
   (b!"TestAttributesWithNotEmpty", testAttributesWithNotEmpty S),
   (b!"TestCanceledContext", testCanceledContext S),
   (b!"TestComplexCases", testComplexCases S),
   (b!"TestDefaultLevel", testDefaultLevel S),
   (b!"TestDerivedInvariantWith", testDerivedInvariantWith S),
   (b!"TestDerivedInvariantWithGroup", testDerivedInvariantWithGroup S),
   (b!"TestDisabled", testDisabled S),
   (b!"TestGroup", testGroup S),
   (b!"TestGroupDuration", testGroupDuration S),
   (b!"TestGroupEmpty", testGroupEmpty S),
   (b!"TestGroupInline", testGroupInline S),
   (b!"TestGroupWith", testGroupWith S),
   (b!"TestGroupWithMulti", testGroupWithMulti S),
   (b!"TestGroupWithMultiSubEmpty", testGroupWithMultiSubEmpty S),
   (b!"TestGroupWithTop", testGroupWithTop S),
   (b!"TestKeyCase", testKeyCase S),
   (b!"TestKeys", testKeys S),
   (b!"TestLevelConfigured", testLevelConfigured S),
   (b!"TestLevelDifferent", testLevelDifferent S),
   (b!"TestLevelVar", testLevelVar S),
   (b!"TestLogAttributes", testLogAttributes S),
   (b!"TestReplaceAttr", testReplaceAttr S),
   (b!"TestReplaceAttrBasic", testReplaceAttrBasic S),
   (b!"TestReplaceAttrFnChangeKey", testReplaceAttrFnChangeKey S),
   (b!"TestReplaceAttrFnLevelCase", testReplaceAttrFnLevelCase S),
   (b!"TestReplaceAttrFnMulti", testReplaceAttrFnMulti S),
   (b!"TestReplaceAttrFnRemoveEmptyKey", testReplaceAttrFnRemoveEmptyKey S),
   (b!"TestReplaceAttrFnRemoveTime", testReplaceAttrFnRemoveTime S),
   (b!"TestReplaceAttrGroup", testReplaceAttrGroup S),
   (b!"TestResolveGroup", testResolveGroup S),
   (b!"TestResolveGroupWith", testResolveGroupWith S),
   (b!"TestResolveValuer", testResolveValuer S),
   (b!"TestResolveWith", testResolveWith S),
   (b!"TestSourceKey", testSourceKey S),
   (b!"TestStringEscape", testStringEscape S),
   (b!"TestTimestampFormat", testTimestampFormat S),
   (b!"TestWithGroupEmpty", testWithGroupEmpty S),
   (b!"TestWithGroupInline", testWithGroupInline S),
   (b!"TestZeroPC", testZeroPC S),
   (b!"TestZeroTime", testZeroTime S)]

/-- One test: a new buffer (verify/tests/suite.go:53-55), then the test, whatever becomes of
it. -/
def runTest (t : Bytes × Run Unit) (s : St) : St := (t.2 { s with buffer := [], test := t.1 }).2

/-- Tests one after the other. -/
def runTests : List (Bytes × Run Unit) → St → St
  | [], s => s
  | t :: ts, s => runTests ts (runTest t s)

/-- The suite (verify/tests/suite.go:18-55) with the manager it is given. -/
def runSuite (S : Suite F) (m : Manager) : St := runTests (allTests S) ⟨[], m, 0, 0, []⟩

end Verif.Verify
