import Verif.Verify.Suite

/-
Model of the tests in /repo/verify/tests/slogtest.go (without `TestSlogTest`, which runs the
suite of package testing/slogtest) and /repo/verify/tests/duplicate.go.
-/

namespace Verif.Verify
open Go Warning Slog Bench

variable {F : Type} [DecidableEq F]

/-- `"first", "one"`. -/
def aFirst : Attr := .mk b!"first" (.string b!"one")
/-- `"second", 2`. -/
def aSecond : Attr := .mk b!"second" (.int64 2)
/-- `slog.String("third", "3")`. -/
def aThird : Attr := .mk b!"third" (.string b!"3")
/-- `"fourth", "forth"`. -/
def aFourth : Attr := .mk b!"fourth" (.string b!"forth")
/-- `"pi", math.Pi`. -/
def aPi : Attr := .mk b!"pi" (.float64 pi64)
/-- `"", nil`. -/
def aNone : Attr := .mk [] (.any .nil)
/-- `notNil` (verify/tests/slogtest.go:538). -/
def notNil : Bytes := b!"NOT NIL"

/-- `Assert().Equal("one", m["first"])`. -/
def checkFirst (m : AMap F) : Run Unit := assertField m b!"first" (.str b!"one")
/-- `Assert().Equal(float64(2), m["second"])`. -/
def checkSecond (S : Suite F) (m : AMap F) : Run Unit := assertField m b!"second" (.num (S.N.ofInt 2))
/-- `Assert().Equal(math.Pi, m["pi"])`. -/
def checkPi (S : Suite F) (m : AMap F) : Run Unit := assertField m b!"pi" (.num (S.N.ofF64 pi64))

/-- `TestAttributes` (verify/tests/slogtest.go:54-62). -/
def testAttributes (S : Suite F) : Run Unit := do
  info S ⟨simple, []⟩ [aFirst, aSecond, aPi]
  let m ← logMap S
  checkFieldCount S 6 m
  checkFirst m
  checkSecond S m
  checkPi S m

/-- `TestAttributesEmpty` (verify/tests/slogtest.go:68-75). -/
def testAttributesEmpty (S : Suite F) : Run Unit := do
  info S ⟨simple, []⟩ [aFirst, aNone, aPi]
  let m ← logMap S
  checkFirst m
  checkPi S m
  checkNoEmptyAttribute S 5 m

/-- What is done about `NoEmptyName` (verify/tests/slogtest.go:91-102, 142-153, 555-566,
617-628). -/
def emptyNameWarning (matched : Bool) : Run Unit := do
  let b ← captured
  if matched then addUnused noEmptyName b else addWarning noEmptyName [] b

/-- `TestAttributesNotEmpty` (verify/tests/slogtest.go:80-103). -/
def testAttributesNotEmpty (S : Suite F) : Run Unit := do
  info S ⟨simple, []⟩ [aFirst, .mk [] (.string notNil), aPi]
  let m ← logMap S
  checkFirst m
  checkPi S m
  if ← has S noEmptyName then
    emptyNameWarning (asStr (field m []) == some notNil)
  else do
    assert (Map.get m []).isSome
    assertField m [] (.str notNil)

/-- `TestAttributesWith` (verify/tests/slogtest.go:107-115). -/
def testAttributesWith (S : Suite F) : Run Unit := do
  info S ((Logger.mk simple []).with [aFirst, aSecond]) [aPi]
  let m ← logMap S
  checkFieldCount S 6 m
  checkFirst m
  checkSecond S m
  checkPi S m

/-- `TestAttributesWithEmpty` (verify/tests/slogtest.go:120-128). -/
def testAttributesWithEmpty (S : Suite F) : Run Unit := do
  info S ((Logger.mk simple []).with [aFirst, aSecond, aNone]) [aPi]
  let m ← logMap S
  checkFirst m
  checkSecond S m
  checkPi S m
  checkNoEmptyAttribute S 6 m

/-- `TestAttributesWithNotEmpty` (verify/tests/slogtest.go:132-157). -/
def testAttributesWithNotEmpty (S : Suite F) : Run Unit := do
  info S ((Logger.mk simple []).with [aFirst, aSecond, .mk [] (.string notNil)]) [aPi]
  let m ← logMap S
  if ← has S noEmptyName then
    emptyNameWarning (asStr (field m []) == some notNil)
  else do
    checkFieldCount S 7 m
    assert (Map.get m []).isSome
    assertField m [] (.str notNil)
  checkFirst m
  checkSecond S m
  checkPi S m

/-- `checkFieldFn` (verify/tests/slogtest.go:256-260, 296-300), and lines 171-173. -/
def checkThree (S : Suite F) (m : AMap F) : Run Unit := do
  checkSecond S m
  assertField m b!"third" (.str b!"3")
  assertField m b!"fourth" (.str b!"forth")

/-- `TestGroup` (verify/tests/slogtest.go:161-178). -/
def testGroup (S : Suite F) : Run Unit := do
  info S ⟨simple, []⟩ [aFirst, .grp b!"group" [aSecond, aThird, aFourth], aPi]
  let m ← logMap S
  checkFieldCount S 6 m
  checkFirst m
  match asMap (field m b!"group") with
  | some group => do
    assert (group.length == 3)
    checkThree S group
  | none => assert false
  checkPi S m

/-- The issues with an empty group (verify/tests/slogtest.go:193-203, 224-234). -/
def groupIssues (m : AMap F) (name found : Bytes) : List Bytes :=
  if m.length > 3 then
    b!"too many fields" ::
      (match Map.get m name with
      | none => []
      | some grp =>
        found :: (match asMap grp with
          | some g => [b!"value is group", b!"length: " ++ decNat g.length]
          | none => []))
  else []

/-- What is done about an empty group (verify/tests/slogtest.go:204-208, 235-239). -/
def emptyGroupWarning (w : Warning) (issues : List Bytes) : Run Unit := do
  if issues.length > 0 then
    let b ← captured
    addWarning w (joinSep b!", " issues) b
  else addUnused w []

/-- `TestGroupEmpty` (verify/tests/slogtest.go:184-210). -/
def testGroupEmpty (S : Suite F) : Run Unit := do
  info S ⟨simple, []⟩ [.grp b!"group" []]
  let m ← logMap S
  if ← has S groupEmpty then emptyGroupWarning groupEmpty (groupIssues m b!"group" b!"found field")
  else do
    checkFieldCount S 3 m
    assert (Map.get m b!"group").isNone

/-- `TestWithGroupEmpty` (verify/tests/slogtest.go:215-241). -/
def testWithGroupEmpty (S : Suite F) : Run Unit := do
  info S (((Logger.mk simple []).group b!"group1").group b!"group2") [.grp b!"subGroup" []]
  let m ← logMap S
  if ← has S withGroupEmpty then
    emptyGroupWarning withGroupEmpty (groupIssues m b!"group1" b!"found field 'group1'")
  else do
    checkFieldCount S 3 m
    assert (Map.get m b!"group").isNone

/-- The end of the two tests of inline groups (verify/tests/slogtest.go:254-278, 294-318). -/
def checkInline (S : Suite F) (m : AMap F) : Run Unit := do
  checkFirst m
  checkPi S m
  if ← has S groupInline then
    let c ← counted S
    if c.numFields == 6 then do
      match asMap (field m []) with
      | some group => do
        assert (group.length == 3)
        checkThree S group
      | none => assert false
      let b ← captured
      addWarning groupInline [] b
    else addUnused groupInline []
  else do
    checkFieldCount S 8 m
    checkThree S m

/-- `TestGroupInline` (verify/tests/slogtest.go:248-279). -/
def testGroupInline (S : Suite F) : Run Unit := do
  info S ⟨simple, []⟩ [aFirst, .grp [] [aSecond, aThird, aFourth], aPi]
  let m ← logMap S
  checkInline S m

/-- `TestWithGroupInline` (verify/tests/slogtest.go:285-319). -/
def testWithGroupInline (S : Suite F) : Run Unit := do
  info S ((Logger.mk simple []).group []) [aFirst, aSecond, aThird, aFourth, aPi]
  let m ← logMap S
  checkInline S m

/-- `TestGroupWith` (verify/tests/slogtest.go:323-335). -/
def testGroupWith (S : Suite F) : Run Unit := do
  info S ((Logger.mk simple []).group b!"group") [aFirst, aPi]
  let m ← logMap S
  checkFieldCount S 4 m
  match asMap (field m b!"group") with
  | some group => do
    assert (group.length == 2)
    checkFirst group
    checkPi S group
  | none => assert false

/-- The logger of the two tests (verify/tests/slogtest.go:341-343, 375-377). -/
def multiLogger : Logger :=
  (((Logger.mk simple []).with [aFirst]).group b!"group" |>.with [aSecond, aThird]).group b!"subGroup"

/-- `TestGroupWithMulti` (verify/tests/slogtest.go:339-367). -/
def testGroupWithMulti (S : Suite F) : Run Unit := do
  info S multiLogger [aFourth, aPi]
  let m ← logMap S
  let expected := adjustExpected
    [(b!"level", .str b!"info"), (b!"msg", .str b!"This is a message"), (b!"first", .str b!"one"),
     (b!"group", .map [(b!"second", .num (S.N.ofInt 2)), (b!"third", .str b!"3"),
       (b!"subGroup", .map [(b!"fourth", .str b!"forth"), (b!"pi", .num (S.N.ofF64 pi64))])])] m
  if ← has S withGroup then
    if deepEqual (.map expected) (.map m) then addUnused withGroup []
    else do
      let b ← captured
      addWarning withGroup [] b
  else do
    checkFieldCount S 5 m
    assert (deepEqual (.map expected) (.map m))

/-- What is wrong in `TestGroupWithMultiSubEmpty` (verify/tests/slogtest.go:396-404). -/
def subEmptyIssue (m : AMap F) : Warning × Bytes :=
  match Map.get m b!"group" with
  | none => (withGroup, b!"no 'group' group")
  | some grp =>
    match asMap grp with
    | none => (withGroup, b!"'group' group not map")
    | some group =>
      if (Map.get group b!"subGroup").isSome then (groupEmpty, b!"found 'subGroup' group") else (withGroup, [])

/-- `TestGroupWithMultiSubEmpty` (verify/tests/slogtest.go:373-405). -/
def testGroupWithMultiSubEmpty (S : Suite F) : Run Unit := do
  info S multiLogger []
  let m ← logMap S
  let expected := adjustExpected
    [(b!"level", .str b!"info"), (b!"msg", .str b!"This is a message"), (b!"first", .str b!"one"),
     (b!"group", .map [(b!"second", .num (S.N.ofInt 2)), (b!"third", .str b!"3")])] m
  let w ← has S withGroup
  let g ← has S groupEmpty
  if !w && !g then do
    checkFieldCount S 5 m
    assert (deepEqual (.map expected) (.map m))
  else if deepEqual (.map expected) (.map m) then do
    addUnused withGroup []
    addUnused groupEmpty []
  else do
    let b ← captured
    addWarning (subEmptyIssue m).1 (subEmptyIssue m).2 b

/-- Level, message and time (verify/tests/slogtest.go:414-416, 487-489;
verify/tests/documented.go:28-30 and often). -/
def checkBasics (S : Suite F) (m : AMap F) : Run Unit := do
  checkLevelKey S b!"INFO" m
  checkMessageKey S message m
  assert (!isNil (field m b!"time"))

/-- `TestKeys` (verify/tests/slogtest.go:409-417). -/
def testKeys (S : Suite F) : Run Unit := do
  info S ⟨simple, []⟩ []
  let m ← logMap S
  checkFieldCount S 3 m
  checkBasics S m

/-- The end of the two tests (verify/tests/slogtest.go:426-434, 445-453). -/
def checkResolved (S : Suite F) : Run Unit := do
  let m ← logMap S
  checkFieldCount S 4 m
  match asMap (field m b!"group") with
  | some group => do
    assert (group.length == 2)
    checkPi S group
    checkResolution S b!"value" (field group b!"hidden")
  | none => assert false

/-- `TestResolveGroup` (verify/tests/slogtest.go:422-435). -/
def testResolveGroup (S : Suite F) : Run Unit := do
  info S ⟨simple, []⟩ [.grp b!"group" [aPi, .mk b!"hidden" (hidden b!"value")]]
  checkResolved S

/-- `TestResolveGroupWith` (verify/tests/slogtest.go:440-454). -/
def testResolveGroupWith (S : Suite F) : Run Unit := do
  info S ((Logger.mk simple []).with [.grp b!"group" [aPi, .mk b!"hidden" (hidden b!"value")]]) []
  checkResolved S

/-- `TestResolveWith` (verify/tests/slogtest.go:459-465). -/
def testResolveWith (S : Suite F) : Run Unit := do
  info S ((Logger.mk simple []).with [.mk b!"hidden" (hidden b!"value")]) []
  let m ← logMap S
  checkFieldCount S 4 m
  checkResolution S b!"value" (field m b!"hidden")

/-- `TestResolveValuer` (verify/tests/slogtest.go:470-477). -/
def testResolveValuer (S : Suite F) : Run Unit := do
  info S ⟨simple, []⟩ [.mk b!"hidden" (hidden b!"something")]
  let m ← logMap S
  checkFieldCount S 4 m
  checkResolution S b!"something" (field m b!"hidden")

/-- `logger.Handler().Handle` with the error required to be nil (verify/tests/slogtest.go:485,
511; verify/tests/documented.go:155). -/
def handleRecord (S : Suite F) (l : Logger) (r : Record) : Run Unit := do
  let n ← tick
  let (b, bad) := S.sut.handle n l.options l.ops false r
  emit b
  require (!bad)

/-- `TestZeroPC` (verify/tests/slogtest.go:482-502). -/
def testZeroPC (S : Suite F) : Run Unit := do
  let t ← now S
  handleRecord S ⟨source, []⟩ ⟨some t, levelInfo, message, 0, []⟩
  let m ← logMap S
  checkBasics S m
  if ← has S zeroPC then
    let b ← captured
    if (asMap (field m b!"source")).isSome then addWarning zeroPC [] b
    else if (Map.get m b!"caller").isSome then addWarning zeroPC b!"non-standard key 'caller'" b
    else do
      addUnused zeroPC []
      checkFieldCount S 3 m
  else checkFieldCount S 3 m

/-- The end of `TestZeroTime` (verify/tests/slogtest.go:530-531). -/
def noTime (S : Suite F) (m : AMap F) : Run Unit := do
  checkFieldCount S 2 m
  assert (isNil (field m b!"time"))

/-- `TestZeroTime` (verify/tests/slogtest.go:508-532). -/
def testZeroTime (S : Suite F) : Run Unit := do
  handleRecord S ⟨simple, []⟩ ⟨none, levelInfo, message, 0, []⟩
  let m ← logMap S
  checkLevelKey S b!"INFO" m
  checkMessageKey S message m
  if ← has S zeroTime then
    let c ← counted S
    match (if c.numFields == 3 then Map.get m b!"time" else none) with
    | some timeAny => do
      let b ← captured
      addWarning zeroTime ((asStr timeAny).getD (b!"<bad type> " ++ S.showAny timeAny)) b
    | none => do
      addUnused zeroTime []
      noTime S m
  else noTime S m

/-- What `TestAttributeEmptyName` and `TestAttributeWithEmptyName` look for
(verify/tests/slogtest.go:548-568, 610-630). -/
def checkEmptyName (S : Suite F) : Run Unit := do
  let m ← logMap S
  if ← has S noEmptyName then
    emptyNameWarning (asNum (field m []) == some (S.N.ofInt 2))
  else do
    checkFieldCount S 6 m
    assert (Map.get m []).isSome
    assertField m [] (.num (S.N.ofInt 2))
  checkFirst m
  checkPi S m

/-- `TestAttributeEmptyName` (verify/tests/slogtest.go:545-569). -/
def testAttributeEmptyName (S : Suite F) : Run Unit := do
  info S ⟨simple, []⟩ [aFirst, .mk [] (.int64 2), aPi]
  checkEmptyName S

/-- What `TestAttributeNil` and `TestAttributeWithNil` look for
(verify/tests/slogtest.go:577-588, 639-650). -/
def checkNil (S : Suite F) : Run Unit := do
  let m ← logMap S
  if ← has S noNilValue then
    checkFieldCount S 5 m
    assert (Map.get m b!"second").isNone
  else do
    checkFieldCount S 6 m
    assert (Map.get m b!"second").isSome
    assert (isNil (field m b!"second"))
  checkFirst m
  checkPi S m

/-- `TestAttributeNil` (verify/tests/slogtest.go:574-589). -/
def testAttributeNil (S : Suite F) : Run Unit := do
  info S ⟨simple, []⟩ [aFirst, .mk b!"second" (.any .nil), aPi]
  checkNil S

/-- `TestAttributeWithEmpty` (verify/tests/slogtest.go:595-602). -/
def testAttributeWithEmpty (S : Suite F) : Run Unit := do
  info S ((Logger.mk simple []).with [aNone]) [aFirst, aPi]
  let m ← logMap S
  checkFirst m
  checkPi S m
  checkNoEmptyAttribute S 5 m

/-- `TestAttributeWithEmptyName` (verify/tests/slogtest.go:607-631). -/
def testAttributeWithEmptyName (S : Suite F) : Run Unit := do
  info S ((Logger.mk simple []).with [.mk [] (.int64 2)]) [aFirst, aPi]
  checkEmptyName S

/-- `TestAttributeWithNil` (verify/tests/slogtest.go:636-651). -/
def testAttributeWithNil (S : Suite F) : Run Unit := do
  info S ((Logger.mk simple []).with [.mk b!"second" (.any .nil)]) [aFirst, aPi]
  checkNil S

/-! ### duplicate.go -/

/-- The end of both tests (verify/tests/duplicate.go:20-23, 35-38). -/
def checkDuplicates (S : Suite F) : Run Unit := do
  let m ← logMap S
  if ← skipTest S skipDedup then pure () else checkFieldCount S 6 m

/-- `TestAttributeDuplicate` (verify/tests/duplicate.go:15-24). -/
def testAttributeDuplicate (S : Suite F) : Run Unit := do
  info S ⟨simple, []⟩
    [.mk b!"alpha" (.string b!"one"), .mk b!"alpha" (.int64 2), .mk b!"bravo" (.string b!"hurrah"),
     .mk b!"charlie" (.string b!"brown"), .mk b!"charlie" (.int64 3),
     .mk b!"charlie" (.float64 (.fin false 23 [7, 9]))]
  checkDuplicates S

/-- `TestAttributeWithDuplicate` (verify/tests/duplicate.go:30-39). -/
def testAttributeWithDuplicate (S : Suite F) : Run Unit := do
  info S ((Logger.mk simple []).with
    [.mk b!"alpha" (.string b!"one"), .mk b!"bravo" (.string b!"hurrah"), .mk b!"charlie" (.string b!"brown"),
     .mk b!"charlie" (.string b!"jones")])
    [.mk b!"alpha" (.int64 2), .mk b!"charlie" (.float64 (.fin false 23 [7]))]
  checkDuplicates S

end Verif.Verify
