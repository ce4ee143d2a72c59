import Verif.Spec.GoAny
import Verif.Warning.Manager
import Verif.Count.Model
import Verif.Slog

/-
Model of the checks of the benchmark suite, /repo/bench/tests/checks.go, with
`fixLogMap` and `parseLogMap` (/repo/bench/tests/utility.go:55-80) and `getLogMap`
(/repo/bench/tests/benchmarks.go:259-272).

Simplifications: nil and empty maps are told apart for `logMap` only; debug output is left
out; the parts of error texts made by `fmt` from arbitrary values or by other packages are
parameters.
-/

namespace Verif.Bench
open Go Warning

variable {F : Type} [DecidableEq F]

/-- `TestError` (infra/warning/admin.go:20-22), without its description. -/
def testError : Warning := ⟨1, b!"TestError", b!"Test harness error", []⟩
/-- `SkipDedup` (infra/warning/admin.go:8-9), without its description. -/
def skipDedup : Warning := ⟨1, b!"SkipDedup", b!"Test depends on dedup order", []⟩
/-- `Mismatch` (infra/warning/benchmark.go:8-9), without its description. -/
def mismatch : Warning := ⟨4, b!"Mismatch", b!"Logged record does not match expected", []⟩
/-- `NotDisabled` (infra/warning/benchmark.go:11-13), without its description. -/
def notDisabled : Warning := ⟨4, b!"NotDisabled", b!"Logging was not properly disabled", []⟩
/-- `SourceCaller` (infra/warning/implied.go:56-58), without its description. -/
def sourceCaller : Warning :=
  ⟨3, b!"SourceCaller", b!"Source data logged as 'caller' instead of 'source'", []⟩
/-- `SourceKey` (infra/warning/implied.go:64-65), without its description. -/
def sourceKey : Warning := ⟨3, b!"SourceKey", b!"Source data not logged when AddSource flag set", []⟩
/-- `Duplicates` (infra/warning/suggested.go:8-9), without its description. -/
def duplicates : Warning := ⟨2, b!"Duplicates", b!"Duplicate field(s) found", []⟩
/-- `StringAny` (infra/warning/suggested.go:58-59), without its description. -/
def stringAny : Warning :=
  ⟨2, b!"StringAny", b!"map[string]any converted to strings in log records", []⟩

/-- The errors of the checks: a warning taken as an error, with or without extra text
(`Warning.ErrorExtra`), the mismatch error of `finder` (bench/tests/checks.go:104), an
error of `json.Marshal` (bench/tests/checks.go:84, 132), several errors joined. -/
inductive Err
  | warning (w : Warning)
  | extra (w : Warning) (text : Bytes)
  | mismatch (text : Bytes)
  | marshal
  | joined (es : List Err)

/-- The errors of `bigGroupCheck` (bench/tests/data.go:182, 186). -/
inductive GroupErr (F : Type)
  | nonGroup (field : Bytes) (value : Any F)
  | badPrefix (field stem : Bytes)

/-- What the checks take from their surroundings. -/
structure Lib (F : Type) where
  /-- `json.Unmarshal` into a fresh `map[string]any`: the map, if one was made, and the
  text of the error with its prefix (bench/tests/utility.go:73-80). -/
  unmarshal : Bytes → Option (AMap F) × Option Bytes
  /-- `json.Marshal`; `none` is an error. -/
  marshal : Any F → Option Bytes
  /-- `strings.ToUpper`. -/
  upper : Bytes → Bytes
  /-- `err.Error()` of an error of `bigGroupCheck`. -/
  groupText : GroupErr F → Bytes
  /-- The flag `-useWarnings` (infra/warning/manager.go:33, 172). -/
  useWarnings : Bool
  /-- The function name `AddWarning` finds on the call stack. -/
  fn : Bytes
  /-- `sort.Strings`. -/
  sorter : Sorter

/-- A check (`VerifyFn`, bench/tests/benchmarks.go:32) as a function from the captured
bytes, the map of the caller (nil is `none`) and the manager to the map of the caller (a
check may change it), the manager and the error (nil is `none`). -/
abbrev Check (F : Type) :=
  Bytes → Option (AMap F) → Manager → Option (AMap F) × Manager × Option Err

/-- Renaming the level in upper case (bench/tests/utility.go:59-63). -/
def fixLevel (L : Lib F) (logMap : AMap F) : AMap F :=
  match logMap.get b!"level" with
  | some (.str level) => logMap.set b!"level" (.str (L.upper level))
  | _ => logMap

/-- Renaming the message (bench/tests/utility.go:64-67). -/
def fixMessage (logMap : AMap F) : AMap F :=
  match logMap.get b!"message" with
  | some msg => (logMap.set b!"msg" msg).del b!"message"
  | none => logMap

/-- `fixLogMap` (bench/tests/utility.go:57-69). -/
def fixLogMap (L : Lib F) (logMap : AMap F) : AMap F :=
  fixMessage (fixLevel L (logMap.del b!"time"))

/-- `getLogMap` (bench/tests/benchmarks.go:263-272). -/
def getLogMap (L : Lib F) (captured : Bytes) (logMap : Option (AMap F)) (m : Manager) :
    Option (AMap F) × Manager :=
  match logMap with
  | some x => (some x, m)
  | none =>
    match L.unmarshal captured with
    | (r, none) => (r.map (fixLogMap L), m)
    | (r, some e) => (r.map (fixLogMap L), m.addWarning L.fn testError e captured)

/-- Reading a possibly nil map. -/
def lookup (logMap : Option (AMap F)) (k : Bytes) : Option (Any F) :=
  logMap.bind fun x => Map.get x k

/-- `nonGroupFields` (bench/tests/data.go:168-172). -/
def nonGroupFields : List Bytes := [b!"count", b!"depth", b!"limit"]

mutual
/-- `bigGroupCheck` (bench/tests/data.go:174-195); `limit` is not used. -/
def bigGroupCheck : Any F → Nat → Bytes → Except (GroupErr F) Nat
  | .map m, depth, stem => bigGroupLoop m depth stem depth
  | _, depth, _ => .ok depth
/-- The loop over the fields (bench/tests/data.go:176-193). -/
def bigGroupLoop : List (Bytes × Any F) → Nat → Bytes → Nat → Except (GroupErr F) Nat
  | [], _, _, maxDepth => .ok maxDepth
  | (field, .map sub) :: rest, depth, stem, maxDepth =>
    if stem.isPrefixOf field then
      match bigGroupCheck (.map sub) (depth + 1) field with
      | .error e => .error e
      | .ok d => bigGroupLoop rest depth stem (if d > maxDepth then d else maxDepth)
    else .error (.badPrefix field stem)
  | (field, value) :: rest, depth, stem, maxDepth =>
    if nonGroupFields.contains field then bigGroupLoop rest depth stem maxDepth
    else .error (.nonGroup field value)
end

/-- `bigGroupLimit` (bench/tests/data.go:148). -/
def bigGroupLimit : Nat := 5

/-- `bigGroupChecker` (bench/tests/checks.go:23-43). -/
def bigGroupChecker (L : Lib F) (testName : Bytes) : Check F := fun captured logMap m =>
  let (lm, m) := getLogMap L captured logMap m
  match lookup lm b!"group" with
  | none => (logMap, m, none)
  | some (.map group) =>
    match bigGroupCheck (.map group) 0 b!"group" with
    | .error e =>
      let text := testName ++ b!": " ++ L.groupText e
      (logMap, m.addWarning L.fn mismatch text [], some (.extra mismatch text))
    | .ok maxDepth =>
      if maxDepth ≠ bigGroupLimit then
        let text := testName ++ b!": maxDepth " ++ Slog.decNat maxDepth ++ b!" != " ++
          Slog.decNat bigGroupLimit ++ b!" limit"
        (logMap, m.addWarning L.fn mismatch text [], some (.extra mismatch text))
      else (logMap, m, none)
  | some _ =>
    let text := testName ++ b!": not a group"
    (logMap, m.addWarning L.fn mismatch text [], some (.extra mismatch text))

/-- `strings.Join(l, ",")`. -/
def joinComma : List Bytes → Bytes
  | [] => []
  | [s] => s
  | s :: l => s ++ 0x2C :: joinComma l

/-- The loop of `fields` (bench/tests/checks.go:49-54), which is also that of `sourcerer`
(bench/tests/checks.go:186-191). -/
def missingOf (has : Bytes → Bool) : List Bytes → List Bytes
  | [] => []
  | f :: fs => if has f then missingOf has fs else f :: missingOf has fs

/-- `fields` (bench/tests/checks.go:46-62). -/
def fields (L : Lib F) (testName : Bytes) (names : List Bytes) : Check F := fun captured logMap m =>
  let (lm, m) := getLogMap L captured logMap m
  let missing := missingOf (fun f => (lookup lm f).isSome) names
  if missing.length > 0 then
    let text := testName ++ b!": " ++ joinComma missing
    (logMap, m.addWarning L.fn mismatch text captured, some (.extra mismatch text))
  else (logMap, m, none)

/-- `skipDedupTests` (bench/tests/checks.go:64-69). -/
def skipDedupTests : List Bytes :=
  [b!"WithAttrsAttributes:All", b!"WithAttrsAttributes:With",
   b!"WithAttrsKeyValues:All", b!"WithAttrsKeyValues:With"]

mutual
/-- `reflect.DeepEqual` of two values of this kind (package reflect): maps have the same
number of entries, and every entry of the first is in the second. (It also tells nil from
empty maps and slices; neither side has nil ones here.) -/
def deepEqual : Any F → Any F → Bool
  | .nil, .nil => true
  | .bool b, .bool b' => b == b'
  | .num x, .num x' => decide (x = x')
  | .str s, .str s' => s == s'
  | .list l, .list l' => l.length == l'.length && listEqual l l'
  | .map m, .map m' => m.length == m'.length && mapEqual m m'
  | _, _ => false
/-- Elementwise. -/
def listEqual : List (Any F) → List (Any F) → Bool
  | a :: l, a' :: l' => deepEqual a a' && listEqual l l'
  | _, _ => true
/-- Entry by entry. -/
def mapEqual : List (Bytes × Any F) → List (Bytes × Any F) → Bool
  | [], _ => true
  | (k, a) :: m, m' =>
    (match Map.get m' k with
      | some a' => deepEqual a a'
      | none => false) && mapEqual m m'
end

/-- `sort.Strings`. -/
def sortStrings (L : Lib F) (l : List Bytes) : List Bytes := L.sorter.sort less l

/-- A field whose values differ (bench/tests/checks.go:129-141): the fields to add to
`badFields` and to `strFields`, or an error. -/
def differs (L : Lib F) (field : Bytes) (value actual : Any F) : Option (List Bytes × List Bytes) :=
  if deepEqual value actual then some ([], [])
  else match actual with
    | .str s =>
      match L.marshal value with
      | none => none
      | some j => if s == j then some ([], [field]) else some ([field], [])
    | _ => some ([field], [])

mutual
/-- `finderDeep` (bench/tests/checks.go:116-146) for a field of the expected map; `actual`
is `actual[field]`, nil if there is none. The prefix is not used. -/
def finderField (L : Lib F) (field : Bytes) :
    Any F → Any F → Option (List Bytes × List Bytes)
  | .map e, .map a =>
    match finderLoop L e a with
    | none => none
    | some (bf, sf) => some (sortStrings L bf, sortStrings L sf)
  | value, actual => differs L field value actual
/-- The loop of `finderDeep` (bench/tests/checks.go:119-142): the fields to add. -/
def finderLoop (L : Lib F) : List (Bytes × Any F) → AMap F → Option (List Bytes × List Bytes)
  | [], _ => some ([], [])
  | (field, value) :: rest, actual =>
    match finderField L field value ((Map.get actual field).getD .nil) with
    | none => none
    | some (bf, sf) =>
      match finderLoop L rest actual with
      | none => none
      | some (bfs, sfs) => some (bf ++ bfs, sf ++ sfs)
end

/-- `finderDeep` (bench/tests/checks.go:116-146); `none` is an error. -/
def finderDeep (L : Lib F) (expected actual : AMap F) : Option (List Bytes × List Bytes) :=
  match finderLoop L expected actual with
  | none => none
  | some (bf, sf) => some (sortStrings L bf, sortStrings L sf)

/-- The treatment of values shown as strings (bench/tests/checks.go:87-97). -/
def finderStrings (L : Lib F) (testName captured : Bytes) (badFields strFields : List Bytes)
    (m : Manager) : List Bytes × Manager :=
  if strFields.length > 0 then
    if m.hasWarning L.useWarnings stringAny then
      (badFields, m.addWarningFn stringAny (testName ++ b!": " ++ joinComma strFields) captured)
    else (badFields ++ strFields.map fun fld => 0x22 :: (fld ++ [0x22]), m)
  else if m.hasWarning L.useWarnings stringAny then
    (badFields, m.addUnused L.fn stringAny captured)
  else (badFields, m)

/-- The report of bad fields (bench/tests/checks.go:99-109). -/
def finderReport (L : Lib F) (testName captured : Bytes) (badFields : List Bytes) (m : Manager) :
    Manager × Option Err :=
  if badFields.length > 0 then
    let text := testName ++ b!": " ++ joinComma badFields
    if m.hasWarning L.useWarnings mismatch then (m.addWarningFn mismatch text captured, none)
    else (m, some (.mismatch text))
  else if m.hasWarning L.useWarnings mismatch then (m.addUnused L.fn mismatch captured, none)
  else (m, none)

/-- `finder` (bench/tests/checks.go:73-111). -/
def finder (L : Lib F) (testName : Bytes) (expected : AMap F) : Check F := fun captured logMap m =>
  if m.hasWarning L.useWarnings skipDedup && skipDedupTests.contains testName then (logMap, m, none)
  else
    let (lm, m) := getLogMap L captured logMap m
    match finderDeep L expected (lm.getD []) with
    | none => (logMap, m, some .marshal)
    | some (badFields, strFields) =>
      let (badFields, m) := finderStrings L testName captured badFields strFields m
      let (m, err) := finderReport L testName captured badFields m
      (logMap, m, err)

/-- `reflect.DeepEqual` of a map with a possibly nil one. -/
def equalMaps (expected : AMap F) : Option (AMap F) → Bool
  | none => false
  | some x => deepEqual (.map expected) (.map x)

/-- `matcher` (bench/tests/checks.go:150-161); `fixLogMap` changes the map of the caller, if
there is one. -/
def matcher (L : Lib F) (testName : Bytes) (expected : AMap F) : Check F := fun captured logMap m =>
  let (lm, m) := getLogMap L captured logMap m
  let fixed := lm.map (fixLogMap L)
  let caller := logMap.bind fun _ => fixed
  if !equalMaps expected fixed then
    (caller, m.addWarningFn mismatch testName captured, some (.extra mismatch testName))
  else (caller, m, none)

/-- `noDuplicates` (bench/tests/checks.go:164-174). -/
def noDuplicates (L : Lib F) (testName : Bytes) : Check F := fun captured logMap m =>
  let (_, m) := getLogMap L captured logMap m
  if (Count.new captured).duplicates.length > 0 then
    (logMap, m.addWarningFn duplicates testName captured, some (.extra duplicates testName))
  else (logMap, m, none)

/-- `len(strings.Split(s, ":"))`. -/
def colonParts (s : Bytes) : Nat := s.count 0x3A + 1

/-- The text about a "caller" field (bench/tests/checks.go:199-206). -/
def callerText : Any F → Bytes
  | .str caller => if colonParts caller ≠ 2 then b!"caller not string" else caller
  | _ => b!"caller not string"

/-- `sourcerer` (bench/tests/checks.go:177-216). -/
def sourcerer (L : Lib F) (testName : Bytes) : Check F := fun captured logMap m =>
  let (lm, m) := getLogMap L captured logMap m
  match lookup lm b!"source" with
  | some (.map src) =>
    let missing := missingOf (fun f => (Map.get src f).isSome) [b!"file", b!"function", b!"line"]
    if missing.length > 0 then
      let text := b!"missing fields: " ++ joinComma missing
      (logMap, m.addWarningFnText sourceKey testName text captured, some (.extra sourceKey text))
    else (logMap, m, none)
  | some _ =>
    let text := b!"source not map"
    (logMap, m.addWarningFnText sourceKey testName text captured, some (.extra sourceKey text))
  | none =>
    match lookup lm b!"caller" with
    | some callVal =>
      let text := callerText callVal
      (logMap, m.addWarningFnText sourceCaller testName text captured,
        some (.extra sourceCaller text))
    | none =>
      let text := b!"no 'source' key"
      (logMap, m.addWarningFnText sourceKey testName text captured, some (.extra sourceKey text))

/-- The loop over the checks in `verify` and `verifyLines` (bench/tests/checks.go:223-227,
254-258). -/
def runAll (captured : Bytes) : List (Check F) → Option (AMap F) → Manager →
    Option (AMap F) × Manager × List Err
  | [], lm, m => (lm, m, [])
  | fn :: fns, lm, m =>
    match fn captured lm m with
    | (lm, m, err) =>
      match runAll captured fns lm m with
      | (lm, m, errs) => (lm, m, err.toList ++ errs)

/-- `errors.Join` if there is an error (bench/tests/checks.go:228-231, 259-261). -/
def joinErrs (errs : List Err) : Option Err := if errs.length > 0 then some (.joined errs) else none

/-- `verify` (bench/tests/checks.go:219-233). -/
def verify (L : Lib F) (fns : List (Check F)) : Check F := fun captured logMap m =>
  let (lm, m) := getLogMap L captured logMap m
  let (lm, m, errs) := runAll captured fns lm m
  (logMap.bind fun _ => lm, m, joinErrs errs)

/-- What `ReadLine` of a `bufio.Reader` with a buffer of `size` bytes returns, and the
input that is left; `none` is io.EOF. A full buffer without newline is handed out as a
prefix, but for a carriage return at its end (package bufio, `ReadSlice`, `ReadLine`). -/
def readLine (size : Nat) (s : Bytes) : Option (Bytes × Bool × Bytes) :=
  if s = [] then none
  else if (0x0A : UInt8) ∈ s.take size then
    some (dropCR (s.takeWhile (· != 0x0A)), false, (s.dropWhile (· != 0x0A)).tail)
  else if size ≤ s.length then
    if (s.take size).getLast? = some 0x0D then some (s.take (size - 1), true, s.drop (size - 1))
    else some (s.take size, true, s.drop size)
  else some (s, false, [])

/-- The loop of `verifyLines` (bench/tests/checks.go:240-263); `buffer` is what was
collected of a line, the first argument bounds the number of rounds. -/
def linesLoop (L : Lib F) (size : Nat) (fns : List (Check F)) :
    Nat → Bytes → Bytes → Manager → Option (Manager × Option Err)
  | 0, _, _, _ => none
  | n + 1, input, buffer, m =>
    match readLine size input with
    | none => some (m, none)
    | some (chunk, true, rest) => linesLoop L size fns n rest (buffer ++ chunk) m
    | some (chunk, false, rest) =>
      let line := buffer ++ chunk
      let (lm, m) := getLogMap L line none m
      let (_, m, errs) := runAll line fns lm m
      if errs.length > 0 then some (m, joinErrs errs)
      else linesLoop L size fns n rest [] m

/-- `verifyLines` (bench/tests/checks.go:236-266); the map of the caller is not touched.
The buffer of `bufio.NewReader` has 4096 bytes. `none`: rounds exhausted (never, see
`linesLoop_eq`). -/
def verifyLinesWith (L : Lib F) (size : Nat) (fns : List (Check F)) (captured : Bytes) (m : Manager) :
    Option (Manager × Option Err) :=
  linesLoop L size fns (captured.length + 1) captured [] m

end Verif.Bench
