import Verif.Data.Regex
import Verif.Warning.Level

/-
Model of the warning data of the server, /repo/internal/data/warnings.go, and of its
parser, /repo/internal/data/warnings_parser.go.

Simplifications: `*dataWarning` pointers are indexes into a list (`heap`), all other
pointers are never shared and are values; lists that the code fills on demand from its
maps (`tests`, `handlers`, `levels`, `warnings`, `sorted`) are not part of the state;
log output is left out; the input is a text, reading it never fails; the cache of
`TestTag.Name` is left out; counters do not overflow.
-/

namespace Verif.Data
open Go Verif.Warning

/-- Library functions used: `strings.ToUpper`, `strings.ToLower`, `camelcase.Split` of
github.com/fatih/camelcase, and `json.Unmarshal` into a map followed by
`json.MarshalIndent` (`none` if one of the two fails). -/
structure Env where
  lib : Replace.Lib
  camel : Bytes → List Bytes
  indent : Bytes → Option Bytes

/-- `dataInstance` (internal/data/warnings.go:416-423). -/
structure DInst where
  tag : Bytes := []
  source : Bytes := []
  name : Bytes := []
  extra : Bytes := []
  line : Bytes := []
  log : Bytes := []
deriving DecidableEq

/-- `dataWarning` (internal/data/warnings.go:369-376). -/
structure DWarn where
  name : Bytes
  summary : Bytes := []
  instances : List DInst := []
deriving DecidableEq

/-- `DataLevel` (internal/data/warnings.go:324-328); the warnings are indexes. -/
structure DLevel where
  level : Nat
  lookup : Map Bytes Nat := []
deriving DecidableEq

/-- `Levels` (internal/data/warnings.go:281-284). -/
structure Levels where
  lookup : Map Bytes DLevel := []
deriving DecidableEq

/-- `WarningData` (internal/data/warnings.go:235-241). -/
structure WData where
  count : Map Bytes Nat := []
  hdlrMap : Map Bytes Bool := []
  testMap : Map Bytes Bool := []
deriving DecidableEq

/-- `handlerData` (internal/data/warnings.go:19-23). -/
structure HData where
  name : Bytes := []
  summary : Bytes := []
  links : Map Bytes Bytes := []
deriving DecidableEq

/-- `Warnings` (internal/data/warnings.go:26-34), and the `dataWarning` structures
allocated. -/
structure Warns where
  heap : List DWarn := []
  byTest : Map Bytes Levels := []
  byHandler : Map Bytes Levels := []
  byWarning : Map Bytes WData := []
  handlerData : Map Bytes HData := []
  testNames : Map Bytes Bytes := []
deriving DecidableEq

/-- `findWarningGroup` (internal/data/warnings.go:355-365): the level, the index and the
allocated structures. -/
def DLevel.findWarningGroup (l : DLevel) (heap : List DWarn) (name : Bytes) : DLevel × List DWarn × Nat :=
  match l.lookup.get name with
  | some id => (l, heap, id)
  | none => ({ l with lookup := l.lookup.set name heap.length }, heap ++ [{ name }], heap.length)

/-- `findLevel` (internal/data/warnings.go:310-320). -/
def Levels.findLevel (ls : Levels) (heap : List DWarn) (lvl : Nat) (name : Bytes) : Levels × List DWarn × Nat :=
  let lv := match ls.lookup.get (levelText lvl) with
    | some lv => lv
    | none => { level := lvl }
  let (lv, heap, id) := lv.findWarningGroup heap name
  ({ ls with lookup := ls.lookup.set (levelText lvl) lv }, heap, id)

/-- `findHandler` (internal/data/warnings.go:177-187). -/
def Warns.findHandler (w : Warns) (handler : Bytes) (lvl : Nat) (name : Bytes) : Warns × Nat :=
  let levels := match w.byHandler.get handler with
    | some levels => levels
    | none => {}
  let (levels, heap, id) := levels.findLevel w.heap lvl name
  ({ w with heap, byHandler := w.byHandler.set handler levels }, id)

/-- `findTest` (internal/data/warnings.go:189-199). -/
def Warns.findTest (w : Warns) (test : Bytes) (lvl : Nat) (name : Bytes) : Warns × Nat :=
  let levels := match w.byTest.get test with
    | some levels => levels
    | none => {}
  let (levels, heap, id) := levels.findLevel w.heap lvl name
  ({ w with heap, byTest := w.byTest.set test levels }, id)

/-- `FindWarning` (internal/data/warnings.go:206-217). -/
def Warns.findWarning (w : Warns) (name : Bytes) : WData :=
  match w.byWarning.get name with
  | some d => d
  | none => {}

/-- `getHandlerData` (internal/data/warnings.go:221-227) followed by a change of the
structure found. -/
def Warns.changeHandlerData (w : Warns) (handler : Bytes) (f : HData → HData) : Warns :=
  { w with handlerData := w.handlerData.set handler (f ((w.handlerData.get handler).getD {})) }

/-- Change of an allocated structure. -/
def Warns.change (w : Warns) (id : Nat) (f : DWarn → DWarn) : Warns := { w with heap := w.heap.modify id f }

/-- The words of a tag with spaces between (internal/data/tags.go:31-36 and 58-63). A
space is written before a word if anything was written before. -/
def joinWords : Bytes → List Bytes → Bytes
  | b, [] => b
  | b, p :: ps => joinWords ((if b ≠ [] then b ++ [0x20] else b) ++ p) ps

/-- `strings.Split(s, ".")`. -/
def splitDot : Bytes → List Bytes
  | [] => [[]]
  | a :: s =>
    if a = 0x2E then [] :: splitDot s
    else match splitDot s with
      | [] => [[a]]
      | p :: ps => (a :: p) :: ps

/-- `(TestTag).Name` (internal/data/tags.go:23-42). -/
def testName (E : Env) (tag : Bytes) : Bytes :=
  let tagString := match splitDot tag with
    | [_, b] => b
    | _ => tag
  joinWords [] (E.camel tagString)

/-- `(HandlerTag).Name` (internal/data/tags.go:53-68). -/
def handlerName (E : Env) (tag : Bytes) : Bytes := joinWords [] (E.camel tag)

/-- The variables of `ParseWarningData` (internal/data/warnings_parser.go:54-58). -/
structure PState where
  w : Warns := {}
  handler : Bytes := []
  test : Bytes := []
  level : Nat := 0
  dWarning : Option Nat := none
  inst : Option DInst := none

/-- `saveInstance` (internal/data/warnings_parser.go:59-80). -/
def saveInstance (E : Env) (p : PState) : PState :=
  match p.inst with
  | none => p
  | some inst =>
    match p.dWarning with
    | none => { p with inst := none }
    | some d =>
      let w := p.w.change d fun x => { x with instances := x.instances ++ [inst] }
      let dw := (w.heap[d]?).getD { name := [] }
      let (w, t) := w.findTest p.test p.level dw.name
      let w := w.change t fun x => { x with summary := dw.summary }
      let w := w.change t fun x =>
        { x with instances := x.instances ++ [{ name := handlerName E p.handler, extra := inst.extra, log := inst.log }] }
      let wd := w.findWarning dw.name
      let wd : WData :=
        { count := wd.count.set p.handler ((wd.count.get p.handler).getD 0 + 1)
          hdlrMap := wd.hdlrMap.set p.handler true
          testMap := wd.testMap.set p.test true }
      { p with w := { w with byWarning := w.byWarning.set dw.name wd }, inst := none }

/-- `strings.Split(s, "/")`. -/
def splitSlash : Bytes → List Bytes
  | [] => [[]]
  | a :: s =>
    if a = 0x2F then [] :: splitSlash s
    else match splitSlash s with
      | [] => [[a]]
      | p :: ps => (a :: p) :: ps

/-- `strings.Join(l, sep)`. -/
def joinWith (sep : Bytes) : List Bytes → Bytes
  | [] => []
  | [a] => a
  | a :: l => a ++ sep ++ joinWith sep l

/-- The name made of a handler that is not in the lookup map
(internal/data/warnings_parser.go:102-109). -/
def defaultName (E : Env) (handler : Bytes) : Bytes :=
  joinWith [0x20] ((splitSlash handler).map fun part =>
    match part with
    | [] => []
    | a :: s => E.lib.toUpper [a] ++ E.lib.toLower s)

/-- The line `Warnings for` (internal/data/warnings_parser.go:89-112). -/
def onWarningsFor (E : Env) (lookup : Map Bytes Bytes) (name : Bytes) (p : PState) : PState :=
  let p := saveInstance E p
  match lookup.get name with
  | some h => { p with w := p.w.changeHandlerData h fun d => { d with name := name }, handler := h }
  | none => { p with w := p.w.changeHandlerData name fun d => { d with name := defaultName E name }, handler := name }

/-- A prefix that is cut off function names, and the rest of the loop over them
(internal/data/warnings_parser.go:196-205). -/
def cutOnce (s : Bytes) : List Bytes → Bytes × Bool
  | [] => (s, false)
  | src :: rest =>
    match stripPrefix src s with
    | some t => ((cutOnce t rest).1, true)
    | none => cutOnce s rest

/-- The loop that cuts prefixes (internal/data/warnings_parser.go:194-209). Every round
but the last shortens the text, so its length bounds the rounds. -/
def cutAll : Nat → Bytes → Bytes
  | 0, s => s
  | n + 1, s =>
    match cutOnce s [b!"Benchmark_", b!"Benchmark", b!"Test_", b!"Test"] with
    | (t, true) => cutAll n t
    | (t, false) => t

/-- The tag of a test function. -/
def testTag (fn : Bytes) : Bytes := cutAll (fn.length + 1) fn

/-- A line with an instance (internal/data/warnings_parser.go:192-224). -/
def onInstance (E : Env) (source fn extra : Bytes) (p : PState) : PState :=
  let p := saveInstance E p
  let tag := testTag fn
  let inst : DInst := { tag := tag, source := source, name := testName E tag, extra := extra }
  let test := if source ≠ [] then source ++ b!"." ++ tag else tag
  let w := if (p.w.testNames.get test).isSome then p.w
    else { p.w with testNames := p.w.testNames.set test inst.name }
  { p with w, inst := some inst, test }

/-- What one pass of the loop does. -/
inductive Step
  | next (p : PState)
  | stop (p : PState)
  | panic

/-- The loop body from the test of `handler` on (internal/data/warnings_parser.go:145-227). -/
def bodyRest (E : Env) (source : Bytes) (line : Bytes) (p : PState) : Step :=
  if p.handler = [] then .next p
  else if (ptnNone.find line).isSome then
    .next { p with w := { p.w with byHandler := p.w.byHandler.set p.handler {} } }
  else
    match (ptnLevel.find line).bind fun m => parseLevel E.lib (Caps.text m 1) with
    | some lvl => .next { saveInstance E p with level := lvl, dWarning := none }
    | none =>
      match ptnWarning.find line with
      | some m =>
        let p := saveInstance E p
        let (w, id) := p.w.findHandler p.handler p.level (Caps.text m 1)
        .next { p with w := w.change id fun x => { x with summary := Caps.text m 2 }, dWarning := some id, inst := none }
      | none =>
        if (ptnLogLine.find line).isSome then
          match p.inst with
          | none => .panic
          | some i => .next { p with inst := some { i with line := line, log := (E.indent line).getD i.log } }
        else
          match ptnExtra.find line with
          | some m =>
            .next { p with inst := p.inst.map fun i => { i with extra := i.extra ++ [0x0A] ++ Caps.text m 1 } }
          | none =>
            match ptnInstance.find line with
            | some m => .next (onInstance E source (Caps.text m 1) (Caps.text m 2) p)
            | none => .next p

/-- `bytes.TrimPrefix(line, "#")` and `bytes.Trim(…, " ")`
(internal/data/warnings_parser.go:84). -/
def trimLine (line : Bytes) : Bytes :=
  let l := (stripPrefix [0x23] line).getD line
  ((l.dropWhile (· == 0x20)).reverse.dropWhile (· == 0x20)).reverse

/-- The summary of a handler being read (internal/data/warnings_parser.go:118-120), with
the line that started it. -/
structure Summ where
  start : Bytes
  name : Bytes
  lines : List Bytes := []
  links : Map Bytes Bytes := []

/-- The end of a summary (internal/data/warnings_parser.go:131-139). -/
def endSummary (lookup : Map Bytes Bytes) (q : Summ) (w : Warns) : Warns :=
  match lookup.get q.name with
  | none => w
  | some h => w.changeHandlerData h fun d => { d with summary := joinWith [0x0A] q.lines, links := q.links }

/-- The loop body up to the summaries (internal/data/warnings_parser.go:84-120); `inr`
starts the inner loop. -/
def bodyTop (E : Env) (source : Bytes) (lookup : Map Bytes Bytes) (raw : Bytes) (p : PState) : Step ⊕ Summ :=
  let line := trimLine raw
  if line.length = 0 then .inl (.next p)
  else match ptnWarningsFor.find line with
    | some m => .inl (.next (onWarningsFor E lookup (Caps.text m 1) p))
    | none =>
      if (ptnByWarning.find line).isSome then .inl (.stop p)
      else match ptnSummaryStart.find line with
        | some m => .inr { start := line, name := Caps.text m 1 }
        | none => .inl (bodyRest E source line p)

/-- One line for the inner loop (internal/data/warnings_parser.go:121-143): the summary
goes on, or the rest of the outer body runs. -/
def bodySumm (E : Env) (source : Bytes) (lookup : Map Bytes Bytes) (line : Bytes) (q : Summ) (p : PState) : Step ⊕ Summ :=
  match ptnSummaryLine.find line with
  | some m => .inr { q with lines := q.lines ++ [Caps.text m 1] }
  | none =>
    match ptnSummaryLink.find line with
    | some m => .inr { q with links := q.links.set (Caps.text m 1) (Caps.text m 2) }
    | none => .inl (bodyRest E source line { p with w := endSummary lookup q p.w })

/-- The loops of `ParseWarningData` (internal/data/warnings_parser.go:81-228) over the
lines the scanner delivers; if they run out inside a summary the outer body goes on with
the line that started it. `none` is a panic; the flag says that the loop was left by
`break`. -/
def parseLoop (E : Env) (source : Bytes) (lookup : Map Bytes Bytes) :
    Option Summ → List Bytes → PState → Option (PState × Bool)
  | none, [], p => some (p, false)
  | some q, [], p =>
    match bodyRest E source q.start p with
    | .next p => some (p, false)
    | .stop p => some (p, true)
    | .panic => none
  | q, l :: ls, p =>
    match (match q with
      | none => bodyTop E source lookup l p
      | some q => bodySumm E source lookup l q p) with
    | .inl (.next p) => parseLoop E source lookup none ls p
    | .inl (.stop p) => some (p, true)
    | .inl .panic => none
    | .inr q => parseLoop E source lookup (some q) ls p

/-- `ParseWarningData` (internal/data/warnings_parser.go:40-236): the data and whether an
error is returned, which happens if a line is too long for the scanner and the loop was
not left before. `none` is a panic. -/
def parseWarningData (E : Env) (source : Bytes) (lookup : Map Bytes Bytes) (w : Warns) (text : Bytes) :
    Option (Warns × Bool) :=
  match parseLoop E source lookup none (scanLines text) { w } with
  | none => none
  | some (p, stopped) =>
    some ((saveInstance E p).w, !stopped && (splitLines text).any fun l => 65536 ≤ l.length)

end Verif.Data
