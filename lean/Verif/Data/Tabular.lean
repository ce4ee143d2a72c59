import Verif.Data.BenchParser
import Verif.Score.WarnAxis
import Verif.Gin.Parser
import Verif.Warning.Show

/-
Model of the command tabular, /repo/cmd/tabular/tabular.go, and of the lists of warnings it shows
(/repo/internal/data/warnings.go).

Simplified: what the library for tables prints (borders, head and rows, in the format of a language) is given from outside
(`Print`); a row can always be printed. Lists that the code keeps are made from maps whenever they are asked for, which is the
same because nothing is read any more.
-/

namespace Verif.Data
open Go Verif.Warning Slog

variable {F : Type}

/-! ### Tables -/

/-- `handlerRecords[handler]` with `IsEmpty` (cmd/tabular/tabular.go:99-100, internal/data/bench.go:31-33): a record that is missing is
the zero record, which is empty. -/
def rowFor (recs : Map Bytes (Record F)) (h : Bytes) : Option (Bytes × Record F) :=
  match recs.get h with
  | none => none
  | some r => if r.runs = 0 then none else some (h, r)

/-- The loop over tests (cmd/tabular/tabular.go:90-111): the tag of the test and the rows; the list of handlers is kept after the first
round. -/
def tablesFrom (S : Sorter) (pick : List Bytes → List Bytes) : Bench F → List Bytes → List (Bytes × List (Bytes × Record F))
  | _, [] => []
  | b, t :: ts => (t, (b.handlerTags S pick).2.filterMap (rowFor (b.handlerRecordsFor t))) :: tablesFrom S pick (b.handlerTags S pick).1 ts

/-- All tables (cmd/tabular/tabular.go:90-111). -/
def Bench.tables (S : Sorter) (pick : List Bytes → List Bytes) (b : Bench F) : List (Bytes × List (Bytes × Record F)) :=
  tablesFrom S pick (b.testTags S pick).1 (b.testTags S pick).2

/-- What is printed by the library for tables (cmd/tabular/tabular.go:92-96, 101-104, 110). -/
structure Print (F : Type) where
  top : Bytes
  header : Bytes
  separator : Bytes
  row : Bytes → Record F → Bytes
  bottom : Bytes

/-- The text of a table (cmd/tabular/tabular.go:91-110). -/
def tableText (P : Print F) (b : Bench F) (t : Bytes × List (Bytes × Record F)) : Bytes :=
  b!"\nBenchmark " ++ b.testName t.1 ++ b!"\n" ++ P.top ++ b!"\n" ++ P.header ++ P.separator ++ b!"\n" ++
    t.2.flatMap (fun r => P.row (b.handlerName r.1) r.2) ++ P.bottom ++ b!"\n"

/-! ### Listing of warnings -/

/-- `HandlerName` (internal/data/warnings.go:61-67). -/
def Warns.handlerTitle (w : Warns) (h : Bytes) : Bytes :=
  match w.handlerData.get h with
  | some d => d.name
  | none => h

/-- `HandlerTags` (internal/data/warnings.go:104-114), when first asked for; `pick` is the order of the map. -/
def Warns.handlerTags (S : Sorter) (pick : List Bytes → List Bytes) (w : Warns) : List Bytes :=
  S.sort (fun i j => less (w.handlerTitle i) (w.handlerTitle j)) (pick w.byHandler.keys)

/-- `(*Levels).Levels` (internal/data/warnings.go:298-308), when first asked for. -/
def Levels.levels (ls : Levels) : List DLevel := levelOrder.filterMap ls.level

/-- `(*DataLevel).Warnings` (internal/data/warnings.go:342-353), when first asked for; `pick` is the order of the map. -/
def DLevel.warnings (S : Sorter) (pick : List Bytes → List Bytes) (heap : List DWarn) (d : DLevel) : List DWarn :=
  S.sort (fun i j => less i.name j.name) ((pick d.lookup.keys).filterMap fun n => (d.lookup.get n).bind fun id => heap[id]?)

/-- `(*dataWarning).Instances` (internal/data/warnings.go:404-412), when first asked for. -/
def DWarn.sorted (S : Sorter) (x : DWarn) : List DInst := S.sort (fun i j => less i.name j.name) x.instances

/-- A warning as listed: its level, itself and its instances (cmd/tabular/tabular.go:116-120). -/
structure Entry where
  level : Nat
  warn : DWarn
  instances : List DInst
deriving DecidableEq

/-- The warnings listed for a handler (cmd/tabular/tabular.go:115-120). -/
def Warns.entries (S : Sorter) (pick : List Bytes → List Bytes) (w : Warns) (h : Bytes) : List Entry :=
  match w.byHandler.get h with
  | none => []
  | some ls => ls.levels.flatMap fun d => (d.warnings S pick w.heap).map fun x => ⟨d.level, x, x.sorted S⟩

/-- `strings.Replace(s, "\n", "\n           ", -1)` (cmd/tabular/tabular.go:126-130). -/
def indentLines : Bytes → Bytes
  | [] => []
  | c :: s => if c = 0x0A then b!"\n           " ++ indentLines s else c :: indentLines s

/-- The line of an instance (cmd/tabular/tabular.go:121-132) with `HasSource` (internal/data/warnings.go:470-472). -/
def instLine (i : DInst) : Bytes :=
  let line := if (Gin.trim 0x20 i.source).length > 0 then i.source ++ b!":" ++ i.tag else i.tag
  if i.extra ≠ [] then
    line ++ b!": " ++ if (0x0A : UInt8) ∈ i.extra then b!"\n           " ++ indentLines i.extra else i.extra
  else line

/-- The text of an instance (cmd/tabular/tabular.go:133-136). -/
def instText (i : DInst) : Bytes :=
  b!"         " ++ instLine i ++ b!"\n" ++ if i.line ≠ [] then b!"           " ++ i.line ++ b!"\n" else []

/-- The text of a warning (cmd/tabular/tabular.go:119-137). -/
def entryText (e : Entry) : Bytes :=
  b!"  " ++ pad4 e.instances.length ++ b!" [" ++ e.warn.name ++ b!"] " ++ e.warn.summary ++ b!"\n" ++ e.instances.flatMap instText

/-- The text of a level (cmd/tabular/tabular.go:116-138). -/
def levelBlock (S : Sorter) (pick : List Bytes → List Bytes) (w : Warns) (d : DLevel) : Bytes :=
  b!"  " ++ levelText d.level ++ b!"\n" ++ (d.warnings S pick w.heap).flatMap fun x => entryText ⟨d.level, x, x.sorted S⟩

/-- The listing of warnings (cmd/tabular/tabular.go:113-140). -/
def Warns.listing (S : Sorter) (pick : List Bytes → List Bytes) (w : Warns) : Bytes :=
  (w.handlerTags S pick).flatMap fun h =>
    b!"\nWarnings for " ++ w.handlerTitle h ++ b!":\n" ++
      match w.byHandler.get h with
      | none => []
      | some ls => ls.levels.flatMap (levelBlock S pick w)

/-- What tabular prints (cmd/tabular/tabular.go:88-142). -/
def tabular (S : Sorter) (pick : List Bytes → List Bytes) (P : Print F) (b : Bench F) (w : Warns) : Bytes :=
  (b.tables S pick).flatMap (tableText P b) ++ w.listing S pick ++ b!"\n"

end Verif.Data
