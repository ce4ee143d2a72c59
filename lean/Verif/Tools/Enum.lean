import Verif.GoLib
import Verif.Slog
import Verif.Replace.Change

/-
Enumerations with generated code: internal/data/benchitems_enumer.go,
internal/scoring/score/type_enumer.go, creator/veqryndedup/mode_enumer.go; and what is
written by hand beside: internal/data/bench_items.go, internal/scoring/score/type.go.
-/

namespace Verif.Tools

open Verif.Go Verif.Slog

/-- The constants and variables of a generated file: the name of the type, all names one
after the other, the same in lower case, where each begins, and the slices that are keys of the
map of names (internal/data/benchitems_enumer.go:10-14, 38-53;
internal/scoring/score/type_enumer.go:10-14, 35-44). -/
structure Enum where
  type : Bytes
  name : Bytes
  lower : Bytes
  index : List Nat
  slices : List (Nat × Nat × Nat)

/-- `s[lo:hi]` of a string. -/
def slice (s : Bytes) (lo hi : Nat) : Bytes := (s.take hi).drop lo

/-- `String` (internal/data/benchitems_enumer.go:16-21, internal/scoring/score/type_enumer.go:16-21). -/
def Enum.string (e : Enum) (i : Nat) : Bytes :=
  if i ≥ e.index.length - 1 then e.type ++ b!"(" ++ decNat i ++ b!")"
  else slice e.name (e.index.getD i 0) (e.index.getD (i + 1) 0)

/-- The map of names (internal/data/benchitems_enumer.go:38-53,
internal/scoring/score/type_enumer.go:35-44). -/
def Enum.map (e : Enum) : Map Bytes Nat :=
  e.slices.flatMap fun (lo, hi, v) => [(slice e.name lo hi, v), (slice e.lower lo hi, v)]

/-- `BenchItemsString`, `TypeString` (internal/data/benchitems_enumer.go:67-76,
internal/scoring/score/type_enumer.go:55-64); `none` is the error. -/
def Enum.parse (L : Replace.Lib) (e : Enum) (s : Bytes) : Option Nat :=
  match e.map.get s with
  | some v => some v
  | none =>
    match e.map.get (L.toLower s) with
    | some v => some v
    | none => none

/-- internal/data/benchitems_enumer.go:10-14, 38-53. -/
def benchItems : Enum where
  type := b!"BenchItems"
  name := b!"RunsNanosMemAllocsMemBytesMbPerSecGbPerSecTbPerSec"
  lower := b!"runsnanosmemallocsmembytesmbpersecgbpersectbpersec"
  index := [0, 4, 9, 18, 26, 34, 42, 50]
  slices := [(0, 4, 0), (4, 9, 1), (9, 18, 2), (18, 26, 3), (26, 34, 4), (34, 42, 5), (42, 50, 6)]

/-- internal/scoring/score/type_enumer.go:10-14, 35-44. -/
def scoreType : Enum where
  type := b!"Type"
  name := b!"DefaultByDataOriginalByTest"
  lower := b!"defaultbydataoriginalbytest"
  index := [0, 7, 13, 21, 27]
  slices := [(0, 7, 0), (7, 13, 1), (13, 21, 2), (21, 27, 3)]

/-- creator/veqryndedup/mode_enumer.go:10-14, 36-47. -/
def dedupMode : Enum where
  type := b!"Mode"
  name := b!"NoneAppendIgnoreIncrementOverwrite"
  lower := b!"noneappendignoreincrementoverwrite"
  index := [0, 4, 10, 16, 25, 34]
  slices := [(0, 4, 0), (4, 10, 1), (10, 16, 2), (16, 25, 3), (25, 34, 4)]

/-- `colNames` (internal/scoring/score/type.go:17-22). -/
def colNames : Map Nat Bytes := [(0, b!"Score"), (1, b!"by Data"), (3, b!"by Test"), (2, b!"Original")]

/-- `ColHeader` (internal/scoring/score/type.go:24-29). -/
def colHeader (t : Nat) : Bytes :=
  match colNames.get t with
  | some h => h
  | none => b!"Unknown:" ++ scoreType.string t

/-- `List` (internal/scoring/score/type.go:33-43). -/
def typeList (L : Replace.Lib) (names : List Bytes) : List Nat :=
  names.foldl (fun result name =>
    match scoreType.parse L name with
    | none => result
    | some st => result ++ [st]) []

/-- `testItemData` (internal/data/bench_items.go:24-56): short and long names. -/
def testItemData : Map Nat (Bytes × Bytes) :=
  [(0, b!"Runs", b!"Test runs"), (1, b!"Ns/Op", b!"Nanoseconds per operation"),
   (2, b!"Allocs/Op", b!"Memory allocations per operation"), (3, b!"Bytes/Op", b!"Bytes allocated per operation"),
   (4, b!"MB/Sec", b!"Megabytes processed per second"), (5, b!"GB/Sec", b!"Gigabytes processed per second"),
   (6, b!"TB/Sec", b!"Terabytes processed per second")]

/-- `ShortName` (internal/data/bench_items.go:61-63). -/
def shortName (item : Nat) : Bytes := ((testItemData.get item).getD ([], [])).1
/-- `LongName` (internal/data/bench_items.go:66-68). -/
def longName (item : Nat) : Bytes := ((testItemData.get item).getD ([], [])).2

end Verif.Tools
