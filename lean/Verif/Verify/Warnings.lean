import Verif.Bench.Checks

/-
The warnings the verification suite looks for (/repo/infra/warning/required.go, implied.go,
suggested.go), without their descriptions. `duplicates`, `skipDedup`, `mismatch`,
`sourceCaller`, `sourceKey` and `stringAny` are those of the benchmark suite.
-/

namespace Verif.Verify
open Go Warning

/-- `EmptyAttributes` (infra/warning/required.go:8-10). -/
def emptyAttributes : Warning :=
  ⟨4, b!"EmptyAttributes", b!"Empty attribute(s) logged (\"\":null)", []⟩
/-- `GroupEmpty` (infra/warning/required.go:12-14). -/
def groupEmpty : Warning :=
  ⟨4, b!"GroupEmpty", b!"Empty (sub)group(s) logged", []⟩
/-- `GroupInline` (infra/warning/required.go:16-18). -/
def groupInline : Warning :=
  ⟨4, b!"GroupInline", b!"Group with empty key does not inline subfields", []⟩
/-- `LevelVar` (infra/warning/required.go:20-23). -/
def levelVar : Warning :=
  ⟨4, b!"LevelVar", b!"Unable to change level during execution via LevelVar", []⟩
/-- `Resolver` (infra/warning/required.go:25-31). -/
def resolver : Warning :=
  ⟨4, b!"Resolver", b!"LogValuer objects are not resolved", []⟩
/-- `WithGroupEmpty` (infra/warning/required.go:43-45). -/
def withGroupEmpty : Warning :=
  ⟨4, b!"WithGroupEmpty", b!"Empty WithGroup() logged", []⟩
/-- `ZeroPC` (infra/warning/required.go:47-54). -/
def zeroPC : Warning :=
  ⟨4, b!"ZeroPC", b!"SourceKey logged for zero PC", []⟩
/-- `ZeroTime` (infra/warning/required.go:56-58). -/
def zeroTime : Warning :=
  ⟨4, b!"ZeroTime", b!"Zero time is logged", []⟩
/-- `CanceledContext` (infra/warning/implied.go:8-10). -/
def canceledContext : Warning :=
  ⟨3, b!"CanceledContext", b!"Canceled context blocks logging", []⟩
/-- `DefaultLevel` (infra/warning/implied.go:12-14). -/
def defaultLevel : Warning :=
  ⟨3, b!"DefaultLevel", b!"Handler doesn't default to slog.LevelInfo", []⟩
/-- `GroupAttrMsgTop` (infra/warning/implied.go:16-25). -/
def groupAttrMsgTop : Warning :=
  ⟨3, b!"GroupAttrInfoTop", b!"Group-Attr-Info attributes end up at the top level.", []⟩
/-- `LevelMath` (infra/warning/implied.go:27-29). -/
def levelMath : Warning :=
  ⟨3, b!"LevelMath", b!"Log levels are not properly treated as integers", []⟩
/-- `MessageKey` (infra/warning/implied.go:31-34). -/
def messageKey : Warning :=
  ⟨3, b!"MessageKey", b!"Wrong message key (should be 'msg')", []⟩
/-- `NoReplAttr` (infra/warning/implied.go:36-41). -/
def noReplAttr : Warning :=
  ⟨3, b!"NoReplAttr", b!"HandlerOptions.ReplaceAttr not available", []⟩
/-- `NoReplAttrBasic` (infra/warning/implied.go:43-48). -/
def noReplAttrBasic : Warning :=
  ⟨3, b!"NoReplAttrBasic", b!"HandlerOptions.ReplaceAttr not available for basic fields", []⟩
/-- `ReplAttrGroup` (infra/warning/implied.go:50-54). -/
def replAttrGroup : Warning :=
  ⟨3, b!"ReplAttrGroup", b!"ReplaceAttr groups argument usage results in an error", []⟩
/-- `WithGroup` (infra/warning/implied.go:70-73). -/
def withGroup : Warning :=
  ⟨3, b!"WithGroup", b!"WithGroup doesn't embed following attributes into group", []⟩
/-- `DurationMillis` (infra/warning/suggested.go:19-21). -/
def durationMillis : Warning :=
  ⟨2, b!"DurationMillis", b!"slog.Duration() logs milliseconds instead of nanoseconds", []⟩
/-- `DurationSeconds` (infra/warning/suggested.go:23-25). -/
def durationSeconds : Warning :=
  ⟨2, b!"DurationSeconds", b!"slog.Duration() logs seconds instead of nanoseconds", []⟩
/-- `DurationString` (infra/warning/suggested.go:27-28). -/
def durationString : Warning :=
  ⟨2, b!"DurationString", b!"slog.Duration() logs a string representation instead of nanoseconds", []⟩
/-- `GroupWithTop` (infra/warning/suggested.go:30-33). -/
def groupWithTop : Warning :=
  ⟨2, b!"GroupWithTop", b!"^WithGroup().With()^ ends up at top level of log record instead of in the group", []⟩
/-- `GroupDuration` (infra/warning/suggested.go:35-37). -/
def groupDuration : Warning :=
  ⟨2, b!"GroupDuration", [], []⟩
/-- `LevelCase` (infra/warning/suggested.go:39-44). -/
def levelCase : Warning :=
  ⟨2, b!"LevelCase", b!"Log level in lowercase", []⟩
/-- `LevelWrong` (infra/warning/suggested.go:46-48). -/
def levelWrong : Warning :=
  ⟨2, b!"LevelWrong", b!"Log level is incorrect", []⟩
/-- `NoEmptyName` (infra/warning/suggested.go:50-52). -/
def noEmptyName : Warning :=
  ⟨2, b!"NoEmptyName", b!"Attributes with empty names are not logged", []⟩
/-- `NoNilValue` (infra/warning/suggested.go:54-56). -/
def noNilValue : Warning :=
  ⟨2, b!"NoNilValue", b!"Attributes with nil values are not logged", []⟩
/-- `TimeMillis` (infra/warning/suggested.go:62-67). -/
def timeMillis : Warning :=
  ⟨2, b!"TimeMillis", b!"slog.Time() logs milliseconds instead of nanoseconds", []⟩
/-- `TimeSeconds` (infra/warning/suggested.go:69-74). -/
def timeSeconds : Warning :=
  ⟨2, b!"TimeSeconds", b!"slog.Time() logs seconds instead of nanoseconds", []⟩

end Verif.Verify
