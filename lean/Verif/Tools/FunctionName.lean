import Verif.Data.WarnParser

/-
Model of /repo/internal/misc/function.go, and of the line in which a benchmark names its handler,
/repo/bench/tests/suite.go:85-91.

Simplifications: the call stack is the list of the names of functions, from the caller of `CurrentFunctionName` outwards;
a frame for each of the ten entries that are asked for (no inlining).
-/

namespace Verif.Tools
open Go Verif.Data

/-- The last part of a name (internal/misc/function.go:20-21); `strings.Split` gives at least one part. -/
def lastPart (s : Bytes) : Bytes := (splitDot s).getLast?.getD []

/-- The loop of `CurrentFunctionName` (internal/misc/function.go:17-25). -/
def functionLoop (pre : Bytes) : List Bytes → Bytes
  | [] => b!"Unknown"
  | f :: fs => if (stripPrefix pre (lastPart f)).isSome then lastPart f else functionLoop pre fs

/-- `CurrentFunctionName` (internal/misc/function.go:12-27). If the stack is empty `Next` still gives a frame once, without
a name. -/
def currentFunctionName (pre : Bytes) (stack : List Bytes) : Bytes :=
  match stack.take 10 with
  | [] => functionLoop pre [[]]
  | fs => functionLoop pre fs

/-- `strings.TrimPrefix`. -/
def trimPrefix (s pre : Bytes) : Bytes := (stripPrefix pre s).getD s

/-- The tag and the line printed by `Run` (bench/tests/suite.go:89-91), without the line feed; `name` is the name of the
creator. -/
def handlerTag (stack : List Bytes) : Bytes := trimPrefix (currentFunctionName b!"Benchmark" stack) b!"Benchmark"

/-- See `handlerTag` (bench/tests/suite.go:91). -/
def handlerLine (stack : List Bytes) (name : Bytes) : Bytes := b!"# Handler[" ++ handlerTag stack ++ b!"]=\"" ++ name ++ b!"\""

end Verif.Tools
