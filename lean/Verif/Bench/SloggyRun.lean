import Verif.Bench.Data
import Verif.Sloggy.Handler

/-
The benchmarks run with sloggy (bench/slog_madkins_sloggy_test.go:11-14).
-/

namespace Verif.Bench
open Go Warning Slog Flash

/-- What a call of a logging method with sloggy behind it writes: a record is made if the level is enabled (package log/slog) and
handled (handlers/sloggy/handler.go:41-106). The pieces written are taken together, also if an error ends them. -/
def logCallS (h : Sloggy.H) (c : Call) (t pc : Nat) : Bytes :=
  if h.enabled t c.level then
    match h.handle none Sloggy.sure ⟨some t, c.level, c.message, pc, c.attrs⟩ with
    | .ok st => st.out.flatten
    | .err st => st.out.flatten
    | .overflow => []
  else []

/-- What the calls of one run of the function of a benchmark write; `clock i` is the time and the caller of the i-th
(bench/tests/suite.go:127-141). -/
def logCallsS (h : Sloggy.H) (clock : Nat → Nat × Nat) : Nat → List Call → Bytes
  | _, [] => []
  | i, c :: cs => logCallS h c (clock i).1 (clock i).2 ++ logCallsS h clock (i + 1) cs

/-- The handler of a benchmark: `suite.logger` (bench/tests/suite.go:63-72) with the creator of sloggy
(creator/madkinssloggy/creator.go:25-27). `none`: stack overflow. -/
def sloggyHandler (env : Env) (b : Benchmark) : Option Sloggy.H :=
  (Sloggy.H.plain (Sloggy.newHandler env (Sloggy.fixOptions (some ⟨b.addSource, some fun _ => levelInfo, none⟩)).view)).derive b.ops

/-- One execution of a benchmark and the verification of its output (bench/tests/suite.go:127-141). -/
def verifySloggy (env : Env) (clock : Nat → Nat × Nat) (b : Benchmark) (m : Manager) : Option (Manager × Option Err) :=
  (sloggyHandler env b).bind fun h => b.check (logCallsS h clock 0 b.calls) m

end Verif.Bench
