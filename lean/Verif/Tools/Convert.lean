import Verif.Slog

/-
Conversion of levels for other logging packages: creator/utilzap/conversion.go,
creator/utillogrus/conversion.go.
-/

namespace Verif.Tools

open Verif.Slog

/-- The constants of zapcore (go.uber.org/zap/zapcore/level.go): larger is more severe. -/
inductive Zap where
  | debug | info | warn | error
deriving DecidableEq

/-- Their values: -1, 0, 1, 2. -/
def Zap.val : Zap → Int
  | .debug => -1
  | .info => 0
  | .warn => 1
  | .error => 2

/-- The constants of logrus (github.com/sirupsen/logrus/logrus.go) that are used: smaller is more severe. -/
inductive Logrus where
  | error | warn | info | debug
deriving DecidableEq

/-- Their values; panic and fatal are 0 and 1, trace is 6. -/
def Logrus.val : Logrus → Int
  | .error => 2
  | .warn => 3
  | .info => 4
  | .debug => 5

/-- `ConvertLevelToZap` (creator/utilzap/conversion.go:15-26). -/
def toZap (l : Int) : Zap :=
  if l ≥ levelError then .error
  else if l ≥ levelWarn then .warn
  else if l ≥ levelInfo then .info
  else .debug

/-- `ConvertSlogLevel2Logrus` (creator/utillogrus/conversion.go:10-21). -/
def toLogrus (l : Int) : Logrus :=
  if l ≥ levelError then .error
  else if l ≥ levelWarn then .warn
  else if l ≥ levelInfo then .info
  else .debug

end Verif.Tools
