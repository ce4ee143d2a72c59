import Verif.Replace.Change

/-
Model of warning levels, /repo/infra/warning/level.go.
-/

namespace Verif.Warning
open Slog

/-- `LevelOrder` (infra/warning/level.go:31-39); the levels are the constants of lines
15-28: 1 Admin, 2 Suggested, 3 Implied, 4 Required. -/
def levelOrder : List Nat := [4, 3, 2, 1]

/-- `levelNames` (infra/warning/level.go:40-45). -/
def levelName (l : Nat) : Option Bytes :=
  if l = 1 then some b!"Administrative" else if l = 2 then some b!"Suggested"
  else if l = 3 then some b!"Implied" else if l = 4 then some b!"Required" else none

/-- `(Level).String` (infra/warning/level.go:56-62). -/
def levelText (l : Nat) : Bytes :=
  match levelName l with
  | some name => name
  | none => b!"Unknown level " ++ decNat l

/-- `levelParse` (infra/warning/level.go:46-52). -/
def levelParse (s : Bytes) : Option Nat :=
  if s = b!"admin" then some 1 else if s = b!"administrative" then some 1
  else if s = b!"suggested" then some 2 else if s = b!"implied" then some 3
  else if s = b!"required" then some 4 else none

/-- `ParseLevel` (infra/warning/level.go:84-89); `none` is the error. -/
def parseLevel (L : Replace.Lib) (text : Bytes) : Option Nat := levelParse (L.toLower text)

end Verif.Warning
