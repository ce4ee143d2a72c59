import Verif.GoLib

/-
Model of the registry of warnings, /repo/infra/warning/warning.go.

Simplifications: warnings are never changed after creation, so a `*Warning` is its
content; the lock `warningLock` is not modelled (every function runs alone); the slices
in the tree are values (a caller that writes to the slice it is given is not modelled);
`testCounts`, used by a unit test only, is left out, as is the logged message about a
duplicate name.
-/

namespace Verif.Warning
open Go

/-- `Warning` (infra/warning/warning.go:17-31). The level is a Go `uint`. -/
structure Warning where
  level : Nat
  name : Bytes
  summary : Bytes
  description : Bytes
deriving DecidableEq, Repr

/-! ### Descriptions -/

/-- The scan of one line in `fixDescription` (infra/warning/warning.go:119-129): the byte
index of the first rune that is not white space, if any. The first argument bounds the
number of runes. -/
def firstText : Nat → Nat → Bytes → Option Nat
  | 0, _, _ => none
  | n + 1, i, line =>
    match decodeRune line with
    | none => none
    | some (r, w) => if isSpace r then firstText n (i + w) (line.drop w) else some i

/-- Indentation of a line that is not blank. -/
def indentOf (line : Bytes) : Option Nat := firstText line.length 0 line

/-- The first loop of `fixDescription` (infra/warning/warning.go:115-133); `none` is
`math.MaxInt`. -/
def prefixSpaces (lines : List Bytes) : Option Nat :=
  lines.foldl (fun acc line =>
    match indentOf line, acc with
    | some n, some p => if n < p then some n else acc
    | some n, none => some n
    | none, _ => acc) none

/-- Cutting one line (infra/warning/warning.go:138-140). -/
def cutLine (p : Option Nat) (line : Bytes) : Bytes :=
  match p with
  | some p => if line.length > p then line.drop p else line
  | none => line

/-- `fixDescription` (infra/warning/warning.go:114-143). -/
def fixDescription (description : Bytes) : Bytes :=
  let lines := scanLines description
  (lines.map fun line => cutLine (prefixSpaces lines) line ++ [0x0A]).flatten

/-! ### Registry -/

/-- The global variables (infra/warning/warning.go:33-39). -/
structure Registry where
  all : List Warning := []
  byName : Map Bytes Warning := []
  tree : Map Nat (List Warning) := []
deriving DecidableEq, Repr

/-- `NewWarning` (infra/warning/warning.go:46-65): the new state and the result. -/
def newWarning (reg : Registry) (level : Nat) (name summary description : Bytes) : Registry × Warning :=
  match reg.byName.get name with
  | some w => (reg, w)
  | none =>
    let w : Warning := { level, name, summary, description := fixDescription description }
    ({ reg with all := reg.all ++ [w], byName := reg.byName.set name w }, w)

/-- `ByName` (infra/warning/warning.go:68-70); nil is `none`. -/
def byName (reg : Registry) (name : Bytes) : Option Warning := reg.byName.get name

/-- The first loop of `buildTree` (infra/warning/warning.go:102-104). -/
def gather (tree : Map Nat (List Warning)) : List Warning → Map Nat (List Warning)
  | [] => tree
  | w :: ws => gather (tree.set w.level ((tree.get w.level).getD [] ++ [w])) ws

/-- `buildTree` (infra/warning/warning.go:100-110). The order in which the second loop
visits the levels does not matter. -/
def buildTree (S : Sorter) (reg : Registry) : Registry :=
  { reg with tree := (gather reg.tree reg.all).map fun e =>
      (e.1, S.sort (fun a b => less a.name b.name) e.2) }

/-- `WarningsForLevel` (infra/warning/warning.go:83-90). -/
def warningsForLevel (S : Sorter) (reg : Registry) (level : Nat) : Registry × List Warning :=
  let reg := if reg.tree.length < 1 then buildTree S reg else reg
  (reg, (reg.tree.get level).getD [])

/-- A use of the registry. -/
inductive Use
  | create (level : Nat) (name summary description : Bytes)
  | list (level : Nat)
deriving DecidableEq, Repr

/-- One use. -/
def Registry.step (S : Sorter) (reg : Registry) : Use → Registry
  | .create l n s d => (newWarning reg l n s d).1
  | .list l => (warningsForLevel S reg l).1

/-- A history of uses. -/
def Registry.run (S : Sorter) (reg : Registry) (us : List Use) : Registry := us.foldl (Registry.step S) reg

end Verif.Warning
