import Verif.Warning.Manager
import Verif.Warning.Level
import Verif.Slog

/-
Model of the reports of the warning manager, /repo/infra/warning/manager.go:265-403.

Simplifications: what is printed is a text, writing it never fails; the global maps
`managers` and `byWarning` are arguments and results; `*Warning` pointers in `byWarning`
are compared as values (a manager holds one `Warning` per name).
-/

namespace Verif.Warning
open Go Slog

/-- `fmt` verb `%4d`. -/
def pad4 (n : Nat) : Bytes := List.replicate (4 - (decNat n).length) 0x20 ++ decNat n

/-- `strings.Split(s, "\n")`. -/
def splitNL : Bytes → List Bytes
  | [] => [[]]
  | a :: s =>
    if a = 0x0A then [] :: splitNL s
    else match splitNL s with
      | [] => [[a]]
      | l :: ls => (a :: l) :: ls

/-- `strings.Join(l, sep)`. -/
def joinSep (sep : Bytes) : List Bytes → Bytes
  | [] => []
  | [a] => a
  | a :: l => a ++ sep ++ joinSep sep l

/-- The lines of an instance (infra/warning/manager.go:317-327). -/
def showInstance (prefix_ : Bytes) (d : Instance) : Bytes :=
  let lineSep := b!"\n" ++ prefix_ ++ b!"           +"
  let text := joinSep lineSep (splitNL d.text)
  (if d.text ≠ [] then prefix_ ++ b!"         " ++ d.function ++ b!": " ++ text ++ b!"\n"
    else prefix_ ++ b!"         " ++ d.function ++ b!"\n") ++
  (if d.record ≠ [] then prefix_ ++ b!"           " ++ d.record ++ b!"\n" else [])

/-- The lines of a warning (infra/warning/manager.go:315-328). -/
def showInstances (prefix_ : Bytes) (w : Instances) : Bytes :=
  prefix_ ++ b!"  " ++ pad4 w.count ++ b!" [" ++ w.name ++ b!"] " ++ w.summary ++ b!"\n" ++
    (w.data.map (showInstance prefix_)).flatten

/-- The warnings of a level, sorted by name (infra/warning/manager.go:291-303); the
entries of the map are sorted separately, so its order does not matter. -/
def levelList (S : Sorter) (ws : List Instances) (level : Nat) : List Instances :=
  S.sort (fun a b => less a.name b.name) (ws.filter fun w => w.level == level)

/-- The lines of a level, if it has warnings (infra/warning/manager.go:304-331). -/
def showLevel (S : Sorter) (prefix_ : Bytes) (ws : List Instances) (level : Nat) : Bytes :=
  match levelList S ws level with
  | [] => []
  | list => prefix_ ++ b!"  " ++ levelText level ++ b!"\n" ++ (list.map (showInstances prefix_)).flatten

/-- `ShowWarnings` (infra/warning/manager.go:273-332): what is printed. -/
def Manager.showWarnings (S : Sorter) (pick : List Bytes → List Bytes) (m : Manager) : Manager × Bytes :=
  let forHandler := if m.name ≠ [] then b!" for " ++ m.name else []
  let head := m.showPrefix ++ b!"\n" ++ m.showPrefix ++ b!"Warnings" ++ forHandler ++ b!":\n"
  let (m, warnings) := m.getWarnings S pick
  match warnings with
  | none => (m, head ++ m.showPrefix ++ b!"  None\n")
  | some [] => (m, head ++ m.showPrefix ++ b!"  None\n")
  | some ws => (m, head ++ (levelOrder.map (showLevel S m.showPrefix ws)).flatten)

/-- The global map `byWarning` (infra/warning/manager.go:265): the handlers a warning was
shown for; the key `none` is a nil pointer. -/
abbrev ByWarning := Map (Option Warning) (Map Bytes Bool)

/-- What `ShowWarnings` adds to `byWarning` for one warning (infra/warning/manager.go:308-313). -/
def note (m : Manager) (by_ : ByWarning) (w : Instances) : ByWarning :=
  let warn := m.predefined.get w.name
  by_.set warn (((by_.get warn).getD []).set m.name true)

/-- What `ShowWarnings` adds to `byWarning` (infra/warning/manager.go:304-331). -/
def Manager.noteWarnings (S : Sorter) (pick : List Bytes → List Bytes) (m : Manager) (by_ : ByWarning) : ByWarning :=
  let (m, warnings) := m.getWarnings S pick
  ((levelOrder.map (levelList S (warnings.getD []))).flatten).foldl (note m) by_

/-- The handlers printed for one name (infra/warning/manager.go:360-367); the order of
the map is `pick`. -/
def showHandlers (pick : List Bytes → List Bytes) (prefix_ : Bytes) (hs : Map Bytes Bool) : Bytes :=
  ((pick hs.keys).map fun h => prefix_ ++ b!"      " ++ h ++ b!"\n").flatten

/-- The last warning of the list with the name, as `byName` holds it
(infra/warning/manager.go:338-344). -/
def lastNamed (ws : List Warning) (name : Bytes) : Option Warning := (ws.filter fun w => w.name = name).getLast?

/-- `ShowHandlersByWarning` (infra/warning/manager.go:336-371): what is printed, `none` if
it panics because a key is nil. `order` is the order in which the map is visited. -/
def showHandlersByWarning (S : Sorter) (pick : List Bytes → List Bytes)
    (order : List (Option Warning) → List (Option Warning)) (prefix_ : Bytes) (by_ : ByWarning) : Option Bytes :=
  match (order by_.keys).mapM id with
  | none => none
  | some ws =>
    if ws.length < 1 then some []
    else some (prefix_ ++ b!"\n" ++ prefix_ ++ b!" Handlers by warning:\n" ++
      (levelOrder.map fun level =>
        match ws.filter fun w => w.level == level with
        | [] => []
        | list =>
          prefix_ ++ b!"  " ++ levelText level ++ b!"\n" ++
          ((S.sort less (list.map Warning.name)).map fun name =>
            match lastNamed ws name with
            | none => []
            | some w => prefix_ ++ b!"    [" ++ name ++ b!"] " ++ w.summary ++ b!"\n" ++
                showHandlers pick prefix_ ((by_.get (some w)).getD [])).flatten).flatten)

end Verif.Warning
