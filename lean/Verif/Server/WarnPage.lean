import Verif.Data.Tabular

/-
The page of warnings, cmd/server/pages/warnings.gohtml.

Simplified: the page is what it shows, without markup; the lines with the levels alone, the summaries and the
descriptions of warnings are left out, as are the menus; the lists that `HandlerTags`, `Handlers` and `Tests` keep after the
first call are not modelled; one request runs alone (several are in Verif/Props/WarnPage.lean). The names of the
warnings of a level, in the order of `WarningsForLevel`, are an argument.
-/

namespace Verif.Server
open Go Verif.Warning Verif.Data

/-- What `FindWarning` leaves (internal/data/warnings.go:206-217); what it returns is `Warns.findWarning`. -/
def keepWarning (w : Warns) (n : Bytes) : Warns :=
  match w.byWarning.get n with
  | some _ => w
  | none => { w with byWarning := w.byWarning.set n {} }

/-- `HasHandlers` (internal/data/warnings.go:243-245). -/
def hasHandlers (d : WData) : Bool := 0 < d.hdlrMap.length

/-- `HasTests` (internal/data/warnings.go:259-261). -/
def hasTests (d : WData) : Bool := 0 < d.testMap.length

/-- `HasUsage` (internal/data/warnings.go:275-277). -/
def hasUsage (d : WData) : Bool := 0 < d.hdlrMap.length || 0 < d.testMap.length

/-- `Handlers` (internal/data/warnings.go:247-257), when first asked for. -/
def usersOf (E : Env) (S : Sorter) (pick : List Bytes → List Bytes) (d : WData) : List Bytes :=
  S.sort (fun i j => less (handlerName E i) (handlerName E j)) (pick d.hdlrMap.keys)

/-- `Tests` (internal/data/warnings.go:263-273), when first asked for. -/
def testsOf (E : Env) (S : Sorter) (pick : List Bytes → List Bytes) (d : WData) : List Bytes :=
  S.sort (fun i j => less (testName E i) (testName E j)) (pick d.testMap.keys)

/-- The table under the button (cmd/server/pages/warnings.gohtml:56-79): whether there are the titles of the columns, and the columns. -/
structure Usage where
  handlersTitle : Bool
  testsTitle : Bool
  handlers : List Bytes
  tests : List Bytes
deriving DecidableEq

/-- A warning in the first part (cmd/server/pages/warnings.gohtml:35-80). -/
structure UseRow where
  level : Nat
  name : Bytes
  button : Bool
  usage : Option Usage
deriving DecidableEq

/-- What is shown of a warning (cmd/server/pages/warnings.gohtml:36-80), given its data. -/
def useRow (E : Env) (S : Sorter) (pick : List Bytes → List Bytes) (l : Nat) (n : Bytes) (d : WData) : UseRow where
  level := l
  name := n
  button := hasUsage d
  usage := if hasUsage d then
      some { handlersTitle := hasHandlers d, testsTitle := hasTests d
             handlers := (usersOf E S pick d).map (handlerName E), tests := (testsOf E S pick d).map (testName E) }
    else none

/-- The first part (cmd/server/pages/warnings.gohtml:26-82): the rows, and the data after. -/
def usesFrom (E : Env) (S : Sorter) (pick : List Bytes → List Bytes) : List (Nat × Bytes) → Warns → List UseRow × Warns
  | [], w => ([], w)
  | (l, n) :: rest, w =>
    let r := usesFrom E S pick rest (keepWarning w n)
    (useRow E S pick l n (w.findWarning n) :: r.1, r.2)

/-- `HandlerWarningCount` (internal/data/warnings.go:118-120); `none` is a panic, nil is dereferenced
(the package of templates makes it an error, which ends the page). -/
def handlerWarningCount (w : Warns) (h n : Bytes) : Option Nat :=
  match w.byWarning.get n with
  | none => none
  | some d => some ((d.count.get h).getD 0)

/-- A cell of the second part (cmd/server/pages/warnings.gohtml:106-111): blank if nothing is counted. -/
def countCell (w : Warns) (h n : Bytes) : Option (Option Nat) :=
  match handlerWarningCount w h n with
  | none => none
  | some c => some (if c > 0 then some c else none)

/-- The cells of a row (cmd/server/pages/warnings.gohtml:105-112). -/
def cellsFrom (w : Warns) (n : Bytes) : List Bytes → Option (List (Option Nat))
  | [] => some []
  | h :: hs =>
    match countCell w h n with
    | none => none
    | some c => match cellsFrom w n hs with
      | none => none
      | some cs => some (c :: cs)

/-- The rows of the second part (cmd/server/pages/warnings.gohtml:99-115), for the handlers of the columns. -/
def tableFrom (w : Warns) (hs : List Bytes) : List (Nat × Bytes) → Option (List (Nat × Bytes × List (Option Nat)))
  | [] => some []
  | (l, n) :: rest =>
    match cellsFrom w n hs with
    | none => none
    | some cs => match tableFrom w hs rest with
      | none => none
      | some rs => some ((l, n, cs) :: rs)

/-- The page (cmd/server/pages/warnings.gohtml:26-115): the first part, the titles of the columns of the second part, and its rows. -/
structure WarnPage where
  uses : List UseRow
  titles : List Bytes
  table : List (Nat × Bytes × List (Option Nat))
deriving DecidableEq

/-- The warnings of the page, by level (cmd/server/pages/warnings.gohtml:26 and 34, also 99 and 101; cmd/server/server.go:382). -/
def pageRows (reg : Nat → List Bytes) : List (Nat × Bytes) := levelOrder.flatMap fun l => (reg l).map fun n => (l, n)

/-- The page of warnings (cmd/server/pages/warnings.gohtml:26-115): what it shows, `none` if it is cut short by an error, and the data after. -/
def warnPage (E : Env) (S : Sorter) (pick : List Bytes → List Bytes) (reg : Nat → List Bytes) (w : Warns) : Option WarnPage × Warns :=
  let r := usesFrom E S pick (pageRows reg) w
  let hs := r.2.handlerTags S pick
  match tableFrom r.2 hs (pageRows reg) with
  | none => (none, r.2)
  | some table => (some { uses := r.1, titles := hs.map r.2.handlerTitle, table }, r.2)

/-- What a request for the page looks up in `ByWarning`, in order: every warning in the first part, then twice for every cell that is not blank and
once for every other cell (cmd/server/pages/warnings.gohtml:35, 106 and 108). -/
def pageAsks (reg : Nat → List Bytes) (hs : List Bytes) (w : Warns) : List Bytes :=
  (pageRows reg).map Prod.snd ++
  (pageRows reg).flatMap fun r => hs.flatMap fun h => if ((w.findWarning r.2).count.get h).getD 0 > 0 then [r.2, r.2] else [r.2]

end Verif.Server
