import Verif.Data.WarnParser

/-
The buttons in the list of warnings on the pages of handlers and tests
(cmd/server/parts/warnings.gohtml) and what they do (cmd/server/stuff/scripts.js).

Simplified: the list is given in the order in which it is shown, levels one after the other; names are
text without zero bytes, so that html/template and the browser between them leave the names in identifiers as they are; the
description of a warning is given from outside. Not modelled: the check box for charts.
-/

namespace Verif.Server
open Go Verif.Data

/-- `strings.Trim(s, " ")` (internal/data/warnings.go:456). -/
def trimSpaces (s : Bytes) : Bytes := ((s.dropWhile (· == 0x20)).reverse.dropWhile (· == 0x20)).reverse

/-- `HasLog` (internal/data/warnings.go:455-457). -/
def hasLog (i : DInst) : Bool := 0 < (trimSpaces i.log).length

/-- `Log` (internal/data/warnings.go:459-464). -/
def logText (i : DInst) : Bytes := if i.log ≠ [] then i.log else i.line

/-- A row of the page with an identifier, and whether there is a button for it. -/
structure Row where
  id : Bytes
  text : Bytes
  button : Bool

/-- A warning on the page, with its description (`HasDescription`, `Description`,
internal/data/warnings.go:382-394). -/
structure PWarn where
  warn : DWarn
  doc : Option Bytes

/-- The identifier of the log of an instance (cmd/server/parts/warnings.gohtml:32,48,52). -/
def logId (w i : Bytes) : Bytes := w ++ b!"-" ++ i ++ b!"-log"

/-- The identifier of the description of a warning (cmd/server/parts/warnings.gohtml:17,22). -/
def docId (w : Bytes) : Bytes := w ++ b!"-doc"

/-- The row with the log of an instance (cmd/server/parts/warnings.gohtml:46-55). -/
def logRow (w : Bytes) (i : DInst) : Row := ⟨logId w i.name, logText i, hasLog i⟩

/-- The rows of a warning (cmd/server/parts/warnings.gohtml:6-60). -/
def warnRows (p : PWarn) : List Row :=
  (match p.doc with
    | some d => [⟨docId p.warn.name, d, true⟩]
    | none => []) ++ p.warn.instances.map (logRow p.warn.name)

/-- The rows of the list (cmd/server/parts/warnings.gohtml:1-61). -/
def rows (ps : List PWarn) : List Row := ps.flatMap warnRows

/-- The identifiers that come before on the page (cmd/server/parts/header.gohtml:18,31,44,57,68;
cmd/server/pages/handler.gohtml:76,80; cmd/server/pages/test.gohtml:54,58). -/
def otherIds : List Bytes := [b!"tag", b!"tag", b!"tag", b!"tag", b!"tag", b!"chart-checkbox", b!"chart"]

/-- `document.getElementById`: the place of the first element with the identifier. -/
def elementById (ids : List Bytes) (id : Bytes) : Nat := ids.findIdx (· == id)

/-- `toggleElement` (cmd/server/stuff/scripts.js:25-28), on which elements are displayed. -/
def toggleElement (ids : List Bytes) (id : Bytes) (shown : Nat → Bool) : Nat → Bool :=
  let j := elementById ids id
  fun i => if i = j then !shown i else shown i

/-- A click on the button of a row; a row without button is left alone. -/
def click (ps : List PWarn) (shown : Nat → Bool) (k : Nat) : Nat → Bool :=
  match (rows ps)[k]? with
  | some r => if r.button then toggleElement (otherIds ++ (rows ps).map Row.id) r.id shown else shown
  | none => shown

/-- Clicks one after the other; the rows are not displayed in the beginning
(`display:none`, cmd/server/parts/warnings.gohtml:22,52). -/
def clicks (ps : List PWarn) (ks : List Nat) : Nat → Bool := ks.foldl (click ps) fun _ => false

/-- Whether a row is displayed. -/
def displayed (shown : Nat → Bool) (k : Nat) : Bool := shown (otherIds.length + k)

end Verif.Server
