import Verif.Data.WarnParser
import Verif.Warning.Show

/-
The texts of instances of warnings in the pages of cmd/server: the extra text, which is
given to the page as markup, and the log.
-/

namespace Verif.Server
open Go Verif.Data

/-- `ptnCaller` (internal/data/warnings.go:432),
`^\s*(.+?):(.+?)\s*\(.*/(testing/.*\.go):(\d+)\)`. -/
def ptnCaller : Re := seq [.star isS, .cap 1 (.cat (.one isDot) (.lazy isDot)), .lit b!":", .cap 2 (.cat (.one isDot) (.lazy isDot)),
  .star isS, .lit b!"(", .star isDot, .lit b!"/", .cap 3 (seq [.lit b!"testing/", .star isDot, .lit b!".go"]), .lit b!":",
  .cap 4 (.cat (.one isD) (.star isD)), .lit b!")"]

/-- `srcRoot` (internal/data/warnings.go:429). -/
def srcRoot : Bytes := b!"https://cs.opensource.google/go/go/+/master:src"

/-- The text of a caller as a link (internal/data/warnings.go:437-441). -/
def linkHTML (c : Caps) : Bytes :=
  c.text 1 ++ b!"<br/><a href=\"" ++ srcRoot ++ b!"/" ++ c.text 3 ++ b!";l=" ++ c.text 4 ++ b!"\">" ++ c.text 2 ++ b!"</a>"

/-- One line of the extra text as markup (internal/data/warnings.go:436-443). -/
def lineHTML (line : Bytes) : Bytes :=
  b!"<p>" ++ (match ptnCaller.find line with
    | some c => linkHTML c
    | none => line) ++ b!"</p>"

/-- `strings.Join` with newlines (internal/data/warnings.go:447). -/
def joinNL : List Bytes → Bytes
  | [] => []
  | [l] => l
  | l :: ls => l ++ 0x0A :: joinNL ls

/-- `ExtraHTML` (internal/data/warnings.go:434-449). The result is a `template.HTML`, which
the template (cmd/server/parts/warnings.gohtml:45) copies to the page without escaping. -/
def extraHTML (i : DInst) : Bytes := joinNL ((Warning.splitNL i.extra).map lineHTML)

end Verif.Server
