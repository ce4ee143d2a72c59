import Verif.Data.WarnParser

/-
What the server asks for about a handler: internal/data/warnings.go.
-/

namespace Verif.Data
open Go

/-- `HandlerName` (internal/data/warnings.go:59-67). -/
def Warns.handlerName (w : Warns) (h : Bytes) : Bytes :=
  match w.handlerData.get h with
  | some d => d.name
  | none => h

/-- `HasHandlerSummary` (internal/data/warnings.go:69-75). -/
def Warns.hasHandlerSummary (w : Warns) (h : Bytes) : Bool :=
  match w.handlerData.get h with
  | some d => d.summary ≠ []
  | none => false

/-- `HandlerSummaryHTML` (internal/data/warnings.go:77-85); `md` is what
`markdown.TemplateHTML` makes of a text. -/
def Warns.handlerSummaryHTML (md : Bytes → Bytes) (w : Warns) (h : Bytes) : Bytes :=
  match w.handlerData.get h with
  | some d => md d.summary
  | none => []

/-- `HasHandlerLinks` (internal/data/warnings.go:87-93). -/
def Warns.hasHandlerLinks (w : Warns) (h : Bytes) : Bool :=
  match w.handlerData.get h with
  | some d => d.links.length > 0
  | none => false

/-- `HandlerLinks` (internal/data/warnings.go:95-102). -/
def Warns.handlerLinks (w : Warns) (h : Bytes) : Map Bytes Bytes :=
  match w.handlerData.get h with
  | some d => d.links
  | none => []

end Verif.Data
