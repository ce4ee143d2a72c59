import Verif.GoLib

/-
Creators of handlers and loggers: infra/creator.go.

Functions that make handlers and loggers are any functions; they may return nil (`none`).
-/

namespace Verif.Tools

open Verif.Go

/-- A logger: made by a function of the creator, or by `slog.New` of a handler. -/
inductive Logger (H L : Type) where
  | own (l : L)
  | over (h : H)
deriving DecidableEq

/-- `Creator` (infra/creator.go:28-34). Functions that are nil are `none`. -/
structure Creator (W O H L : Type) where
  name : Bytes := []
  summary : Bytes := []
  links : Map Bytes Bytes := []
  handlerFn : Option (W → O → Option H) := none
  loggerFn : Option (W → O → Option L) := none

variable {W O H L : Type}

/-- `NewCreator` (infra/creator.go:42-58); `none` is the end of the program with exit code 1. -/
def newCreator (name : Bytes) (handlerFn : Option (W → O → Option H)) (loggerFn : Option (W → O → Option L)) (summary : Bytes)
    (links : Map Bytes Bytes) : Option (Creator W O H L) :=
  if name = [] then none
  else if handlerFn.isNone && loggerFn.isNone then none
  else some { name, summary, links, handlerFn, loggerFn }

/-- What a call that returns a pointer or interface comes to. -/
inductive Made (α : Type) where
  | some (a : α)
  | nil
  | panic
deriving DecidableEq

/-- `NewLogger` (infra/creator.go:63-69). `slog.New` panics for a nil handler, and calling a nil
function is a panic. -/
def Creator.newLogger (c : Creator W O H L) (w : W) (o : O) : Made (Logger H L) :=
  match c.loggerFn with
  | some f =>
    match f w o with
    | some l => .some (.own l)
    | none => .nil
  | none =>
    match c.handlerFn with
    | some f =>
      match f w o with
      | some h => .some (.over h)
      | none => .panic
    | none => .panic

/-- `NewHandler` (infra/creator.go:73-79). -/
def Creator.newHandler (c : Creator W O H L) (w : W) (o : O) : Option H :=
  match c.handlerFn with
  | some f => f w o
  | none => none

/-- `CanMakeHandler` (infra/creator.go:81-83). -/
def Creator.canMakeHandler (c : Creator W O H L) : Bool := c.handlerFn.isSome

/-- `HasLinks` (infra/creator.go:90-92). -/
def Creator.hasLinks (c : Creator W O H L) : Bool := c.links.length > 0

/-- `HasSummary` (infra/creator.go:98-100). -/
def Creator.hasSummary (c : Creator W O H L) : Bool := c.summary ≠ []

end Verif.Tools
