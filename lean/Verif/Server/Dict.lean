import Verif.GoLib

/-
Model of the template function `dict`, /repo/cmd/server/server.go:446-455.
-/

namespace Verif.Server
open Go

/-- An argument of a template function (cmd/server/server.go:446): a string, or a value of
another type. -/
inductive TArg (α : Type)
  | str (s : Bytes)
  | other (v : α)
deriving DecidableEq

/-- One key and its value (cmd/server/server.go:450-452). -/
def dictPut {α : Type} (m : Map Bytes (TArg α)) (key value : TArg α) : Map Bytes (TArg α) :=
  match key with
  | .str k => m.set k value
  | .other _ => m

/-- The loop of `dict` (cmd/server/server.go:449-453), from an even position on; a key without
a value is the last argument of an odd number. -/
def dictFrom {α : Type} (m : Map Bytes (TArg α)) : List (TArg α) → Map Bytes (TArg α)
  | [] => m
  | [_] => m
  | key :: value :: rest => dictFrom (dictPut m key value) rest

/-- `dict` (cmd/server/server.go:446-455). -/
def dict {α : Type} (v : List (TArg α)) : Map Bytes (TArg α) := dictFrom [] v

end Verif.Server
