import Verif.Slog

/-
The trace handler: handlers/trace/handler.go.

Simplified: an attribute is its key and the text of its value (`slog.Value.String`).
-/

namespace Verif.Trace

open Verif.Slog

/-- An attribute as it is printed (log/slog/attr.go: `Attr.String`). -/
structure TAttr where
  key : Bytes
  value : Bytes
deriving DecidableEq

/-- `Attr.String`: the key, `=`, the value. -/
def TAttr.string (a : TAttr) : Bytes := a.key ++ [0x3D] ++ a.value

/-- What of a `slog.Record` is shown. -/
structure TRecord where
  level : Int
  message : Bytes
  attrs : List TAttr

/-- `Handler` (handlers/trace/handler.go:17-19). -/
structure Handler where
  indent : Bytes
deriving DecidableEq

/-- `NewHandler` (handlers/trace/handler.go:24-28). -/
def newHandler (indent : Bytes) : Handler := { indent }

/-- `show` (handlers/trace/handler.go:55-57): what is printed, with the text of the argument. -/
def Handler.show (h : Handler) (name arg : Bytes) : Bytes := h.indent ++ name ++ b!"(" ++ arg ++ b!")\n"

/-- The loop over the attributes in `recordImage` (handlers/trace/handler.go:68-74). -/
def imageAttrs (separator : Bytes) : List TAttr → Bytes
  | [] => []
  | a :: as => separator ++ a.string ++ imageAttrs b!", " as

/-- `recordImage` (handlers/trace/handler.go:61-78). -/
def recordImage (r : TRecord) : Bytes :=
  levelString r.level ++ b!" \"" ++ r.message ++ b!"\"" ++
    (if r.attrs.length > 0 then imageAttrs b!" {" r.attrs ++ b!"}" else [])

/-- `%v` of a list of attributes: the texts with spaces between, in brackets (package fmt). -/
def attrsImage (as : List TAttr) : Bytes :=
  b!"[" ++ (match as with
    | [] => []
    | a :: as => a.string ++ as.flatMap fun a => 0x20 :: a.string) ++ b!"]"

/-- `Enabled` (handlers/trace/handler.go:33-36): what is printed and returned. -/
def Handler.enabled (h : Handler) (level : Int) : Bytes × Bool := (h.show b!"Enabled" (levelString level), true)

/-- `Handle` (handlers/trace/handler.go:38-41): what is printed, and whether an error is returned. -/
def Handler.handle (h : Handler) (r : TRecord) : Bytes × Bool := (h.show b!"Handle" (recordImage r), false)

/-- `WithAttrs` (handlers/trace/handler.go:43-46). -/
def Handler.withAttrs (h : Handler) (as : List TAttr) : Bytes × Handler :=
  (h.show b!"WithAttrs" (attrsImage as), { indent := h.indent ++ b!"  " })

/-- `WithGroup` (handlers/trace/handler.go:48-51). -/
def Handler.withGroup (h : Handler) (name : Bytes) : Bytes × Handler :=
  (h.show b!"WithGroup" name, { indent := h.indent ++ b!"  " })

/-- A call of a method of a handler. -/
inductive Call where
  | enabled (level : Int)
  | handle (r : TRecord)
  | withAttrs (as : List TAttr)
  | withGroup (name : Bytes)

/-- The handlers there are, in the order in which they were made, and all that was printed. -/
structure State where
  handlers : List Handler
  out : Bytes := []

/-- A call of handler number `i`: the handlers made by `With` are new ones. A number that no handler
has is no call. -/
def State.step (s : State) (i : Nat) (c : Call) : State :=
  match s.handlers[i]? with
  | none => s
  | some h =>
    match c with
    | .enabled l => { s with out := s.out ++ (h.enabled l).1 }
    | .handle r => { s with out := s.out ++ (h.handle r).1 }
    | .withAttrs as => { handlers := s.handlers ++ [(h.withAttrs as).2], out := s.out ++ (h.withAttrs as).1 }
    | .withGroup n => { handlers := s.handlers ++ [(h.withGroup n).2], out := s.out ++ (h.withGroup n).1 }

/-- A history of calls. -/
def State.run (s : State) : List (Nat × Call) → State
  | [] => s
  | (i, c) :: cs => (s.step i c).run cs

end Verif.Trace
