import Verif.Flash.Handler
import Verif.Flash.Options
import Verif.Sloggy.Quote

/-
Model of the sloggy composer, /repo/handlers/sloggy/composer.go.

Unlike flash, sloggy writes piece by piece to the `io.Writer`; the model keeps
the list of `Write` calls. A writer is described by which of the calls fail and
after how many bytes.

Simplifications: error texts are not modelled; Go's unbounded recursion is cut
at `Env.stack` nested calls, where the outcome is `overflow`.
-/

namespace Verif.Sloggy
open Slog
open Flash (Options)

/-- What the `n`-th Write call does: succeed (`none`), or take so many bytes and fail. -/
abbrev Writer := Nat → Option Nat

/-- A `bytes.Buffer`, which never fails. -/
def sure : Writer := fun _ => none

/-- What stays fixed while a composer works (handlers/sloggy/composer.go:38-43). -/
structure Cfg where
  env : Env
  replace : Option AttrFn
  groups : List Bytes
  writer : Writer

/-- The changing part: what has been written, one entry per `Write` call, and `started`. -/
structure St where
  out : List Bytes
  started : Bool
deriving DecidableEq, Repr

/-- Outcome of a composer method. -/
inductive Out
  | ok (st : St)
  | err (st : St)
  | overflow
deriving DecidableEq, Repr

/-- Go on unless there was an error. -/
def Out.bind (o : Out) (f : St → Out) : Out :=
  match o with
  | .ok st => f st
  | o => o

/-- `c.Write(b)`, with the error check that follows every call (e.g.
handlers/sloggy/composer.go:60-65). -/
def write (cfg : Cfg) (b : Bytes) (st : St) : Out :=
  match cfg.writer st.out.length with
  | none => .ok { st with out := st.out ++ [b] }
  | some k => .err { st with out := st.out ++ [b.take k] }

/-- `basicField[key]` (handlers/sloggy/composer.go:28-33). -/
def isBasic (key : Bytes) : Bool :=
  key == b!"time" || key == b!"level" || key == b!"msg" || key == b!"source"

/-- `addString` (handlers/sloggy/composer.go:258-263). -/
def addString (cfg : Cfg) (s : Bytes) (st : St) : Out := write cfg (quote cfg.env.isPrint s) st

/-- `addJSONMarshaler` and `addTextMarshaler` (handlers/sloggy/composer.go:243-249,
276-282): an error becomes text. -/
def addMarshaler (cfg : Cfg) (r : Res) (st : St) : Out :=
  match r with
  | .ok t => addString cfg t st
  | .error e => addString cfg (b!"!ERROR:" ++ e) st

/-- `addAny` (handlers/sloggy/composer.go:152-180). -/
def addAny (cfg : Cfg) (a : AnyVal) (st : St) : Out :=
  match a with
  | .nil => write cfg b!"null" st
  | .obj o =>
    match o.net with
    | some s => addString cfg s st
    | none =>
    match o.error with
    | some s => addString cfg s st
    | none =>
    match o.stringer with
    | some s => addString cfg s st
    | none =>
    match o.jsonM with
    | some r => addMarshaler cfg r st
    | none =>
    match o.textM with
    | some r => addMarshaler cfg r st
    | none =>
    match o.marshal with
    | .ok b => write cfg b st
    | .error _ => .err st

/-- The layout `time.RFC3339Nano` (handlers/sloggy/composer.go:285). -/
def timeLayout : Bytes := b!"2006-01-02T15:04:05.999999999Z07:00"

/-- The switch over the kind of value, except groups (handlers/sloggy/composer.go:106-126,
182-205, 222-227, 284-296). -/
def addLeaf (cfg : Cfg) (v : Value) (st : St) : Out :=
  match v with
  | .bool true => write cfg b!"true" st
  | .bool false => write cfg b!"false" st
  | .duration d => write cfg (decInt d) st
  | .float64 f => write cfg f.text st
  | .int64 i => write cfg (decInt i) st
  | .string s => addString cfg s st
  | .time t => addString cfg (cfg.env.formatTime timeLayout t) st
  | .uint64 n => write cfg (decNat n) st
  | v => addAny cfg (v.anyOf cfg.env) st

/-- `emptyGroup` (handlers/sloggy/composer.go:300-317; same text as in flash). -/
def emptyGroup (as : List Attr) : Bool := Flash.emptyGroup as

/-- Resolving and replacing (handlers/sloggy/composer.go:71-79): the attribute and
the value to show. -/
def prep (cfg : Cfg) (attr : Attr) : Attr × Value :=
  match cfg.replace with
  | none => (attr, attr.value.resolve)
  | some f =>
    let groups := if isBasic attr.key then [] else cfg.groups
    let attr := f groups attr
    (attr, attr.value)

/-- Separator, key and colon (handlers/sloggy/composer.go:94-105). -/
def addKey (cfg : Cfg) (key : Bytes) (st : St) : Out :=
  (if st.started then write cfg [0x2C, 0x20] st else .ok { st with started := true }).bind fun st =>
  (addString cfg key st).bind fun st =>
  write cfg [0x3A, 0x20] st

/-- The loop of `addAttributes` (handlers/sloggy/composer.go:129-136). -/
def addAll (f : St → Attr → Out) : St → List Attr → Out
  | st, [] => .ok st
  | st, a :: as => (f st a).bind fun st => addAll f st as

/-- `addAttribute` (handlers/sloggy/composer.go:67-127) with `addGroup` (207-220); the
first argument bounds the recursion depth. -/
def addAttribute (cfg : Cfg) : Nat → St → Attr → Out
  | 0, _, _ => .overflow
  | n + 1, st, attr =>
    -- 68-70
    if attr.isEmpty then .ok st
    else
      let (attr, value) := prep cfg attr
      -- 80-82
      if attr.isEmpty then .ok st
      else match value with
        | .group as =>
          -- 83-93
          if emptyGroup as then .ok st
          else if attr.key = [] then addAll (addAttribute cfg n) st as
          else
            (addKey cfg attr.key st).bind fun st =>
            -- 207-220
            (write cfg [0x7B] st).bind fun st =>
            (addAll (addAttribute cfg n) { st with started := false } as).bind fun st' =>
            write cfg [0x7D] { st' with started := st.started }
        | v => (addKey cfg attr.key st).bind fun st => addLeaf cfg v st

/-- `addAttributes` (handlers/sloggy/composer.go:129-136). -/
def addAttributes (cfg : Cfg) (as : List Attr) (st : St) : Out :=
  addAll (addAttribute cfg cfg.env.stack) st as

end Verif.Sloggy
