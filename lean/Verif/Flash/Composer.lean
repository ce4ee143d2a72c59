import Verif.Slog
import Verif.Flash.Escape

/-
Model of the flash composer, /repo/handlers/flash/composer.go, and of `Extras`,
/repo/handlers/flash/extras.go.

Simplifications: error values keep only the message of the innermost error;
`slog.Error` diagnostics are not modelled; the pooled composer object is
replaced by the values `newComposer` stores into it (pool reuse is the subject
of `Verif/Flash/Threads.lean`); Go's unbounded recursion is cut at `Env.stack`
nested calls, where the outcome is `overflow` (the goroutine dies).
-/

namespace Verif.Flash
open Slog

/-- `Extras` (handlers/flash/extras.go:17-44). A missing entry of `LevelNames`
reads as the empty string, as a Go map lookup does. -/
structure Extras where
  timeFormat : Bytes
  levelNames : Int → Bytes
  levelKey : Bytes
  messageKey : Bytes
  sourceKey : Bytes
  timeKey : Bytes

/-- What stays fixed while a composer works (handlers/flash/composer.go:19-26). -/
structure Cfg where
  env : Env
  extras : Extras
  replace : Option AttrFn
  groups : List Bytes

/-- The changing part of a composer: `buffer` and `started`. -/
structure St where
  buffer : Bytes
  started : Bool
deriving DecidableEq, Repr

/-- Outcome of a composer method: done, stopped with an error (the buffer keeps
what was written), or stack overflow. -/
inductive Out
  | ok (st : St)
  | err (st : St) (msg : Bytes)
  | overflow
deriving DecidableEq, Repr

/-- `basicField[key]` (handlers/flash/composer.go:35-39). -/
def Cfg.isBasic (cfg : Cfg) (key : Bytes) : Bool :=
  key == cfg.extras.levelKey || key == cfg.extras.messageKey || key == cfg.extras.sourceKey ||
    key == cfg.extras.timeKey

/-- `addBytes`/`addByteArray` (handlers/flash/composer.go:151-157). -/
def St.add (st : St) (b : Bytes) : St := { st with buffer := st.buffer ++ b }

/-- `addSeparator` (handlers/flash/composer.go:323-329). -/
def St.addSeparator (st : St) : St :=
  if !st.started then { st with started := true } else st.add [0x2C, 0x20]

/-- `addString` (handlers/flash/composer.go:300-304). -/
def St.addString (st : St) (s : Bytes) : St := ((st.add [0x22]).add (addEscaped s)).add [0x22]

/-- `addKey` (handlers/flash/composer.go:284-287). -/
def St.addKey (st : St) (key : Bytes) : St := (st.addString key).add [0x3A, 0x20]

/-- `addTime` (handlers/flash/composer.go:317-321); the formatted time is not escaped. -/
def St.addTime (st : St) (cfg : Cfg) (t : Nat) : St :=
  ((st.add [0x22]).add (cfg.env.formatTime cfg.extras.timeFormat t)).add [0x22]

/-- `addJSONMarshaler`, `addTextMarshaler` (handlers/flash/composer.go:289-298, 306-315):
the text as a string, or `!ERROR:` and the error. -/
def St.addMarshaler (st : St) : Res → Out
  | .error e => .err (st.addString (b!"!ERROR:" ++ e)) e
  | .ok t => .ok (st.addString t)

/-- `addAny` (handlers/flash/composer.go:127-149). -/
def St.addAny (st : St) : AnyVal → Out
  | .nil => .ok (st.add b!"null")
  | .obj o =>
    match o.stringer with
    | some s => .ok (st.addString s)
    | none =>
      match o.error with
      | some e => .ok (st.addString e)
      | none =>
        match o.jsonM with
        | some r => st.addMarshaler r
        | none =>
          match o.textM with
          | some r => st.addMarshaler r
          | none =>
            match o.marshal with
            | .ok b => .ok (st.add b)
            | .error e => .err st e

mutual
/-- `emptyGroup` on one attribute (handlers/flash/composer.go:335-345): does it
leave the group empty? -/
def emptyMember : Attr → Bool
  | .mk k v => (Attr.mk k v).isEmpty || emptyValue v
/-- Members that are groups are looked into, other values are not empty. -/
def emptyValue : Value → Bool
  | .group as => emptyGroup as
  | _ => false
/-- `emptyGroup` (handlers/flash/composer.go:333-348). -/
def emptyGroup : List Attr → Bool
  | [] => true
  | a :: as => emptyMember a && emptyGroup as
end

/-- The loop of `addAttributes` (handlers/flash/composer.go:116-123) over a
given `addAttribute`: stop at the first error. -/
def addAll (f : St → Attr → Out) : St → List Attr → Out
  | st, [] => .ok st
  | st, a :: as =>
    match f st a with
    | .ok st => addAll f st as
    | o => o

/-- Lines 58-69 of `addAttribute` (handlers/flash/composer.go): resolve a
`LogValuer`, apply the replacement function. The second component tells that
`kind` is still `KindLogValuer` after resolution (no replacement function), so
that the value is rendered by the default case of the switch whatever it
resolved to. -/
def prep (cfg : Cfg) (attr : Attr) : Attr × Bool :=
  let attr1 := if attr.value.isLogValuer then .mk attr.key attr.value.resolve else attr
  match cfg.replace with
  | none => (attr1, attr.value.isLogValuer)
  | some f => (f (if cfg.isBasic attr1.key then [] else cfg.groups) attr1, false)

/-- The value switch (handlers/flash/composer.go:87-113) for everything but
groups. -/
def addLeaf (cfg : Cfg) (forceAny : Bool) (st : St) (v : Value) : Out :=
  match forceAny, v with
  | false, .bool true => .ok (st.add b!"true")
  | false, .bool false => .ok (st.add b!"false")
  | false, .duration d => .ok (st.add (decInt d))
  | false, .float64 f => .ok (st.add f.text)
  | false, .int64 i => .ok (st.add (decInt i))
  | false, .string s => .ok (st.addString s)
  | false, .time t => .ok (st.addTime cfg t)
  | false, .uint64 n => .ok (st.add (decNat n))
  | _, v => st.addAny (v.anyOf cfg.env)

/-- `addAttribute` (handlers/flash/composer.go:57-114) with `addGroup`
(273-282); the first argument bounds the recursion depth. -/
def addAttribute (cfg : Cfg) : Nat → St → Attr → Out
  | 0, _, _ => .overflow
  | n + 1, st, attr =>
    let (attr, forceAny) := prep cfg attr
    -- 70-72
    if attr.isEmpty then .ok st
    else match forceAny, attr.value with
      | false, .group as =>
        -- 74-84
        if emptyGroup as then .ok st
        else if attr.key = [] then addAll (addAttribute cfg n) st as
        else
          -- 85-89, 273-282
          let st := (st.addSeparator.addKey attr.key).add [0x7B]
          match addAll (addAttribute cfg n) { st with started := false } as with
          | .ok st => .ok (st.add [0x7D])
          | o => o
      | forceAny, v =>
        -- 85-86, 90-113
        addLeaf cfg forceAny (st.addSeparator.addKey attr.key) v

/-- `addAttributes` (handlers/flash/composer.go:116-123). -/
def addAttributes (cfg : Cfg) (st : St) (as : List Attr) : Out :=
  addAll (addAttribute cfg cfg.env.stack) st as

end Verif.Flash
