import Verif.Sloggy.Composer

/-
Model of the sloggy handler, /repo/handlers/sloggy/handler.go and group.go, with
handlers as values. `WithAttrs` and `WithGroup` copy the prefix and suffix into
new buffers, so nothing but the `groups` slice is shared.

Simplification: `append(h.groups, name)` is taken to be a copy (sharing of the
backing array of `groups` is not modelled here).
-/

namespace Verif.Sloggy
open Slog
open Flash (Options endsOpen Ctx skipGroup)

/-- `Handler` (handlers/sloggy/handler.go:16-22) without writer and mutex. -/
structure Handler where
  env : Env
  options : Options
  pfx : Bytes
  sfx : Bytes
  groups : List Bytes

/-- A `slog.Handler` made by the sloggy package: a plain `*Handler` or a `*group`
(handlers/sloggy/group.go:11-21). -/
inductive H
  | plain (h : Handler)
  | group (h : Handler) (name : Bytes) (parent : H)

/-- The `*Handler` itself, or the one embedded in the group. -/
def H.core : H → Handler
  | .plain h => h
  | .group h _ _ => h

/-- `NewHandler` (handlers/sloggy/handler.go:26-33) after the options are fixed. -/
def newHandler (env : Env) (options : Options) : Handler :=
  { env, options, pfx := [], sfx := [], groups := [] }

/-- `fixOptions` (handlers/sloggy/handler.go:177-185): same text as in flash. -/
def fixOptions (options : Option Flash.RawOptions) : Flash.RawOptions := Flash.fixOptions options

/-- `Enabled` of either type, at the moment `now` (handlers/sloggy/handler.go:37-39). -/
def H.enabled (h : H) (now : Nat) (level : Int) : Bool := level ≥ h.core.options.level now

/-- The composer settings used by a handler (handlers/sloggy/handler.go:42, 127). -/
def Handler.cfg (h : Handler) (w : Writer) : Cfg :=
  { env := h.env, replace := h.options.replace, groups := h.groups, writer := w }

/-- The map logged for a program counter (handlers/sloggy/handler.go:54-61) as `addAny`
sees it: `json.Marshal` sorts the keys. -/
def sourceObj (env : Env) (pc : Nat) : Obj :=
  let (fn, file, line) := env.frame pc
  { marshal := .ok (b!"{\"file\":" ++ env.marshalString file ++ b!",\"function\":" ++
      env.marshalString fn ++ b!",\"line\":" ++ decNat line ++ b!"}") }

/-- The built-in fields (handlers/sloggy/handler.go:47-62). -/
def basics (env : Env) (addSource : Bool) (r : Record) : List Attr :=
  (match r.time with
    | none => []
    | some t => [.mk b!"time" (.time t)]) ++
  [.mk b!"level" (.string (levelString r.level)), .mk b!"msg" (.string r.message)] ++
  (if addSource && r.pc != 0 then [.mk b!"source" (.any (.obj (sourceObj env r.pc)))] else [])

/-- Writing the prefix (handlers/sloggy/handler.go:67-77). -/
def Handler.addPrefix (h : Handler) (cfg : Cfg) (st : St) : Out :=
  if h.pfx.length > 0 then
    (write cfg [0x2C, 0x20] st).bind fun st =>
    (write cfg h.pfx st).bind fun st =>
    .ok (if endsOpen h.pfx then { st with started := false } else st)
  else .ok st

/-- `(*Handler).Handle` (handlers/sloggy/handler.go:41-106). -/
def Handler.handle (h : Handler) (w : Writer) (r : Record) : Out :=
  let cfg := h.cfg w
  (write cfg [0x7B] { out := [], started := false }).bind fun st =>
  (addAttributes cfg (basics h.env h.options.addSource r) st).bind fun st =>
  (h.addPrefix cfg st).bind fun st =>
  (addAttributes cfg r.attrs st).bind fun st =>
  (write cfg h.sfx st).bind fun st =>
  (write cfg [0x7D] st).bind fun st =>
  write cfg [0x0D, 0x0A] st

/-- `(*Handler).WithAttrs` (handlers/sloggy/handler.go:108-133). An error leaves what was
written so far in the prefix (128-130). `none`: stack overflow. -/
def Handler.withAttrs (h : Handler) (as : List Attr) : Option Handler :=
  let started := h.pfx.length > 0 && !endsOpen h.pfx
  let start : List Bytes := if h.pfx.length > 0 then [h.pfx] else []
  match addAttributes (h.cfg sure) as { out := start, started } with
  | .ok st => some { h with pfx := st.out.flatten }
  | .err st => some { h with pfx := st.out.flatten }
  | .overflow => none

/-- The handler inside the group made by `(*Handler).WithGroup` for a non-empty name
(handlers/sloggy/handler.go:140-170). -/
def Handler.openGroup (h : Handler) (name : Bytes) : Handler :=
  { h with
    groups := h.groups ++ [name]
    pfx := h.pfx ++ ((if h.pfx.length > 0 && !endsOpen h.pfx then [0x2C, 0x20] else []) ++
      (0x22 :: (name ++ b!"\": {")))
    sfx := h.sfx ++ [0x7D] }

/-- `WithAttrs` of either type; the group type inherits it (handlers/sloggy/group.go:11-12). -/
def H.withAttrs (h : H) (as : List Attr) : Option H := (h.core.withAttrs as).map .plain

/-- `WithGroup` of either type (handlers/sloggy/handler.go:135-171,
handlers/sloggy/group.go:55-65). -/
def H.withGroup (h : H) (name : Bytes) : H :=
  if name = [] then .plain h.core else .group (h.core.openGroup name) name h

/-- `Handle` of either type (handlers/sloggy/handler.go:41-106,
handlers/sloggy/group.go:23-53, same text as in flash). -/
def H.handle : H → Ctx → Writer → Record → Out
  | .plain h, _, w, r => h.handle w r
  | .group h name parent, ctx, w, r =>
    if skipGroup ctx r.attrs then parent.handle (some name) w r else h.handle w r

/-- Apply a derivation step. -/
def H.step (h : H) : Op → Option H
  | .attrs as => h.withAttrs as
  | .group name => some (h.withGroup name)

/-- Apply derivation steps in order. -/
def H.derive (h : H) : List Op → Option H
  | [] => some h
  | op :: ops => (h.step op).bind fun h => h.derive ops

end Verif.Sloggy
