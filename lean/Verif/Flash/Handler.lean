import Verif.Flash.Composer

/-
Model of the flash handler, /repo/handlers/flash/handler.go and group.go, with
handlers as immutable values (byte slices as lists; sharing of backing arrays
is the subject of `Verif/Flash/Heap.lean`).
-/

namespace Verif.Flash
open Slog

/-- `slog.HandlerOptions` after `fixOptions` (handlers/flash/handler.go:219-227,
modelled in `Verif/Flash/Options.lean`). `level now` is what the `slog.Leveler`
answers at the moment `now`. -/
structure Options where
  addSource : Bool := false
  replace : Option AttrFn := none
  level : Nat → Int := fun _ => levelInfo

/-- `Handler` (handlers/flash/handler.go:20-27) without writer and mutex. -/
structure Handler where
  env : Env
  options : Options
  extras : Extras
  pfx : Bytes
  sfx : Bytes
  groups : List Bytes

/-- A `slog.Handler` made by the flash package: a plain `*Handler` or a
`*group` (handlers/flash/group.go:11-21) with its name and parent. -/
inductive H
  | plain (h : Handler)
  | group (h : Handler) (name : Bytes) (parent : H)

/-- The `*Handler` itself, or the one embedded in the group. -/
def H.core : H → Handler
  | .plain h => h
  | .group h _ _ => h

/-- `NewHandler` (handlers/flash/handler.go:32-42) after options and extras are fixed. -/
def newHandler (env : Env) (options : Options) (extras : Extras) : Handler :=
  { env, options, extras, pfx := [], sfx := [], groups := [] }

/-- `Enabled` of either type, at the moment `now` (handlers/flash/handler.go:46-48; the
group type inherits it, handlers/flash/group.go:11-12). -/
def H.enabled (h : H) (now : Nat) (level : Int) : Bool := level ≥ h.core.options.level now

/-- The composer settings used by a handler (handlers/flash/handler.go:58, 161). -/
def Handler.cfg (h : Handler) : Cfg :=
  { env := h.env, extras := h.extras, replace := h.options.replace, groups := h.groups }

/-- `bytes.HasSuffix(b, []byte{'{'})`. -/
def endsOpen (b : Bytes) : Bool := b.getLast? == some 0x7B

/-- The `*source` value logged for a program counter (handlers/flash/source.go:5-17)
as `addAny` sees it: it implements none of the interfaces, and `json.Marshal`
gives the object with the fields `function`, `file`, `line`. -/
def sourceObj (env : Env) (pc : Nat) : Obj :=
  let (fn, file, line) := env.frame pc
  { marshal := .ok (b!"{\"function\":" ++ env.marshalString fn ++ b!",\"file\":" ++
      env.marshalString file ++ b!",\"line\":" ++ decNat line ++ b!"}") }

/-- What a call of `Handle` amounts to: one `Write` of a line, an error before
anything is written, or a stack overflow. -/
inductive HOut
  | line (b : Bytes)
  | fail (msg : Bytes)
  | overflow
deriving DecidableEq, Repr

/-- Sequencing: go on from an intermediate composer state. -/
def Out.bind (o : Out) (f : St → Out) : Out :=
  match o with
  | .ok st => f st
  | o => o

/-- One of the built-in fields (handlers/flash/handler.go:66-103): written
directly if there is no replacement function, as an attribute otherwise. -/
def addBasic (cfg : Cfg) (st : St) (key : Bytes) (direct : St → Out) (v : Value) : Out :=
  match cfg.replace with
  | none => direct (st.addSeparator.addKey key)
  | some _ => addAttribute cfg cfg.env.stack st (.mk key v)

/-- The opening brace and the built-in fields (handlers/flash/handler.go:60-103). -/
def Handler.basics (h : Handler) (r : Record) : Out :=
  let cfg := h.cfg
  let st : St := { buffer := [0x7B], started := false }
  -- 66-74
  (match r.time with
    | none => Out.ok st
    | some t => addBasic cfg st h.extras.timeKey (fun st => .ok (st.addTime cfg t)) (.time t)
  ).bind fun st =>
  -- 75-81
  (addBasic cfg st h.extras.levelKey
      (fun st => .ok (st.addString (h.extras.levelNames r.level)))
      (.string (h.extras.levelNames r.level))).bind fun st =>
  -- 82-88
  (addBasic cfg st h.extras.messageKey (fun st => .ok (st.addString r.message))
      (.string r.message)).bind fun st =>
  -- 89-103
  if h.options.addSource && r.pc != 0 then
    addBasic cfg st h.extras.sourceKey (fun st => st.addAny (.obj (sourceObj h.env r.pc)))
      (.any (.obj (sourceObj h.env r.pc)))
  else .ok st

/-- Copying the prefix (handlers/flash/handler.go:105-112). -/
def Handler.addPrefix (h : Handler) (st : St) : St :=
  if h.pfx.length > 0 then
    let st := st.addSeparator.add h.pfx
    if endsOpen h.pfx then { st with started := false } else st
  else st

/-- `(*Handler).Handle` (handlers/flash/handler.go:52-136) up to the Write. -/
def Handler.handle (h : Handler) (r : Record) : HOut :=
  match (h.basics r).bind fun st => addAttributes h.cfg (h.addPrefix st) r.attrs with
  | .ok st =>
    -- 124-127
    .line ((if h.sfx.length > 0 then st.buffer ++ h.sfx else st.buffer) ++ [0x7D, 0x0A])
  | .err _ m => .fail m
  | .overflow => .overflow

/-- `(*Handler).WithAttrs` (handlers/flash/handler.go:138-170). An error leaves
what was written so far in the prefix (164-167). `none`: stack overflow. -/
def Handler.withAttrs (h : Handler) (as : List Attr) : Option Handler :=
  let started := h.pfx.length > 0 && !endsOpen h.pfx
  match addAttributes h.cfg { buffer := h.pfx, started } as with
  | .ok st => some { h with pfx := st.buffer }
  | .err st _ => some { h with pfx := st.buffer }
  | .overflow => none

/-- The handler inside the group made by `(*Handler).WithGroup` for a non-empty
name (handlers/flash/handler.go:177-212). -/
def Handler.openGroup (h : Handler) (name : Bytes) : Handler :=
  { h with
    groups := if h.options.replace.isSome then h.groups ++ [name] else []
    pfx := h.pfx ++ ((if h.pfx.length > 0 && !endsOpen h.pfx then [0x2C, 0x20] else []) ++
      (0x22 :: (name ++ b!"\": {")))
    sfx := h.sfx ++ [0x7D] }

/-- `WithAttrs` of either type: the group type inherits the method of its
embedded `*Handler` (handlers/flash/group.go:11-12), so the result is plain. -/
def H.withAttrs (h : H) (as : List Attr) : Option H := (h.core.withAttrs as).map .plain

/-- `WithGroup` of either type (handlers/flash/handler.go:172-213,
handlers/flash/group.go:55-65). For an empty name the plain handler returns
itself; the group handler returns its embedded `*Handler`. -/
def H.withGroup (h : H) (name : Bytes) : H :=
  if name = [] then .plain h.core else .group (h.core.openGroup name) name h

/-- What the context holds under the key "deadGroup": nothing, or a string.
(Any other type panics in handlers/flash/group.go:29; not modelled.) -/
abbrev Ctx := Option Bytes

/-- The scan of the record in `(*group).Handle` (handlers/flash/group.go:31-42):
the first attribute that is not empty. -/
def firstNonEmpty (as : List Attr) : Option Attr := as.find? fun a => !a.isEmpty

/-- Must the group be skipped (handlers/flash/group.go:24-44)? -/
def skipGroup (ctx : Ctx) (as : List Attr) : Bool :=
  match firstNonEmpty as with
  | none => true
  | some a =>
    match ctx with
    | none => false
    | some dead => dead != [] && a.key == dead && a.value.isGroup

/-- `Handle` of either type (handlers/flash/handler.go:52-136,
handlers/flash/group.go:23-53). -/
def H.handle : H → Ctx → Record → HOut
  | .plain h, _, r => h.handle r
  | .group h name parent, ctx, r =>
    if skipGroup ctx r.attrs then parent.handle (some name) r else h.handle r

/-- Apply a derivation step. -/
def H.step (h : H) : Op → Option H
  | .attrs as => h.withAttrs as
  | .group name => some (h.withGroup name)

/-- Apply derivation steps in order. -/
def H.derive (h : H) : List Op → Option H
  | [] => some h
  | op :: ops => (h.step op).bind fun h => h.derive ops

end Verif.Flash
