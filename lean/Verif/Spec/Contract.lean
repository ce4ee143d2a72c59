import Verif.Verify.Suite
import Verif.Bench.FlashRun
import Verif.Flash.Replace

/-
Specification: what a slog handler is to do, as far as the documentation leaves no doubt and
the verification suite asks for it. Nothing here refers to how a handler does it.
-/

namespace Verif.Verify
open Go Slog Json LogTree Flash Bench

/-- The attributes and derivations can be printed, and `pl` are the members they stand for; the
two readings of what becomes of groups without content and of LogValuers agree. -/
structure Clear (env : Env) (ops : List Op) (as : List Attr) (pl : List (Bytes × Tree)) : Prop where
  chain : OpsClean env defaultTimeFormat ops
  chainDepth : opsDepth ops < env.stack
  attrs : ListClean env defaultTimeFormat as
  depth : listDepth as < env.stack
  ideal : placeIdeal env defaultTimeFormat .ideal ops as = some pl
  place : place env defaultTimeFormat .viaAny ops as = some pl

/-- The same if there is a replacement function: `bm` are the members for time, level, message
and source. -/
structure ClearRepl (env : Env) (f : AttrFn) (addSource : Bool) (ops : List Op) (r : Record)
    (bm pl : List (Bytes × Tree)) : Prop where
  basics : RList (replOf env plainExtras f) (opened (r.attrs.all Attr.isEmpty) [] ops) 0
    (basicAttrs env plainExtras addSource r) bm
  attrs : RPlace (replOf env plainExtras f) 0 [] ops r.attrs pl

/-- The options and derivations are such that a handler can be made. -/
def Derivable (env : Env) (o : RawOptions) (ops : List Op) : Prop :=
  (o.replace = none ∧ OpsClean env defaultTimeFormat ops ∧ opsDepth ops < env.stack) ∨
  ∃ f as pl, o.replace = some f ∧ RPlace (replOf env plainExtras f) 0 [] ops as pl

/-- A handler that follows the documentation: it is enabled from its level upwards, `Info` if
none is given; it writes a line with a JSON object that has the built-in members and then those
of the attributes, whatever the context; replacement functions are applied. -/
structure Contract (env : Env) (sut : Sut) : Prop where
  enabled : ∀ n o ops level, Derivable env o ops →
    sut.enabled n o ops level = decide ((o.level.elim levelInfo fun f => f n) ≤ level)
  plain : ∀ n o ops c r pl, o.replace = none → RecordClean env plainExtras r → Clear env ops r.attrs pl →
    ∃ b, sut.handle n o ops c r = (b ++ [0x0A], false) ∧
      LineText b (.obj (builtins env plainExtras o.addSource r ++ pl))
  replaced : ∀ n o f ops c r bm pl, o.replace = some f → ClearRepl env f o.addSource ops r bm pl →
    ∃ b, sut.handle n o ops c r = (b ++ [0x0A], false) ∧ LineText b (.obj (bm ++ pl))

/-- It does not escape small letters in names. -/
def Spells (env : Env) (sut : Sut) : Prop :=
  ∀ n o ops c r pl b, o.replace = none → RecordClean env plainExtras r → Clear env ops r.attrs pl →
    sut.handle n o ops c r = (b ++ [0x0A], false) → Spelled b

end Verif.Verify
