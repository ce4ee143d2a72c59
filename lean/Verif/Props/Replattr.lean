import Verif.Replace.Replattr
import Verif.Flash.Sample

/-
Property C26: the replattr handler (flash with unusual names and a ReplaceAttr that
undoes them) against a plain flash handler.
-/

namespace Verif.Props.Replattr
open Slog Flash Letters Replace

/-- Both handlers made with the same options, derived alike. -/
def flashLine (env : Env) (o : RawOptions) (ops : List Op) (ctx : Ctx) (r : Record) : Option HOut :=
  ((H.plain (build env (some o) none)).derive ops).map fun h => h.handle ctx r

/-- The same for the replattr handler. -/
def replattrLine (L : Lib) (env : Env) (o : RawOptions) (ops : List Op) (ctx : Ctx) (r : Record) : Option HOut :=
  ((H.plain (replattr L env o)).derive ops).map fun h => h.handle ctx r

/-- C26. The whole line (or error) is the same byte for byte, for every chain of
derivations and every record (of any level: a level without
a name is shown as "" by both), with or without a ReplaceAttr of the
user, as long as no attribute uses one of the four names `message`, `msg`, `lvl`,
`level`. -/
theorem C26_replattr_same_line {L : Lib} (hL : Good L) (env : Env) (hs : 0 < env.stack) (o : RawOptions)
    (hu : UserPlain o.replace) (ops : List Op) (ctx : Ctx) (r : Record)
    (hops : ∀ op ∈ ops, OpPlain o.replace.isSome op) (ha : ListPlain o.replace.isSome r.attrs) :
    replattrLine L env o ops ctx r = flashLine env o ops ctx r := by
  unfold replattrLine flashLine
  rcases twinH_derive hu ops (.plain (twin_start L env o)) hops with ⟨e, e'⟩ | ⟨g, g', e, e', t⟩
  · rw [e, e']
  · rw [e, e', Option.map_some, Option.map_some, twinH_handle hL hu hs ha t]

/-- C26, the built-in fields alone: whatever the attributes are, the fields written
ahead of them are the same. -/
theorem C26_replattr_same_basics {L : Lib} (hL : Good L) (env : Env) (hs : 0 < env.stack) (o : RawOptions)
    (hu : UserPlain o.replace) (r : Record) :
    (replattr L env o).basics r = (build env (some o) none).basics r :=
  twin_basics hL hu hs (twin_start L env o)

/-- A ReplaceAttr for the examples: removes `secret`, renames `msg`. -/
def hide : AttrFn := fun _ a =>
  if a.key = b!"secret" then emptyAttr else if a.key = b!"msg" then .mk b!"text" a.value else a

theorem hide_plain : UserPlain (some hide) := by
  intro f hf gs a ha
  cases hf
  unfold hide
  split
  · simp [emptyAttr, Attr.value, ValPlain]
  · split <;> exact ha

/-- A case: attributes, a group, a removed attribute, a renamed built-in field. -/
example : replattrLine asciiLib Sample.env { replace := some hide, addSource := true }
      [.attrs [Sample.s b!"secret" b!"x", Sample.s b!"a" b!"b"], .group b!"g"] none
      { time := some 7, level := 4, message := b!"hi", pc := 3,
        attrs := [.grp b!"h" [Sample.s b!"secret" b!"y", Sample.s b!"c" b!"d"]] } =
    some (.line (b!"{\"time\": \"T7\", \"level\": \"WARN\", \"text\": \"hi\", \"source\": " ++
      b!"{\"function\":\"main.f\",\"file\":\"main.go\",\"line\":3}, \"a\": \"b\", \"g\": {\"h\": {\"c\": \"d\"}}}\n")) := by
  decide +kernel

example : UserPlain (some hide) ∧ Good asciiLib ∧ 0 < Sample.env.stack ∧
    OpPlain true (.attrs [Sample.s b!"secret" b!"x", Sample.s b!"a" b!"b"]) ∧
    ListPlain true [.grp b!"h" [Sample.s b!"secret" b!"y", Sample.s b!"c" b!"d"]] := by
  refine ⟨hide_plain, ascii_good, by decide, ?_, ?_⟩ <;>
    simp [OpPlain, ListPlain, AttrPlain, ValPlain, Sample.s, Attr.grp, reserved]

/-- The guard is needed: an attribute `lvl` inside a group is renamed, because flash
tells the replacement function that a name from its extras is at the top. -/
theorem C26_replattr_renames_in_group :
    replattrLine asciiLib Sample.env {} [.group b!"g"] none
      { time := none, level := 0, message := b!"m", pc := 0, attrs := [Sample.s b!"lvl" b!"x"] } =
    some (.line b!"{\"level\": \"INFO\", \"msg\": \"m\", \"g\": {\"level\": \"X\"}}\n") ∧
    flashLine Sample.env {} [.group b!"g"] none
      { time := none, level := 0, message := b!"m", pc := 0, attrs := [Sample.s b!"lvl" b!"x"] } =
    some (.line b!"{\"level\": \"INFO\", \"msg\": \"m\", \"g\": {\"lvl\": \"x\"}}\n") := by
  constructor <;> decide +kernel

end Verif.Props.Replattr
