import Verif.Flash.Ideal
import Verif.Flash.Sample

/-
Properties C03 and C04: the line flash writes for a record.
-/

namespace Verif.Props
open Slog Json LogTree Flash

/-- C03. Without ReplaceAttr, for every derivation chain and every record whose
texts are printable (and whose group nesting fits the stack), flash makes
exactly one Write, of one JSON object on one line followed by a newline. -/
theorem C03_flash_one_json_line (env : Env) (x : Extras) (o : Options) (ops : List Op) (r : Record)
    (ho : o.replace = none) (he : EnvClean env) (hops : OpsClean env x.timeFormat ops)
    (hr : RecordClean env x r) (hd : max (opsDepth ops) (listDepth r.attrs) < env.stack) :
    ∃ h, (H.plain (newHandler env o x)).derive ops = some h ∧
      ∃ b ms, h.handle none r = .line (b ++ [0x0A]) ∧ (0x0A : UInt8) ∉ b ∧ Denotes b (.obj ms) := by
  obtain ⟨h, pl, b, h1, _, h3, h4⟩ := handle_clean ho he hops hr hd
  exact ⟨h, h1, b, _, h3, h4.2, h4.1⟩

example : EnvClean Sample.env ∧ OpsClean Sample.env Sample.extras.timeFormat Sample.ops ∧
    RecordClean Sample.env Sample.extras Sample.record ∧
    max (opsDepth Sample.ops) (listDepth Sample.record.attrs) < Sample.env.stack :=
  ⟨Sample.env_clean, Sample.ops_clean, Sample.record_clean, by decide⟩

/-- C04. Under the same conditions the object denotes exactly: the built-in
members, then the attributes of the chain and of the record, each in the groups
opened before it (`place`). -/
theorem C04_flash_content (env : Env) (x : Extras) (o : Options) (ops : List Op) (r : Record)
    (ho : o.replace = none) (he : EnvClean env) (hops : OpsClean env x.timeFormat ops)
    (hr : RecordClean env x r) (hd : max (opsDepth ops) (listDepth r.attrs) < env.stack) :
    ∃ h b pl, (H.plain (newHandler env o x)).derive ops = some h ∧
      h.handle none r = .line (b ++ [0x0A]) ∧
      place env x.timeFormat .viaAny ops r.attrs = some pl ∧
      Denotes b (.obj (builtins env x o.addSource r ++ pl)) := by
  obtain ⟨h, pl, b, h1, h2, h3, h4⟩ := handle_clean ho he hops hr hd
  exact ⟨h, b, pl, h1, h3, h2, h4.1⟩

/-- C04 in slog's own terms (`placeIdeal`, LogValuers transparent), for chains
in which every WithAttrs contributes a member and every group has a name, records
that have only empty attributes or contribute a member, and LogValuers that
resolve to plain kinds of value. -/
theorem C04_flash_content_ideal_partial (env : Env) (x : Extras) (o : Options) (ops : List Op) (r : Record)
    (ho : o.replace = none) (he : EnvClean env) (hops : OpsClean env x.timeFormat ops)
    (hr : RecordClean env x r) (hd : max (opsDepth ops) (listDepth r.attrs) < env.stack)
    (hp : OpsPlain env x.timeFormat ops) (hl : ListPlain env r.attrs)
    (hq : r.attrs.all Attr.isEmpty = true ∨
      listMembers env x.timeFormat .ideal r.attrs ≠ some []) :
    ∃ h b pl, (H.plain (newHandler env o x)).derive ops = some h ∧
      h.handle none r = .line (b ++ [0x0A]) ∧
      placeIdeal env x.timeFormat .ideal ops r.attrs = some pl ∧
      Denotes b (.obj (builtins env x o.addSource r ++ pl)) := by
  obtain ⟨h, b, pl, h1, h2, h3, h4⟩ := C04_flash_content env x o ops r ho he hops hr hd
  rw [(place_ideal he hl hq ops hp).1] at h3
  exact ⟨h, b, pl, h1, h2, h3, h4⟩

example : OpsPlain Sample.env Sample.extras.timeFormat Sample.ops ∧
    ListPlain Sample.env Sample.record.attrs ∧
    listMembers Sample.env Sample.extras.timeFormat .ideal Sample.record.attrs ≠ some [] := by
  refine ⟨?_, ?_, ?_⟩
  · simp only [Sample.ops, OpsPlain, ListPlain, AttrPlain, ValPlain, Sample.i, Sample.s]
    refine ⟨⟨trivial, trivial⟩, ?_, by simp, ⟨trivial, trivial⟩, ?_, trivial⟩ <;>
      intro h <;> cases h
  · simp only [Sample.record, ListPlain, AttrPlain, ValPlain, Sample.i, Sample.lv, Attr.grp,
      emptyAttr, Value.resolve, PlainKind]
    refine ⟨⟨trivial, trivial, ⟨trivial, trivial⟩, trivial⟩, trivial, by decide, trivial⟩
  · intro h; cases h

/-- The full statement of C04: under the conditions of C03 the object denotes
the built-in members and slog's placement of the attributes. -/
def C04_statement : Prop :=
  ∀ (env : Env) (x : Extras) (o : Options) (ops : List Op) (r : Record),
    o.replace = none → EnvClean env → OpsClean env x.timeFormat ops → RecordClean env x r →
    max (opsDepth ops) (listDepth r.attrs) < env.stack →
    ∃ h b pl, (H.plain (newHandler env o x)).derive ops = some h ∧
      h.handle none r = .line (b ++ [0x0A]) ∧
      placeIdeal env x.timeFormat .ideal ops r.attrs = some pl ∧
      Denotes b (.obj (builtins env x o.addSource r ++ pl))

/-- C04 is false: after `WithGroup("g").WithAttrs(nil)` a record without
attributes is printed with `"g": {}`. -/
theorem C04_flash_keeps_empty_group : ¬ C04_statement := by
  intro h
  have hops : OpsClean Sample.env Sample.extras.timeFormat [.group b!"g", .attrs []] := by
    simp only [OpsClean, ListClean]
    exact ⟨by decide, trivial, trivial⟩
  have hr : RecordClean Sample.env Sample.extras { Sample.record with attrs := [] } :=
    { Sample.record_clean with attrs := by simp only [ListClean] }
  obtain ⟨h1, b1, p1, d1, l1, q1, t1⟩ := h Sample.env Sample.extras {} _ _ rfl Sample.env_clean hops
    hr (by decide)
  obtain ⟨h2, b2, p2, d2, l2, q2, t2⟩ := C04_flash_content Sample.env Sample.extras {} _ _ rfl
    Sample.env_clean hops hr (by decide)
  rw [d1] at d2; simp only [Option.some.injEq] at d2; subst d2
  rw [l1] at l2; simp only [HOut.line.injEq, List.append_cancel_right_eq] at l2; subst l2
  have := denotes_unique t1 t2
  simp only [Tree.obj.injEq, List.append_cancel_left_eq] at this
  subst this
  have e1 : placeIdeal Sample.env Sample.extras.timeFormat .ideal [.group b!"g", .attrs []]
    ({ Sample.record with attrs := [] } : Record).attrs = some [] := rfl
  have e2 : place Sample.env Sample.extras.timeFormat .viaAny [.group b!"g", .attrs []]
    ({ Sample.record with attrs := [] } : Record).attrs = some [(b!"g", .obj [])] := rfl
  rw [e1] at q1
  rw [e2, ← q1] at q2
  cases q2

/-- The sample line. -/
example : (Sample.root.derive Sample.ops).map (·.handle none Sample.record) =
    some (.line b!"{\"time\": \"T7\", \"level\": \"WARN\", \"msg\": \"héllo \\\"w\\\"\", \"a\": 1, \"g\": {\"b\": \"x\\ty\", \"h\": {\"c\": -2, \"d\": true}, \"f\": \"z\"}}\n") := by
  decide +kernel

/-- C04, numbers: what flash prints for an integer reads back as that integer. -/
theorem C04_flash_integer_numeral (i : Int) : readInt (decInt i) = some i := readInt_decInt i

end Verif.Props
