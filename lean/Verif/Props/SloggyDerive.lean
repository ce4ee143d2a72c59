import Verif.Sloggy.Clean
import Verif.Flash.Options
import Verif.Flash.Sample
import Verif.Flash.Ideal
import Verif.Props.FlashReplace
import Verif.Props.SloggyLine

/-
Properties C07, C09, C13, C23, C51 (sloggy halves) and C21.
-/

set_option linter.unusedSimpArgs false

namespace Verif.Props.SloggyDerive
open Slog Json LogTree Sloggy
open Flash (EnvClean)
open Flash.Sample (env env_clean i s lv)
open SloggyLine (record)

/-- A sloggy handler obtained from a new one by any derivation steps. -/
def Reachable (h : H) : Prop :=
  ∃ env o ops, (H.plain (newHandler env o)).derive ops = some h

/-- The sample handler. -/
def root : H := .plain (newHandler env {})

/-! ### C07 -/

/-- C07 for sloggy. Without attributes to print, any number of trailing WithGroup
calls changes nothing, for every handler, with or without ReplaceAttr, for every
writer. -/
theorem C07_sloggy_trailing_groups_elided (h h' : H) (names : List Bytes) (ctx ctx' : Flash.Ctx)
    (w : Writer) (r : Record) (hn : ∀ n ∈ names, n ≠ []) (hq : ∀ a ∈ r.attrs, a = emptyAttr)
    (hd : h.derive (names.map .group) = some h') :
    h'.handle ctx w r = h.handle ctx' w r := by
  have hq' : r.attrs.all Attr.isEmpty = true := by
    simp only [List.all_eq_true]
    intro a ha
    rw [hq a ha]; rfl
  have root : ∀ (names : List Bytes) (h h' : H), (∀ n ∈ names, n ≠ []) →
      h.derive (names.map .group) = some h' → h'.root = h.root := by
    intro names
    induction names with
    | nil => intro h h' _ e; simp [H.derive] at e; rw [e]
    | cons n ns ih =>
      intro h h' hn e
      simp only [List.map_cons, H.derive, H.step, Option.bind_some] at e
      rw [ih _ _ (fun m hm => hn m (by simp [hm])) e]
      simp [H.withGroup, hn n (by simp), H.root]
  rw [H.handle_quiet h' ctx w r hq', H.handle_quiet h ctx' w r hq', root names h h' hn hd]

example : ∃ h' st, (root.withGroup b!"p").derive ([b!"g", b!"h"].map .group) = some h' ∧
    h'.handle none sure { time := none, level := 0, message := b!"m", attrs := [emptyAttr] } = .ok st ∧
    st.out.flatten = b!"{\"level\": \"INFO\", \"msg\": \"m\"}\r\n" :=
  ⟨_, _, rfl, rfl, by decide +kernel⟩

/-- The members `ms` put into the innermost place of a chain: every named group is
there, with the attributes given along the chain. -/
def fill (leaf : Value → Option Tree) : List Op → List (Bytes × Tree) → Option (List (Bytes × Tree))
  | [], ms => some ms
  | .attrs bs :: ops, ms => (imagesBy leaf bs).bind fun x => (fill leaf ops ms).map (x ++ ·)
  | .group n :: ops, ms =>
    if n.isEmpty then fill leaf ops ms else (fill leaf ops ms).map fun ms => [(n, .obj ms)]

theorem placeBy_fill {leaf : Value → Option Tree} {as : List Attr} {ms : List (Bytes × Tree)}
    (hq : as.all Attr.isEmpty = false) (hm : imagesBy leaf as = some ms) :
    ∀ ops, placeBy leaf ops as = fill leaf ops ms
  | [] => hm
  | .attrs bs :: ops => by
    simp only [placeBy, fill, placeBy_fill hq hm ops]
    cases imagesBy leaf bs <;> cases fill leaf ops ms <;> rfl
  | .group n :: ops => by
    simp only [placeBy, fill, placeBy_fill hq hm ops, hq, Bool.false_and]
    rfl

theorem fill_append (leaf : Value → Option Tree) (ms : List (Bytes × Tree)) (names : List Bytes)
    (hn : ∀ n ∈ names, n ≠ []) : ∀ ops, fill leaf (ops ++ names.map .group) ms =
      fill leaf ops (names.foldr (fun n ms => [(n, .obj ms)]) ms)
  | [] => by
    induction names with
    | nil => rfl
    | cons n ns ih =>
      have := ih fun m hm => hn m (by simp [hm])
      simp only [List.nil_append, fill] at this
      simp only [List.nil_append, List.map_cons, fill, this]
      simp [hn n (by simp)]
  | .attrs bs :: ops => by simp only [List.cons_append, fill, fill_append leaf ms names hn ops]
  | .group n :: ops => by simp only [List.cons_append, fill, fill_append leaf ms names hn ops]

/-- C07, other half: if some attribute of the record is not empty, all the groups
are printed: the members of the record stand inside the trailing groups, each
inside the one before, and these inside all the groups of the chain before. -/
theorem C07_sloggy_groups_printed (env : Env) (o : Flash.Options) (ops : List Op) (names : List Bytes)
    (r : Record) (ho : o.replace = none) (he : EnvClean env)
    (hops : SOpsClean env (ops ++ names.map .group)) (hn : ∀ n ∈ names, n ≠ []) (hr : SRecordClean env r)
    (hd : max (opsDeep (ops ++ names.map .group)) (listDeep r.attrs) < env.stack)
    (hl : ∃ a ∈ r.attrs, a ≠ emptyAttr) :
    ∃ h ms pl st b, (H.plain (newHandler env o)).derive (ops ++ names.map .group) = some h ∧
      imagesBy (sLeafTree env) r.attrs = some ms ∧
      fill (sLeafTree env) ops (names.foldr (fun n ms => [(n, .obj ms)]) ms) = some pl ∧
      h.handle none sure r = .ok st ∧ st.out.flatten = b ++ [0x0D, 0x0A] ∧
      Denotes b (.obj (sBuiltins env o.addSource r ++ pl)) := by
  have hq : r.attrs.all Attr.isEmpty = false := by
    obtain ⟨a, ha, hne⟩ := hl
    rw [Bool.eq_false_iff]
    intro h
    exact hne (Flash.isEmpty_iff.1 (List.all_eq_true.1 h a ha))
  obtain ⟨h, pl, st, b, h1, h2, h3, h4, h5⟩ := handle_clean (o := o) ho he hops hr hd
  obtain ⟨ms, m1, _⟩ := clean_list (S := viewOf env o) ho [] r.attrs _ hr.attrs (Nat.le_refl _)
  have m1' : imagesBy (sLeafTree env) r.attrs = some ms := m1
  rw [placeBy_fill hq m1', fill_append _ _ _ hn] at h2
  exact ⟨h, ms, pl, st, b, h1, m1', h2, h3, h4, h5.1⟩

example : SOpsClean env (Flash.Sample.ops ++ [b!"p", b!"q"].map .group) ∧ SRecordClean env record ∧
    ∃ a ∈ record.attrs, a ≠ emptyAttr := by
  refine ⟨?_, SloggyLine.sample_clean.2, _, List.Mem.head _, by intro h; cases h⟩
  have := SloggyLine.sample_clean.1
  simp only [Flash.Sample.ops, SOpsClean, List.cons_append, List.nil_append, List.map_cons,
    List.map_nil] at this ⊢
  exact ⟨this.1, this.2.1, this.2.2.1, by decide, by decide, trivial⟩

/-! ### C09 -/

/-- C09 in full, for sloggy. -/
def C09_statement : Prop :=
  ∀ (h : H) (w : Writer) (r : Record), Reachable h →
    (h.withGroup []).handle none w r = h.handle none w r ∧
    (h.withAttrs []).map (·.handle none w r) = some (h.handle none w r)

/-- C09 is false for handlers fresh from WithGroup: both calls make the group
appear in records without attributes. -/
theorem C09_sloggy_fails_after_group : ¬ C09_statement := by
  intro hs
  have := (hs (root.withGroup b!"g") sure { time := none, level := 0, message := [] }
    ⟨env, {}, [.group b!"g"], rfl⟩).1
  revert this
  decide +kernel

/-- The same for `WithAttrs(nil)`. -/
theorem C09_sloggy_withAttrs_fails_after_group : ∃ (h : H) (r : Record), Reachable h ∧
    (h.withAttrs []).map (·.handle none sure r) ≠ some (h.handle none sure r) :=
  ⟨root.withGroup b!"g", { time := none, level := 0, message := [] },
    ⟨env, {}, [.group b!"g"], rfl⟩, by decide +kernel⟩

theorem withAttrs_nil (h : Handler) : h.withAttrs [] = some h := by
  simp only [Handler.withAttrs, addAttributes, addAll]
  have : ∀ h : Handler, { h with pfx := h.pfx } = h := fun _ => rfl
  by_cases hp : h.pfx = []
  · obtain ⟨e, o, p, x, g⟩ := h
    simp only at hp
    subst hp
    rfl
  · simp [hp, List.length_pos_iff]

/-- C09 for handlers that do not come straight from WithGroup: the calls return
the same handler. -/
theorem C09_sloggy_neutral_plain_partial (p : Handler) :
    (H.plain p).withGroup [] = .plain p ∧ (H.plain p).withAttrs [] = some (.plain p) := by
  refine ⟨rfl, ?_⟩
  simp [H.withAttrs, withAttrs_nil, H.core]

/-- C09 for all handlers and writers and records with a non-empty attribute. -/
theorem C09_sloggy_neutral_loud_partial (h : H) (w : Writer) (r : Record)
    (hl : ∃ a ∈ r.attrs, a ≠ emptyAttr) :
    (h.withGroup []).handle none w r = h.handle none w r ∧
    (h.withAttrs []).map (·.handle none w r) = some (h.handle none w r) := by
  have hq : r.attrs.all Attr.isEmpty = false := by
    obtain ⟨a, ha, hne⟩ := hl
    rw [Bool.eq_false_iff]
    intro h
    exact hne (Flash.isEmpty_iff.1 (List.all_eq_true.1 h a ha))
  rw [H.handle_loud h w r hq]
  refine ⟨rfl, ?_⟩
  simp [H.withAttrs, withAttrs_nil, H.handle]

example : ∃ a ∈ record.attrs, a ≠ emptyAttr := ⟨_, List.Mem.head _, by intro h; cases h⟩

/-! ### C13 -/

/-- C13 for sloggy. Whatever the options, at every moment and for every derived
handler: a level is enabled exactly if it is at least the level the options answer
at that moment; without options or level, exactly from Info up. -/
theorem C13_sloggy_enabled (env : Env) (o : Option Flash.RawOptions) (ops : List Op)
    (h : H) (hd : (H.plain (newHandler env (fixOptions o).view)).derive ops = some h) (now : Nat)
    (level : Int) :
    (∀ opts lv, o = some opts → opts.level = some lv → (h.enabled now level = true ↔ lv now ≤ level)) ∧
    ((o = none ∨ ∃ opts, o = some opts ∧ opts.level = none) →
      (h.enabled now level = true ↔ 0 ≤ level)) := by
  have hu : ∀ (ops : List Op) (g h : H), g.derive ops = some h → h.core.options = g.core.options := by
    intro ops
    induction ops with
    | nil => intro g h e; cases e; rfl
    | cons op ops ih =>
      intro g h e
      simp only [H.derive] at e
      cases op with
      | attrs as =>
        simp only [H.step] at e
        cases hw : g.withAttrs as with
        | none => rw [hw] at e; cases e
        | some g' =>
          rw [hw] at e
          rw [ih g' h e]
          simp only [H.withAttrs, Handler.withAttrs, Option.map_eq_some_iff] at hw
          obtain ⟨p, hp, rfl⟩ := hw
          split at hp <;> cases hp <;> rfl
      | group n =>
        simp only [H.step, Option.bind_some] at e
        rw [ih _ h e]
        unfold H.withGroup
        split <;> rfl
  have e : h.enabled now level = decide ((fixOptions o).view.level now ≤ level) := by
    rw [H.enabled, hu ops _ h hd]; rfl
  rw [e]
  constructor
  · rintro opts lv rfl hl
    simp [Flash.RawOptions.view, fixOptions, Flash.fixOptions, hl]
  · rintro (rfl | ⟨opts, rfl, hl⟩)
    · simp only [Flash.RawOptions.view, fixOptions, Flash.fixOptions, levelInfo, Option.getD_none,
        Option.getD_some]
      exact decide_eq_true_iff
    · simp [Flash.RawOptions.view, fixOptions, Flash.fixOptions, hl, levelInfo]

/-- A level that changes with time, seen through a derived handler. -/
example : ∃ h, (H.plain (newHandler env
      (fixOptions (some { level := some fun t => if t < 5 then -4 else 8 })).view)).derive
    [.group b!"g", .attrs [s b!"a" b!"b"]] = some h ∧ h.enabled 4 0 = true ∧ h.enabled 5 0 = false :=
  ⟨_, rfl, by decide, by decide⟩

/-! ### C23 -/

/-- C23 in full, for sloggy. -/
def C23_statement : Prop :=
  ∀ (h : H) (ctx : Flash.Ctx) (w : Writer) (r : Record), Reachable h →
    h.handle ctx w r = h.handle none w r

/-- C23 is false: with a context that has the string "x" under the key
"deadGroup", a handler with an open group sends a record whose first attribute
is a group named "x" to the parent handler. -/
theorem C23_sloggy_context_matters : ¬ C23_statement := by
  intro hs
  have := hs (root.withGroup b!"g") (some b!"x") sure
    { time := none, level := 0, message := [], attrs := [.grp b!"x" [.mk b!"k" (.bool true)]] }
    ⟨env, {}, [.group b!"g"], rfl⟩
  revert this
  decide +kernel

/-- C23 with the exact guard: the context matters only if it holds the name of
the record's first non-empty attribute and that attribute is a group. -/
theorem C23_sloggy_context_partial (h : H) (ctx : Flash.Ctx) (w : Writer) (r : Record)
    (hc : ∀ dead a, ctx = some dead → dead ≠ [] → r.attrs.find? (fun a => !a.isEmpty) = some a →
      a.key = dead → a.value.isGroup = false) :
    h.handle ctx w r = h.handle none w r := by
  cases h with
  | plain h => rfl
  | group h n p =>
    have : Flash.skipGroup ctx r.attrs = Flash.skipGroup none r.attrs := by
      unfold Flash.skipGroup
      cases hf : Flash.firstNonEmpty r.attrs with
      | none => rfl
      | some a =>
        cases ctx with
        | none => rfl
        | some dead =>
          simp only
          by_cases hd : dead = []
          · simp [hd]
          · by_cases hk : a.key = dead
            · have := hc dead a rfl hd hf hk
              simp [this]
            · simp [hk]
    simp only [H.handle, this]

example : ∀ dead a, (some b!"request-id" : Flash.Ctx) = some dead → dead ≠ [] →
    record.attrs.find? (fun a => !a.isEmpty) = some a → a.key = dead → a.value.isGroup = false := by
  intro dead a hd _ ha hk
  have : record.attrs.find? (fun a => !a.isEmpty) =
    some (.grp b!"h" [i b!"c" (-2), emptyAttr, .grp b!"" [.mk b!"d" (.bool true)]]) := rfl
  rw [this] at ha
  simp at ha hd
  subst ha hd
  revert hk
  simp only [Attr.grp, Attr.key_mk]
  decide

/-! ### C51 -/

/-- C51 for sloggy: for every handler, record and writer. Let `calls` be the Write
calls of the undisturbed run. If none of them fails, the call has the same
outcome and output as that run. If the first failing one is call `i`, taking `k`
bytes, Handle returns an error, and the writer has got the calls before `i` and
those `k` bytes, nothing else. -/
theorem C51_sloggy_write_failure (h : H) (ctx : Flash.Ctx) (w : Writer) (r : Record) (st0 : St)
    (h0 : h.handle ctx sure r = .ok st0 ∨ h.handle ctx sure r = .err st0) :
    ((∀ i, i < st0.out.length → w i = none) → h.handle ctx w r = h.handle ctx sure r) ∧
    ∀ i k, (hi : i < st0.out.length) → (∀ j, j < i → w j = none) → w i = some k →
      ∃ s, h.handle ctx w r = .err ⟨st0.out.take i ++ [st0.out[i].take k], s⟩ := by
  have hf := H.handle_follows h ctx w r
  rcases h0 with h0 | h0 <;>
  · rw [h0] at hf ⊢
    obtain ⟨_, f2, f3⟩ := hf
    exact ⟨fun hw => f2 fun i _ hi => hw i hi, fun i k hi hj hk =>
      f3 i k (Nat.zero_le _) hi (fun j _ h => hj j h) hk⟩

/-- The third call (the separator after the key of the level) takes one byte and
fails. -/
example : ∃ st0, root.handle none sure record = .ok st0 ∧ 2 < st0.out.length ∧
    root.handle none (fun i => if i = 2 then some 1 else none) record =
      .err ⟨[b!"{", b!"\"time\"", b!":"], true⟩ :=
  ⟨_, rfl, by decide +kernel, by decide +kernel⟩

/-! ### C21 -/

/-- The default extras of flash. -/
theorem default_view (l : Int) (s : Bytes) (hl : (l, s) ∈ [((-4 : Int), b!"DEBUG"), (0, b!"INFO"),
    (4, b!"WARN"), (8, b!"ERROR")]) :
    (Flash.fixExtras none).view.levelNames l = s ∧ levelString l = s := by
  simp only [List.mem_cons, List.not_mem_nil, or_false, Prod.mk.injEq] at hl
  rcases hl with ⟨rfl, rfl⟩ | ⟨rfl, rfl⟩ | ⟨rfl, rfl⟩ | ⟨rfl, rfl⟩ <;> exact ⟨by decide, by decide⟩

/-- The members up to the source are the same in both handlers; the source has
the same members in a different order. -/
def common (env : Env) (r : Record) : List (Bytes × Tree) :=
  (match r.time with
    | none => []
    | some t => [(b!"time", .str (env.formatTime sLayout t))]) ++
  [(b!"level", .str (levelString r.level)), (b!"msg", .str r.message)]

mutual
theorem attrDepth_deep : ∀ a : Attr, attrDepth a ≤ attrDeep a
  | .mk k v => by rw [attrDepth, attrDeep]; exact valDepth_deep v
theorem valDepth_deep : ∀ v : Value, valDepth v ≤ valDeep v
  | .group as => by
    have := listDepth_deep as
    rw [valDepth, valDeep]; omega
  | .logValuer _ _ => Nat.zero_le _
  | .any _ | .bool _ | .duration _ | .float64 _ | .int64 _ | .string _ | .time _ | .uint64 _ => Nat.zero_le _
theorem listDepth_deep : ∀ as : List Attr, listDepth as ≤ listDeep as
  | [] => Nat.le_refl _
  | a :: as => by
    have h1 := attrDepth_deep a
    have h2 := listDepth_deep as
    rw [listDepth, listDeep]; omega
end

theorem opsDepth_deep : ∀ ops : List Op, opsDepth ops ≤ opsDeep ops
  | [] => Nat.le_refl _
  | .attrs as :: ops => by
    have h1 := listDepth_deep as
    have h2 := opsDepth_deep ops
    rw [opsDepth, opsDeep]; omega
  | .group _ :: ops => opsDepth_deep ops

/-- What is printable for both handlers: the conditions of C03 and C19 on the
chain and the record, LogValuers of the kinds flash resolves faithfully, objects
that show themselves the same way by whatever method. -/
structure BothClean (env : Env) (ops : List Op) (r : Record) : Prop where
  flashOps : OpsClean env sLayout ops
  sloggyOps : SOpsClean env ops
  record : SRecordClean env r
  time : ∀ t, r.time = some t → decodeBody (env.formatTime sLayout t) = some (env.formatTime sLayout t)
  attrs : ListClean env sLayout r.attrs
  opsPlain : OpsPlainKinds env ops
  attrsPlain : ListPlain env r.attrs
  opsAlike : OpsAlike ops
  attrsAlike : ListAlike r.attrs
  level : r.level = -4 ∨ r.level = 0 ∨ r.level = 4 ∨ r.level = 8
  stack : max (opsDeep ops) (listDeep r.attrs) < env.stack

/-- C21, all but the order of the members of the source. For all options without
ReplaceAttr, every chain and every record with a standard level whose content is
printable for both handlers: the two lines are JSON objects with the same
members in the same order with equal values, except that if a source is shown
its first two members come in a different order. -/
theorem C21_sloggy_flash_agree_partial (env : Env) (o : Flash.RawOptions) (ops : List Op) (r : Record)
    (ho : o.replace = none) (he : EnvClean env) (hc : BothClean env ops r) :
    ∃ (hF : Flash.H) (hS : H) (bF bS : Bytes) (st : St) (pl srcF srcS : List (Bytes × Tree)),
      (Flash.H.plain (Flash.build env (some o) none)).derive ops = some hF ∧
      (H.plain (newHandler env (fixOptions (some o)).view)).derive ops = some hS ∧
      hF.handle none r = .line (bF ++ [0x0A]) ∧
      hS.handle none sure r = .ok st ∧ st.out.flatten = bS ++ [0x0D, 0x0A] ∧
      Denotes bF (.obj (common env r ++ srcF ++ pl)) ∧ Denotes bS (.obj (common env r ++ srcS ++ pl)) ∧
      ((o.addSource = false ∨ r.pc = 0) → srcF = [] ∧ srcS = []) ∧
      (o.addSource = true → r.pc ≠ 0 →
        srcF = [(b!"source", .obj [(b!"function", .str (env.frame r.pc).1),
          (b!"file", .str (env.frame r.pc).2.1), (b!"line", .num (decNat (env.frame r.pc).2.2))])] ∧
        srcS = [(b!"source", .obj [(b!"file", .str (env.frame r.pc).2.1),
          (b!"function", .str (env.frame r.pc).1), (b!"line", .num (decNat (env.frame r.pc).2.2))])]) := by
  have hlv : (Flash.fixExtras none).view.levelNames r.level = levelString r.level := by
    rcases hc.level with h | h | h | h <;> rw [h] <;> decide
  have ho' : (fixOptions (some o)).view.replace = none := by
    simp only [fixOptions, Flash.fixOptions, Option.getD_some]
    split <;> exact ho
  have hsrc : (fixOptions (some o)).view.addSource = o.addSource := by
    simp only [fixOptions, Flash.fixOptions, Option.getD_some]
    split <;> rfl
  have hrc : Flash.RecordClean env (Flash.fixExtras none).view r :=
    { timeKey := by decide, levelKey := by decide, messageKey := by decide, sourceKey := by decide
      time := hc.time
      level := by rw [hlv]; exact Sloggy.Quotable.valid (levelString_quotable env.isPrint _)
      message := Sloggy.Quotable.valid hc.record.message
      function := hc.record.function
      file := hc.record.file
      attrs := hc.attrs }
  obtain ⟨hF, pl, bF, f1, f2, f3, f4⟩ := Flash.handle_clean (x := (Flash.fixExtras none).view)
    (o := (fixOptions (some o)).view) ho' he hc.flashOps hrc
    (by
      have h1 := opsDepth_deep ops
      have h2 := listDepth_deep r.attrs
      have h3 := hc.stack
      omega)
  obtain ⟨hS, pl', st, bS, s1, s2, s3, s4, s5⟩ := handle_clean (o := (fixOptions (some o)).view) ho' he
    hc.sloggyOps hc.record hc.stack
  have e : pl' = pl := by
    have h1 : place env sLayout .viaAny ops r.attrs = some pl := f2
    rw [place_plain he hc.attrsPlain ops hc.opsPlain, place_alike env hc.attrsAlike ops hc.opsAlike, s2] at h1
    exact Option.some.inj h1
  subst e
  have eF : Flash.builtins env (Flash.fixExtras none).view o.addSource r = common env r ++
      (if o.addSource && r.pc != 0 then
        [(b!"source", .obj [(b!"function", .str (env.frame r.pc).1),
          (b!"file", .str (env.frame r.pc).2.1), (b!"line", .num (decNat (env.frame r.pc).2.2))])]
      else []) := by
    simp only [Flash.builtins, common, hlv]
    rfl
  rw [hsrc] at f4 s5
  rw [eF] at f4
  refine ⟨hF, hS, bF, bS, st, pl', _, _, f1, s1, f3, s3, s4, f4.1, s5.1, ?_, ?_⟩
  · rintro (h | h) <;> simp [h]
  · intro h1 h2
    have : (o.addSource && r.pc != 0) = true := by simp [h1, h2]
    rw [if_pos this, if_pos this]
    exact ⟨rfl, rfl⟩

/-- C21 when no source is shown: the two lines denote the same tree. -/
theorem C21_sloggy_flash_same_partial (env : Env) (o : Flash.RawOptions) (ops : List Op) (r : Record)
    (ho : o.replace = none) (he : EnvClean env) (hc : BothClean env ops r)
    (hsrc : o.addSource = false ∨ r.pc = 0) :
    ∃ (hF : Flash.H) (hS : H) (bF bS : Bytes) (st : St) (t : Tree),
      (Flash.H.plain (Flash.build env (some o) none)).derive ops = some hF ∧
      (H.plain (newHandler env (fixOptions (some o)).view)).derive ops = some hS ∧
      hF.handle none r = .line (bF ++ [0x0A]) ∧
      hS.handle none sure r = .ok st ∧ st.out.flatten = bS ++ [0x0D, 0x0A] ∧
      Denotes bF t ∧ Denotes bS t := by
  obtain ⟨hF, hS, bF, bS, st, pl, x, y, h1, h2, h3, h4, h5, h6, h7, h8, _⟩ :=
    C21_sloggy_flash_agree_partial env o ops r ho he hc
  obtain ⟨rfl, rfl⟩ := h8 hsrc
  exact ⟨hF, hS, bF, bS, st, _, h1, h2, h3, h4, h5, h6, h7⟩

/-- A record with a standard level for the examples. -/
def both : Record :=
  { time := some 7, level := 4, message := b!"héllo \"w\"", pc := 3,
    attrs := [.grp b!"h" [i b!"c" (-2), emptyAttr, .grp b!"" [.mk b!"d" (.bool true)]],
      lv b!"f" (.string b!"z"),
      .mk b!"ip" (.any (.obj { net := some b!"::1", stringer := some b!"::1", marshal := .ok b!"0" }))] }

/-- A case meeting the hypotheses. -/
theorem both_clean : BothClean env Flash.Sample.ops both where
  flashOps := Flash.Sample.ops_clean
  sloggyOps := SloggyLine.sample_clean.1
  record := by
    have h := SloggyLine.sample_clean.2
    refine ⟨h.time, h.message, h.function, h.file, ?_⟩
    have q : ∀ {s : Bytes}, s.all (fun a => 0x20 ≤ a && a < 0x7F) = true → Quotable env.isPrint s :=
      quotable_ascii
    simp only [both, SListClean, i, s, lv, Attr.grp, emptyAttr, SAttrClean, SValClean, SLeafClean,
      SAnyClean, Value.resolve]
    exact ⟨⟨q (by decide), ⟨q (by decide), trivial⟩, ⟨q (by decide), trivial⟩, ⟨q (by decide),
        ⟨q (by decide), trivial⟩, trivial⟩, trivial⟩,
        ⟨q (by decide), ⟨rfl, rfl⟩, q (by decide)⟩, ⟨q (by decide), q (by decide)⟩, trivial⟩
  time := fun t _ => Flash.Sample.body_T t
  attrs := by
    simp only [both, ListClean, i, lv, Attr.grp, emptyAttr, AttrClean, ValClean, LeafClean,
      AnyClean, Value.anyOf, Value.resolve]
    refine ⟨⟨by decide, ⟨by decide, trivial⟩, ⟨by decide, trivial⟩, ⟨by decide, ⟨by decide, trivial⟩,
      trivial⟩, trivial⟩, ⟨by decide, ⟨.str b!"z", ?_⟩, rfl⟩, ⟨by decide, by decide⟩, trivial⟩
    exact Flash.strText_text (by decide)
  opsPlain := by
    simp only [Flash.Sample.ops, OpsPlainKinds, ListPlain, AttrPlain, ValPlain, i, s]
    exact ⟨⟨trivial, trivial⟩, ⟨trivial, trivial⟩, trivial⟩
  attrsPlain := by
    simp only [both, ListPlain, AttrPlain, ValPlain, i, lv, Attr.grp, emptyAttr, Value.resolve, PlainKind]
    exact ⟨⟨trivial, trivial, ⟨trivial, trivial⟩, trivial⟩, by decide, trivial, trivial⟩
  opsAlike := by
    simp only [Flash.Sample.ops, OpsAlike, ListAlike, AttrAlike, ValAlike, LeafAlike, i, s, and_self]
  attrsAlike := by
    simp [both, ListAlike, AttrAlike, ValAlike, LeafAlike, ObjAlike, i, lv, Attr.grp, emptyAttr]
  level := .inr (.inr (.inl rfl))
  stack := by decide

/-- With it, the two lines denote the same tree. -/
example : ∃ (hF : Flash.H) (hS : H) (bF bS : Bytes) (st : St) (t : Tree),
    (Flash.H.plain (Flash.build env (some {}) none)).derive Flash.Sample.ops = some hF ∧
    (H.plain (newHandler env (fixOptions (some {})).view)).derive Flash.Sample.ops = some hS ∧
    hF.handle none both = .line (bF ++ [0x0A]) ∧ hS.handle none sure both = .ok st ∧ st.out.flatten = bS ++ [0x0D, 0x0A] ∧
    Denotes bF t ∧ Denotes bS t :=
  C21_sloggy_flash_same_partial env {} Flash.Sample.ops both rfl env_clean both_clean (.inl rfl)

/-- C21 in full: the two lines denote the same tree. -/
def C21_statement : Prop :=
  ∀ (env : Env) (o : Flash.RawOptions) (ops : List Op) (r : Record) (hF : Flash.H) (hS : H)
    (bF bS : Bytes) (st : St) (t t' : Tree), o.replace = none → EnvClean env → BothClean env ops r →
    (Flash.H.plain (Flash.build env (some o) none)).derive ops = some hF →
    (H.plain (newHandler env (fixOptions (some o)).view)).derive ops = some hS →
    hF.handle none r = .line (bF ++ [0x0A]) → hS.handle none sure r = .ok st →
    st.out.flatten = bS ++ [0x0D, 0x0A] → Denotes bF t → Denotes bS t' → t = t'

/-- C21 is false when a source is shown: flash writes function, file, line, and
sloggy file, function, line. -/
theorem C21_sloggy_flash_source_order : ¬ C21_statement := by
  intro h
  obtain ⟨hF, hS, bF, bS, st, pl, x, y, h1, h2, h3, h4, h5, h6, h7, _, h9⟩ :=
    C21_sloggy_flash_agree_partial env { addSource := true } Flash.Sample.ops both rfl env_clean both_clean
  have e := h env { addSource := true } Flash.Sample.ops both hF hS bF bS st _ _ rfl env_clean both_clean
    h1 h2 h3 h4 h5 h6 h7
  obtain ⟨rfl, rfl⟩ := h9 rfl (by decide)
  simp at e

end Verif.Props.SloggyDerive
