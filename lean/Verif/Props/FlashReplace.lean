import Verif.Flash.Replace
import Verif.Flash.Ideal
import Verif.Flash.Sample
import Verif.Spec.JsonSound
import Verif.Spec.Resolve

/-
Properties C16, C17 and C18: ReplaceAttr and LogValuers in flash.
-/

set_option linter.unusedSimpArgs false

namespace Verif.Props
open Slog Json LogTree Flash

/-- C16, what flash does: for every replacement function, chain and record, if
the attributes stand for the members `bm` (built-in fields) and `pl` (the rest)
under the specification `RAttr`, the line is one JSON object with exactly those
members, in that order. The function is told the names given to WithGroup,
outermost first, and no names for built-in fields. It is not told the names of
group attributes around an attribute (`nest := false` in `replOf`); this part
of the property fails, see `C16_flash_nested_names`. -/
theorem C16_flash_replaced_partial (env : Env) (x : Extras) (o : Options) (f : AttrFn) (ops : List Op)
    (r : Record) (n : Nat) (bm pl : List (Bytes × Tree)) (ho : o.replace = some f)
    (hn : n < env.stack)
    (hb : RList (replOf env x f) (opened (r.attrs.all Attr.isEmpty) [] ops) n
      (basicAttrs env x o.addSource r) bm)
    (hp : RPlace (replOf env x f) n [] ops r.attrs pl) :
    ∃ h b, (H.plain (newHandler env o x)).derive ops = some h ∧
      h.handle none r = .line (b ++ [0x0A]) ∧ LineText b (.obj (bm ++ pl)) :=
  handle_replace ho hn hb hp

/-- A replacement function that shows the last group name it was told, in place
of any value, and drops the time. -/
def tell : AttrFn := fun gs a =>
  match a with
  | .mk k (.group as) => .mk k (.group as)
  | .mk k v =>
    if k == b!"time" then emptyAttr else if k == b!"level" || k == b!"msg" then .mk k v
    else .mk k (.string (gs.getLastD b!"none"))

/-- The record used with `tell`: an attribute in a group attribute. -/
def tellRecord : Record :=
  { time := some 7, level := 0, message := b!"m", attrs := [.grp b!"g" [Sample.i b!"a" 1]] }

theorem tell_basics (nest : Bool) (gs : List Bytes) :
    RList { replOf Sample.env Sample.extras tell with nest } gs 1
      (basicAttrs Sample.env Sample.extras false tellRecord)
      [(b!"level", .str b!"INFO"), (b!"msg", .str b!"m")] := by
  have e : basicAttrs Sample.env Sample.extras false tellRecord =
      [.mk b!"time" (.time 7), .mk b!"level" (.string b!"INFO"), .mk b!"msg" (.string b!"m")] := rfl
  rw [e]
  refine .cons (x := []) (.gone rfl) (.cons (x := [_]) ?_ (.cons (x := [_]) (y := []) ?_ .nil))
  · exact .leaf (v := .string b!"INFO") rfl rfl (by decide) ⟨by simp only [LeafClean]; decide, rfl⟩
  · exact .leaf (v := .string b!"m") rfl rfl (by decide) ⟨by simp only [LeafClean]; decide, rfl⟩

theorem tell_place (nest : Bool) :
    RPlace { replOf Sample.env Sample.extras tell with nest } 1 [] [.group b!"h"] tellRecord.attrs
      [(b!"h", .obj [(b!"g", .obj [(b!"a", .str (if nest then b!"g" else b!"h"))])])] := by
  have hq : ¬ (([.grp b!"g" [Sample.i b!"a" 1]] : List Attr).all Attr.isEmpty && groupsOnly []) = true := by
    decide
  show RPlace _ _ _ _ [.grp b!"g" [Sample.i b!"a" 1]] _
  rw [RPlace, if_neg (by decide), if_neg hq]
  refine ⟨by decide, _, ?_, rfl⟩
  rw [RPlace]
  refine .cons (x := [_]) (y := []) (.group (as := [Sample.i b!"a" 1]) (ms := [_]) rfl (by simp) (by decide)
    rfl ?_ (by simp)) .nil
  refine .cons (x := [_]) (y := []) (.leaf (v := .string (if nest then b!"g" else b!"h")) ?_ rfl
    (by decide) ?_) .nil
  · cases nest <;> rfl
  · cases nest <;> exact ⟨by simp only [LeafClean]; decide, rfl⟩

/-- A case meeting the hypotheses, and the line written. -/
example : RList (replOf Sample.env Sample.extras tell) (opened false [] [.group b!"h"]) 1
    (basicAttrs Sample.env Sample.extras false tellRecord)
      [(b!"level", .str b!"INFO"), (b!"msg", .str b!"m")] ∧
    RPlace (replOf Sample.env Sample.extras tell) 1 [] [.group b!"h"] tellRecord.attrs
      [(b!"h", .obj [(b!"g", .obj [(b!"a", .str b!"h")])])] :=
  ⟨tell_basics false _, tell_place false⟩

example : ((H.plain (newHandler Sample.env { replace := some tell } Sample.extras)).derive
      [.group b!"h"]).map (·.handle none tellRecord) =
    some (.line b!"{\"level\": \"INFO\", \"msg\": \"m\", \"h\": {\"g\": {\"a\": \"h\"}}}\n") := by
  decide +kernel

/-- C16 in full: the names of group attributes are passed as well. -/
def C16_flash_statement : Prop :=
  ∀ (env : Env) (x : Extras) (o : Options) (f : AttrFn) (ops : List Op) (r : Record) (n : Nat)
    (bm pl : List (Bytes × Tree)), o.replace = some f → n < env.stack →
    RList { replOf env x f with nest := true } (opened (r.attrs.all Attr.isEmpty) [] ops) n
      (basicAttrs env x o.addSource r) bm →
    RPlace { replOf env x f with nest := true } n [] ops r.attrs pl →
    ∃ h b, (H.plain (newHandler env o x)).derive ops = some h ∧
      h.handle none r = .line (b ++ [0x0A]) ∧ LineText b (.obj (bm ++ pl))

/-- C16 is false in flash: for an attribute in a group attribute the name of
that group is not passed. -/
theorem C16_flash_nested_names : ¬ C16_flash_statement := by
  intro h
  obtain ⟨h1, b1, d1, l1, t1⟩ := h Sample.env Sample.extras { replace := some tell } tell
    [.group b!"h"] tellRecord 1 _ _ rfl (by decide) (tell_basics true _) (tell_place true)
  obtain ⟨h2, b2, d2, l2, t2⟩ := C16_flash_replaced_partial Sample.env Sample.extras
    { replace := some tell } tell [.group b!"h"] tellRecord 1 _ _ rfl (by decide)
    (tell_basics false _) (tell_place false)
  rw [d1] at d2; simp only [Option.some.injEq] at d2; subst d2
  rw [l1] at l2; simp only [HOut.line.injEq, List.append_cancel_right_eq] at l2; subst l2
  have := denotes_unique t1.1 t2.1
  simp at this

theorem basics_safe {env : Env} (he : EnvClean env) {x : Extras} {f : AttrFn} {r : Record}
    (hr : RecordClean env x { r with attrs := [] }) (gs : List Bytes) (src : Bool) :
    ListSafe (replOf env x f) gs (basicAttrs env x src r) ∧ listDeep (basicAttrs env x src r) = 0 := by
  have src' : AnyClean (.obj (sourceObj env r.pc)) := by
    obtain ⟨b, h1, h2⟩ := sourceText he hr.function hr.file
    simp only [sourceObj, anyText, Option.some.injEq] at h1
    simp only [AnyClean, sourceObj]
    exact ⟨_, by rw [h1]; exact h2⟩
  have t := hr.time
  obtain ⟨time, level, message, pc, attrs⟩ := r
  simp only at t src' ⊢
  have lv := hr.level
  have ms := hr.message
  simp only at lv ms
  cases time with
  | none =>
    cases hs : src && pc != 0 <;>
      simp [basicAttrs, hs, ListSafe, AttrSafe, ValSafe, LeafClean, replOf, hr.levelKey, hr.messageKey,
        hr.sourceKey, listDeep, attrDeep, valDeep, lv, ms, src']
  | some tm =>
    have := t tm rfl
    cases hs : src && pc != 0 <;>
      simp [basicAttrs, hs, ListSafe, AttrSafe, ValSafe, LeafClean, replOf, hr.levelKey, hr.messageKey,
        hr.sourceKey, hr.timeKey, listDeep, attrDeep, valDeep, lv, ms, src', this]

/-- C17, partial: a tame replacement function (groups kept, other printable
attributes turned into printable ones or removed) cannot corrupt the line, as
long as no group attribute loses all its members to it (`ListSafe`). -/
theorem C17_flash_tame_partial (env : Env) (x : Extras) (o : Options) (f : AttrFn) (ops : List Op)
    (r : Record) (ho : o.replace = some f) (he : EnvClean env) (ht : Tame env x.timeFormat f)
    (hr : RecordClean env x { r with attrs := [] }) (hops : OpsSafe (replOf env x f) [] ops)
    (has : ListSafe (replOf env x f) (opened (r.attrs.all Attr.isEmpty) [] ops) r.attrs)
    (hd : max (opsDeep ops) (listDeep r.attrs) < env.stack) :
    ∃ h b ms, (H.plain (newHandler env o x)).derive ops = some h ∧
      h.handle none r = .line (b ++ [0x0A]) ∧ LineText b (.obj ms) := by
  obtain ⟨bs, bd⟩ := basics_safe he (f := f) hr (opened (r.attrs.all Attr.isEmpty) [] ops) o.addSource
  obtain ⟨bm, hb, _⟩ := safe_list (R := replOf env x f) rfl ht _ _ (max (opsDeep ops) (listDeep r.attrs))
    bs (by omega)
  obtain ⟨pl, hp⟩ := safe_place (R := replOf env x f) rfl ht r.attrs
    (max (opsDeep ops) (listDeep r.attrs)) (by omega) ops [] hops (by omega) has
  obtain ⟨h, b, h1, h2, h3⟩ := handle_replace ho hd hb hp
  exact ⟨h, b, _, h1, h2, h3⟩

/-- Dropping a key. -/
def dropKey (key : Bytes) : AttrFn := fun _ a =>
  match a with
  | .mk k (.group as) => .mk k (.group as)
  | .mk k v => if k == key then emptyAttr else .mk k v

theorem dropKey_tame (env : Env) (l key : Bytes) : Tame env l (dropKey key) where
  groups := fun _ _ _ => rfl
  leaves := by
    intro gs k v hk hv
    cases v with
    | group as => exact hv.elim
    | logValuer o r => exact hv.elim
    | _ =>
      simp only [dropKey]
      split
      · exact .inl rfl
      · exact .inr ⟨hk, hv⟩

/-- A case meeting the hypotheses: the key `a` is dropped from a chain and from
a group that keeps another member. -/
example : Tame Sample.env Sample.extras.timeFormat (dropKey b!"a") ∧
    OpsSafe (replOf Sample.env Sample.extras (dropKey b!"a")) [] Sample.ops ∧
    ListSafe (replOf Sample.env Sample.extras (dropKey b!"a")) (opened false [] Sample.ops)
      [.grp b!"h" [Sample.i b!"a" 1, Sample.lv b!"c" (.group [Sample.i b!"d" 2])]] := by
  refine ⟨dropKey_tame _ _ _, ?_, ?_⟩
  · simp only [Sample.ops, OpsSafe, ListSafe, AttrSafe, ValSafe, Sample.i, Sample.s, LeafClean]
    exact ⟨⟨⟨by decide, trivial⟩, trivial⟩, by decide, ⟨⟨by decide, by decide⟩, trivial⟩, trivial⟩
  · simp only [ListSafe, AttrSafe, ValSafe, Sample.i, Sample.lv, Attr.grp, LeafClean]
    exact ⟨⟨by decide, fun _ => rfl, ⟨by decide, trivial⟩, ⟨by decide, fun _ => rfl,
      ⟨by decide, trivial⟩, trivial⟩, trivial⟩, trivial⟩

/-- C17 in full, already for tame functions: the line is JSON for every chain
and record with printable texts. -/
def C17_flash_statement : Prop :=
  ∀ (env : Env) (x : Extras) (o : Options) (f : AttrFn) (ops : List Op) (r : Record),
    o.replace = some f → EnvClean env → Tame env x.timeFormat f →
    OpsClean env x.timeFormat ops → RecordClean env x r →
    max (opsDeep ops) (listDeep r.attrs) < env.stack →
    ∀ h b, (H.plain (newHandler env o x)).derive ops = some h →
      h.handle none r = .line (b ++ [0x0A]) → ∃ ms, Denotes b (.obj ms)

/-- The record for the counterexample: a group with the single member `a`, and
an attribute after it. -/
def emptied : Record :=
  { time := none, level := 0, message := b!"m",
    attrs := [.grp b!"g" [Sample.i b!"a" 1], Sample.i b!"b" 2] }

/-- C17 is false in flash: when all members of a group are removed, the comma
after the group is lost. -/
theorem C17_flash_lost_comma : ¬ C17_flash_statement := by
  intro h
  have hr : RecordClean Sample.env Sample.extras emptied :=
    { Sample.record_clean with
      time := by intro t ht; cases ht
      level := by decide
      message := by decide
      function := by decide
      file := by decide
      attrs := by
        simp only [emptied, ListClean, Sample.i, Attr.grp, AttrClean, ValClean, LeafClean]
        exact ⟨⟨by decide, ⟨by decide, trivial⟩, trivial⟩, ⟨by decide, trivial⟩, trivial⟩ }
  obtain ⟨ms, c, hc, _⟩ := h Sample.env Sample.extras { replace := some (dropKey b!"a") } (dropKey b!"a") []
    emptied rfl Sample.env_clean (dropKey_tame _ _ _) trivial hr (by decide)
    (.plain (newHandler Sample.env { replace := some (dropKey b!"a") } Sample.extras))
    b!"{\"level\": \"INFO\", \"msg\": \"m\", \"g\": {}\"b\": 2}" rfl (by decide +kernel)
  exact not_val_of_parse (by decide +kernel) ⟨c, hc⟩

/-! ### C18 -/

theorem prep_top {cfg : Cfg} {f : AttrFn} (hf : cfg.replace = some f) (a : Attr) :
    prep cfg (top a) = prep cfg a := by
  obtain ⟨k, v⟩ := a
  have idem : ∀ v : Value, v.resolve.resolve = v.resolve ∧ v.resolve.isLogValuer = false := by
    intro v
    induction v using Value.resolve.induct with
    | case1 o r ih => exact ih
    | case2 v h => cases v <;> first | exact ⟨rfl, rfl⟩ | exact (h _ _ rfl).elim
  simp only [top, prep, hf, Attr.value_mk, Attr.key_mk, (idem v).1, (idem v).2]
  cases v <;> rfl

theorem addAttribute_top {cfg : Cfg} {f : AttrFn} (hf : cfg.replace = some f) (n : Nat) (st : St)
    (a : Attr) : addAttribute cfg n st (top a) = addAttribute cfg n st a := by
  cases n with
  | zero => rfl
  | succ n => simp only [addAttribute, prep_top hf]

theorem addAttributes_top {cfg : Cfg} {f : AttrFn} (hf : cfg.replace = some f) (st : St)
    (as : List Attr) : addAttributes cfg st (as.map top) = addAttributes cfg st as := by
  simp only [addAttributes]
  induction as generalizing st with
  | nil => rfl
  | cons a as ih =>
    simp only [List.map_cons, addAll, addAttribute_top hf]
    split <;> simp_all

/-- C18, flash with ReplaceAttr: for every replacement function, chain and
record, resolving the LogValuers logged as attributes beforehand changes
nothing (bytes, errors, overflow), unless a LogValuer without a key resolves to
nil. -/
theorem C18_flash_with_replace (env : Env) (x : Extras) (o : Options) (f : AttrFn) (ops : List Op)
    (r : Record) (ho : o.replace = some f)
    (hr : ∀ a ∈ r.attrs, (top a).isEmpty = a.isEmpty) :
    ((H.plain (newHandler env o x)).derive (ops.map topOp)).map
        (·.handle none { r with attrs := r.attrs.map top }) =
      ((H.plain (newHandler env o x)).derive ops).map (·.handle none r) := by
  have hder : ∀ (ops : List Op) (h : H), h.core.options.replace = some f →
      h.derive (ops.map topOp) = h.derive ops := by
    intro ops
    induction ops with
    | nil => intro h _; rfl
    | cons op ops ih =>
      intro h hh
      cases op with
      | attrs as =>
        simp only [List.map_cons, topOp, H.derive, H.step, H.withAttrs, Handler.withAttrs]
        rw [addAttributes_top (cfg := h.core.cfg) hh]
        cases addAttributes h.core.cfg ⟨h.core.pfx, _⟩ as with
        | overflow => rfl
        | ok st => exact ih _ hh
        | err st m => exact ih _ hh
      | group n =>
        simp only [List.map_cons, topOp, H.derive, H.step]
        apply ih
        unfold H.withGroup
        split <;> exact hh
  have hsame : ∀ (ops : List Op) (h h' : H), h.core.options.replace = some f →
      h.root.options.replace = some f → h.derive ops = some h' →
      h'.core.options.replace = some f ∧ h'.root.options.replace = some f := by
    intro ops
    induction ops with
    | nil => intro h h' h1 h2 he; cases he; exact ⟨h1, h2⟩
    | cons op ops ih =>
      intro h h' h1 h2 he
      cases op with
      | attrs as =>
        simp only [H.derive, H.step, H.withAttrs, Handler.withAttrs] at he
        cases hx : addAttributes h.core.cfg ⟨h.core.pfx, h.core.pfx.length > 0 && !endsOpen h.core.pfx⟩ as with
        | overflow => simp [hx] at he
        | ok st => simp only [hx] at he; exact ih (.plain { h.core with pfx := st.buffer }) _ h1 h1 he
        | err st m => simp only [hx] at he; exact ih (.plain { h.core with pfx := st.buffer }) _ h1 h1 he
      | group n =>
        simp only [H.derive, H.step, Option.bind_some] at he
        unfold H.withGroup at he
        split at he
        · exact ih (.plain h.core) _ h1 h1 he
        · exact ih (.group (h.core.openGroup n) n h) _ h1 h2 he
  have hh : ∀ h : Handler, h.options.replace = some f →
      h.handle { r with attrs := r.attrs.map top } = h.handle r := by
    intro h hf
    have hb : h.basics { r with attrs := r.attrs.map top } = h.basics r := rfl
    simp only [Handler.handle, hb]
    have : (fun st => addAttributes h.cfg (h.addPrefix st) (r.attrs.map top)) =
        fun st => addAttributes h.cfg (h.addPrefix st) r.attrs :=
      funext fun st => addAttributes_top (cfg := h.cfg) hf _ _
    rw [this]
  have hall : (r.attrs.map top).all Attr.isEmpty = r.attrs.all Attr.isEmpty := by
    rw [List.all_map, Bool.eq_iff_iff, List.all_eq_true, List.all_eq_true]
    constructor
    · intro h a ha; rw [← hr a ha]; exact h a ha
    · intro h a ha; rw [Function.comp, hr a ha]; exact h a ha
  rw [hder ops (.plain (newHandler env o x)) ho]
  cases hd : (H.plain (newHandler env o x)).derive ops with
  | none => rfl
  | some h =>
    obtain ⟨h1, h2⟩ := hsame ops (.plain (newHandler env o x)) _ ho ho hd
    simp only [Option.map_some, Option.some.injEq]
    cases hq : r.attrs.all Attr.isEmpty with
    | false =>
      rw [H.handle_loud h r hq, H.handle_loud h _ (by show (r.attrs.map top).all _ = _; rw [hall, hq]),
        hh _ h1]
    | true =>
      rw [H.handle_quiet h none r hq,
        H.handle_quiet h none _ (by show (r.attrs.map top).all _ = _; rw [hall, hq]), hh _ h2]

/-- A record meeting the hypothesis, with LogValuers standing for a group and a duration. -/
example : ∀ a ∈ [Sample.lv b!"f" (.group [Sample.i b!"d" 2]), Sample.lv b!"" (.duration 5), emptyAttr],
    (top a).isEmpty = a.isEmpty := by decide

theorem flatVal_plain {env : Env} : ∀ r : Value, PlainKind env r.resolve → flatVal r = r.resolve
  | .logValuer _ r, h => by rw [flatVal]; exact flatVal_plain r h
  | .group as, h => h.elim
  | .any _, _ | .bool _, _ | .duration _, _ | .float64 _, _ | .int64 _, _ | .string _, _ | .time _, _
  | .uint64 _, _ => rfl

mutual
theorem flat_clean {env : Env} {l : Bytes} : ∀ a : Attr, AttrClean env l a → AttrPlain env a →
    AttrClean env l (flat a) ∧ (flat a).isEmpty = a.isEmpty
  | .mk k v, h, hp => by
    simp only [AttrClean] at h
    simp only [AttrPlain] at hp
    obtain ⟨h1, h2⟩ := flatVal_clean k v h.2 hp
    rw [flat, AttrClean]
    exact ⟨⟨h.1, h1⟩, h2⟩
theorem flatVal_clean {env : Env} {l : Bytes} (k : Bytes) : ∀ v : Value, ValClean env l k v →
    ValPlain env v → ValClean env l k (flatVal v) ∧ (Attr.mk k (flatVal v)).isEmpty = (Attr.mk k v).isEmpty
  | .logValuer o r, h, hp => by
    simp only [ValClean] at h
    simp only [ValPlain] at hp
    rw [flatVal, flatVal_plain r hp]
    have hn : (Attr.mk k (.logValuer o r)).isEmpty = false := by cases k <;> rfl
    rw [hn, h.2]
    refine ⟨?_, rfl⟩
    generalize r.resolve = w at h hp
    cases w with
    | any a => simp only [ValClean, LeafClean]; exact h.1
    | string s => simp only [ValClean, LeafClean]; exact hp
    | float64 f => simp only [ValClean, LeafClean]; exact hp.2
    | bool b => simp only [ValClean, LeafClean]
    | int64 b => simp only [ValClean, LeafClean]
    | uint64 b => simp only [ValClean, LeafClean]
    | _ => exact hp.elim
  | .group as, h, hp => by
    simp only [ValClean] at h
    simp only [ValPlain] at hp
    rw [flatVal, ValClean]
    exact ⟨(flatList_clean as h hp).1, by cases k <;> rfl⟩
  | .any _, h, _ | .bool _, h, _ | .duration _, h, _ | .float64 _, h, _ | .int64 _, h, _
  | .string _, h, _ | .time _, h, _ | .uint64 _, h, _ => ⟨h, rfl⟩
theorem flatList_clean {env : Env} {l : Bytes} : ∀ as : List Attr, ListClean env l as →
    ListPlain env as →
    ListClean env l (flatList as) ∧ (flatList as).all Attr.isEmpty = as.all Attr.isEmpty
  | [], _, _ => ⟨by simp only [flatList, ListClean], rfl⟩
  | a :: as, h, hp => by
    simp only [ListClean] at h
    simp only [ListPlain] at hp
    obtain ⟨h1, h2⟩ := flat_clean a h.1 hp.1
    obtain ⟨h3, h4⟩ := flatList_clean as h.2 hp.2
    rw [flatList, ListClean]
    exact ⟨⟨h1, h3⟩, by rw [List.all_cons, List.all_cons, h2, h4]⟩
end

mutual
theorem flat_depth : ∀ a : Attr, AttrPlain env a → attrDepth (flat a) ≤ attrDepth a
  | .mk k v, h => by
    simp only [AttrPlain] at h
    simp only [flat, attrDepth]
    exact flatVal_depth v h
theorem flatVal_depth {env : Env} : ∀ v : Value, ValPlain env v → valDepth (flatVal v) ≤ valDepth v
  | .logValuer o r, hp => by
    simp only [ValPlain] at hp
    rw [flatVal, flatVal_plain r hp]
    generalize r.resolve = w at hp
    cases w <;> first | exact hp.elim | (simp only [valDepth]; omega)
  | .group as, hp => by
    simp only [ValPlain] at hp
    have := flatList_depth as hp
    simp only [flatVal, valDepth]
    omega
  | .any _, _ | .bool _, _ | .duration _, _ | .float64 _, _ | .int64 _, _
  | .string _, _ | .time _, _ | .uint64 _, _ => Nat.le_refl _
theorem flatList_depth {env : Env} : ∀ as : List Attr, ListPlain env as →
    listDepth (flatList as) ≤ listDepth as
  | [], _ => Nat.le_refl _
  | a :: as, hp => by
    simp only [ListPlain] at hp
    have h1 := flat_depth a hp.1
    have h2 := flatList_depth as hp.2
    simp only [flatList, listDepth]
    omega
end

/-- LogValuers given along a chain resolve to plain kinds. -/
def OpsPlainKinds (env : Env) : List Op → Prop
  | [] => True
  | .attrs as :: ops => ListPlain env as ∧ OpsPlainKinds env ops
  | .group _ :: ops => OpsPlainKinds env ops

theorem flatOps_clean {env : Env} {l : Bytes} : ∀ ops : List Op, OpsClean env l ops →
    OpsPlainKinds env ops → OpsClean env l (ops.map flatOp) ∧ opsDepth (ops.map flatOp) ≤ opsDepth ops
  | [], _, _ => ⟨trivial, Nat.le_refl _⟩
  | .attrs as :: ops, h, hp => by
    simp only [OpsClean] at h
    simp only [OpsPlainKinds] at hp
    obtain ⟨h1, h2⟩ := flatOps_clean ops h.2 hp.2
    simp only [List.map_cons, flatOp, OpsClean, opsDepth]
    exact ⟨⟨(flatList_clean as h.1 hp.1).1, h1⟩, by have := flatList_depth as hp.1; omega⟩
  | .group n :: ops, h, hp => by
    simp only [OpsClean] at h
    simp only [OpsPlainKinds] at hp
    obtain ⟨h1, h2⟩ := flatOps_clean ops h.2 hp
    simp only [List.map_cons, flatOp, OpsClean, opsDepth]
    exact ⟨⟨h.1, h1⟩, h2⟩

theorem place_plain {env : Env} (he : EnvClean env) {l : Bytes} {as : List Attr} (ha : ListPlain env as) :
    ∀ ops, OpsPlainKinds env ops → place env l .viaAny ops as = place env l .ideal ops as
  | [], _ => by simp only [place]; exact listMembers_plain he as ha
  | .attrs bs :: ops, h => by
    simp only [OpsPlainKinds] at h
    simp only [place, listMembers_plain he bs h.1, place_plain he ha ops h.2]
  | .group n :: ops, h => by
    simp only [OpsPlainKinds] at h
    simp only [place, place_plain he ha ops h]

/-- C18, flash without ReplaceAttr, partial: if LogValuers resolve to strings,
booleans, numbers or `any` values, the line logged with them and the line logged
with all of them resolved beforehand, at any depth, denote the same object. -/
theorem C18_flash_plain_partial (env : Env) (x : Extras) (o : Options) (ops : List Op) (r : Record)
    (ho : o.replace = none) (he : EnvClean env) (hops : OpsClean env x.timeFormat ops)
    (hr : RecordClean env x r) (hd : max (opsDepth ops) (listDepth r.attrs) < env.stack)
    (hp : OpsPlainKinds env ops) (hl : ListPlain env r.attrs) :
    ∃ h h' b b' t, (H.plain (newHandler env o x)).derive ops = some h ∧
      (H.plain (newHandler env o x)).derive (ops.map flatOp) = some h' ∧
      h.handle none r = .line (b ++ [0x0A]) ∧
      h'.handle none { r with attrs := flatList r.attrs } = .line (b' ++ [0x0A]) ∧
      Denotes b t ∧ Denotes b' t := by
  obtain ⟨c1, c2⟩ := flatOps_clean ops hops hp
  obtain ⟨c3, c4⟩ := flatList_clean r.attrs hr.attrs hl
  have c5 := flatList_depth r.attrs hl
  obtain ⟨h, pl, b, h1, h2, h3, h4⟩ := handle_clean (o := o) ho he hops hr hd
  obtain ⟨h', pl', b', g1, g2, g3, g4⟩ := handle_clean (o := o) ho he c1
    (r := { r with attrs := flatList r.attrs }) { hr with attrs := c3 }
    (by show max _ (listDepth (flatList r.attrs)) < _; omega)
  have e : pl' = pl := by
    have : place env x.timeFormat .viaAny (ops.map flatOp) (flatList r.attrs) = some pl := by
      rw [place_flat _ _ _ _ _ c4, ← place_plain he hl ops hp]; exact h2
    rw [this] at g2
    exact (Option.some.inj g2).symm
  subst e
  exact ⟨h, h', b, b', _, h1, g1, h3, g3, h4.1, g4.1⟩

example : OpsPlainKinds Sample.env Sample.ops ∧ ListPlain Sample.env Sample.record.attrs := by
  refine ⟨?_, ?_⟩
  · simp only [Sample.ops, OpsPlainKinds, ListPlain, AttrPlain, ValPlain, Sample.i, Sample.s]
    exact ⟨⟨trivial, trivial⟩, ⟨trivial, trivial⟩, trivial⟩
  · simp only [Sample.record, ListPlain, AttrPlain, ValPlain, Sample.i, Sample.lv, Attr.grp,
      emptyAttr, Value.resolve, PlainKind]
    refine ⟨⟨trivial, trivial, ⟨trivial, trivial⟩, trivial⟩, trivial, by decide, trivial⟩

/-- C18 in full for flash without ReplaceAttr: a LogValuer and the value it
resolves to are shown alike. -/
def C18_flash_statement : Prop :=
  ∀ (env : Env) (x : Extras) (r : Record) (k : Bytes) (o : Obj) (v : Value) (b b' : Bytes),
    EnvClean env →
    (H.plain (newHandler env {} x)).handle none { r with attrs := [.mk k (.logValuer o v)] } =
      .line (b ++ [0x0A]) →
    (H.plain (newHandler env {} x)).handle none { r with attrs := [.mk k v] } = .line (b' ++ [0x0A]) →
    ∀ t t', Denotes b t → Denotes b' t' → t = t'

/-- C18 is false in flash without ReplaceAttr: a LogValuer standing for a
duration is shown as text, the duration itself as a number. -/
theorem C18_flash_duration : ¬ C18_flash_statement := by
  intro h
  have h1 := h Sample.env Sample.extras { time := none, level := 0, message := b!"m" } b!"d"
    { marshal := .ok b!"{}" } (.duration 5)
    b!"{\"level\": \"INFO\", \"msg\": \"m\", \"d\": \"5ns\"}"
    b!"{\"level\": \"INFO\", \"msg\": \"m\", \"d\": 5}" Sample.env_clean (by decide +kernel) (by decide +kernel)
    (.obj [(b!"level", .str b!"INFO"), (b!"msg", .str b!"m"), (b!"d", .str b!"5ns")])
    (.obj [(b!"level", .str b!"INFO"), (b!"msg", .str b!"m"), (b!"d", .num b!"5")])
    (denotes_of_parse (by rfl) (by decide)) (denotes_of_parse (by rfl) (by decide))
  simp at h1

end Verif.Props
