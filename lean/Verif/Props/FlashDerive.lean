import Verif.Flash.Derive
import Verif.Flash.Sample

/-
Properties C05, C06, C07, C09, C23: derived flash handlers.
-/

namespace Verif.Props
open Slog LogTree Flash

/-- A handler obtained from a new flash handler by any derivation steps. -/
def Reachable (h : H) : Prop :=
  ∃ env o x ops, (H.plain (newHandler env o x)).derive ops = some h

theorem Reachable.braces {h : H} (hr : Reachable h) : h.core.Braces := by
  obtain ⟨env, o, x, ops, e⟩ := hr
  exact derive_braces (by intro b hb; simp [H.core, newHandler] at hb) e

/-! ### C05 -/

/-- C05 in full: for every handler without ReplaceAttr and attributes that
render without error, logging through `WithAttrs(as)` is logging `as` first. -/
def C05_statement : Prop :=
  ∀ (h : H) (as bs : List Attr) (r : Record), Reachable h → h.core.options.replace = none →
    ListRenders h.core.env as → listDepth as < h.core.env.stack →
    ∃ h', h.withAttrs as = some h' ∧
      h'.handle none { r with attrs := bs } = h.handle none { r with attrs := as ++ bs }

/-- C05 is false in one corner: through `WithGroup("g")` a record without
attributes is printed without `g`, through `WithGroup("g").WithAttrs(nil)` with
`"g": {}`. -/
theorem C05_flash_fails_on_nothing : ¬ C05_statement := by
  intro hs
  obtain ⟨h', h1, h2⟩ := hs (Sample.root.withGroup b!"g") [] [] { time := none, level := 0, message := [] }
    ⟨Sample.env, {}, Sample.extras, [.group b!"g"], rfl⟩ rfl (by simp only [ListRenders]) (by decide)
  have e : (Sample.root.withGroup b!"g").withAttrs [] =
      some (.plain (Sample.root.withGroup b!"g").core) := rfl
  rw [e] at h1
  simp only [Option.some.injEq] at h1
  subst h1
  revert h2
  decide

/-- C05 with the guard: the handler is not fresh from WithGroup, or there is
something to print. Nothing is required of `bs`: errors come out the same. -/
theorem C05_flash_withAttrs_is_logging_partial (h : H) (as bs : List Attr) (r : Record)
    (hr : h.core.options.replace = none) (has : ListRenders h.core.env as)
    (hd : listDepth as < h.core.env.stack)
    (hl : (∃ p, h = .plain p) ∨ (as ++ bs).all Attr.isEmpty = false) :
    ∃ h', h.withAttrs as = some h' ∧
      h'.handle none { r with attrs := bs } = h.handle none { r with attrs := as ++ bs } := by
  obtain ⟨st, hok, hset⟩ := renders_settled (cfg := h.core.cfg) hr has hd
  refine ⟨_, by rw [H.withAttrs, withAttrs_ok hok]; rfl, ?_⟩
  have e : h.handle none { r with attrs := as ++ bs } = h.core.handle { r with attrs := as ++ bs } := by
    rcases hl with ⟨p, rfl⟩ | hl
    · rfl
    · exact H.handle_loud h _ hl
  rw [e]
  exact handle_withAttrs hok hset

/-- C05 with a replacement function: the same whenever rendering `as` on its own
gives no error and does not end right after an emptied group. -/
theorem C05_flash_withAttrs_is_logging_replace (h : H) (as bs : List Attr) (r : Record) (st : St)
    (hok : addAttributes h.core.cfg st0 as = .ok st) (hset : Settled st)
    (hl : (∃ p, h = .plain p) ∨ (as ++ bs).all Attr.isEmpty = false) :
    ∃ h', h.withAttrs as = some h' ∧
      h'.handle none { r with attrs := bs } = h.handle none { r with attrs := as ++ bs } := by
  refine ⟨_, by rw [H.withAttrs, withAttrs_ok hok]; rfl, ?_⟩
  have e : h.handle none { r with attrs := as ++ bs } = h.core.handle { r with attrs := as ++ bs } := by
    rcases hl with ⟨p, rfl⟩ | hl
    · rfl
    · exact H.handle_loud h _ hl
  rw [e]
  exact handle_withAttrs hok hset

/-- C05, second half: two WithAttrs calls are one with the lists joined (the
very same handler). -/
theorem C05_flash_withAttrs_twice (h : H) (as bs : List Attr)
    (hr : h.core.options.replace = none) (has : ListRenders h.core.env as)
    (hd : listDepth as < h.core.env.stack) :
    (h.withAttrs as).bind (·.withAttrs bs) = h.withAttrs (as ++ bs) := by
  obtain ⟨st, hok, hset⟩ := renders_settled (cfg := h.core.cfg) hr has hd
  have := withAttrs_withAttrs (h := h.core) (bs := bs) hok hset
  simp only [H.withAttrs]
  rw [← this, withAttrs_ok hok]
  rfl

/-- Attributes with a marshaler, a nested group, invalid UTF-8 and NaN render
without error. -/
example : ListRenders Sample.env
    [.grp b!"g" [.mk b!"a" (.float64 .nan), .mk b!"b" (.string [0xC3, 0x22])],
      .mk b!"c" (.any (.obj { textM := some (.ok b!"x"), marshal := .error b!"e" }))] ∧
    (Sample.root.withGroup b!"g").core.options.replace = none := by
  simp [ListRenders, AttrRenders, ValRenders, AnyRenders, ResRenders, Attr.grp]
  rfl

/-! ### C06 -/

/-- C06. For every reachable handler without ReplaceAttr: `WithGroup(g)` logging
`bs` writes the same bytes as logging `Group(g, bs)`, if `bs` carries something
and `g` needs no escaping. -/
theorem C06_flash_withGroup_is_group_attr (h : H) (g : Bytes) (bs : List Attr) (r : Record)
    (hh : Reachable h) (hr : h.core.options.replace = none) (hg : g ≠ []) (hesc : addEscaped g = g)
    (hbs : ListRenders h.core.env bs) (hleaf : listHasLeaf bs = true)
    (hd : listDepth bs + 1 < h.core.env.stack) :
    (h.withGroup g).handle none { r with attrs := bs } =
      h.handle none { r with attrs := [.grp g bs] } := by
  have e1 : (h.withGroup g).handle none { r with attrs := bs } =
      (h.core.openGroup g).handle { r with attrs := bs } := by
    rw [H.handle_loud _ _ (loud_of_leaf hleaf)]
    simp [H.withGroup, hg, H.core]
  have e2 : h.handle none { r with attrs := [.grp g bs] } =
      h.core.handle { r with attrs := [.grp g bs] } := by
    apply H.handle_loud
    cases g <;> rfl
  rw [e1, e2]
  exact handle_openGroup hh.braces hr g hg hesc hbs (by simp [emptyGroup_hasLeaf, hleaf]) hd r

example : ListRenders Sample.env [emptyAttr, .grp b!"k" [.mk b!"a" (.int64 3)]] ∧
    listHasLeaf [emptyAttr, .grp b!"k" [.mk b!"a" (.int64 3)]] = true ∧
    addEscaped b!"grüp" = b!"grüp" ∧ Reachable (Sample.root.withGroup b!"h") := by
  refine ⟨?_, rfl, by decide, ⟨Sample.env, {}, Sample.extras, [.group b!"h"], rfl⟩⟩
  simp [ListRenders, AttrRenders, ValRenders, AnyRenders, Attr.grp, emptyAttr]

/-- The condition on the name is needed: `/` is escaped in an attribute key but
not in a group name. -/
example : (Sample.root.withGroup b!"a/b").handle none
      { time := none, level := 0, message := [], attrs := [.mk b!"k" (.bool true)] } ≠
    Sample.root.handle none
      { time := none, level := 0, message := [], attrs := [.grp b!"a/b" [.mk b!"k" (.bool true)]] } := by
  decide

/-! ### C07 -/

/-- C07. Without attributes to print, any number of trailing WithGroup calls
changes nothing, for every handler, with or without ReplaceAttr. -/
theorem C07_flash_trailing_groups_elided (h h' : H) (names : List Bytes) (ctx ctx' : Ctx)
    (r : Record) (hn : ∀ n ∈ names, n ≠ []) (hq : ∀ a ∈ r.attrs, a = emptyAttr)
    (hd : h.derive (names.map .group) = some h') :
    h'.handle ctx r = h.handle ctx' r := by
  have hq' : r.attrs.all Attr.isEmpty = true := by
    simp only [List.all_eq_true]
    intro a ha
    rw [hq a ha]; rfl
  have root : ∀ (names : List Bytes) (h h' : H), (∀ n ∈ names, n ≠ []) →
      h.derive (names.map .group) = some h' → h'.root = h.root := by
    intro names
    induction names with
    | nil => intro h h' _ e; simp [H.derive] at e; rw [e]
    | cons n ns ih =>
      intro h h' hn e
      simp only [List.map_cons, H.derive, H.step, Option.bind_some] at e
      rw [ih _ _ (fun m hm => hn m (by simp [hm])) e]
      simp [H.withGroup, hn n (by simp), H.root]
  rw [H.handle_quiet h' ctx r hq', H.handle_quiet h ctx' r hq', root names h h' hn hd]

example : ∃ h', (Sample.root.withGroup b!"p").derive ([b!"g", b!"h"].map .group) = some h' ∧
    h'.handle none { time := none, level := 0, message := b!"m", attrs := [emptyAttr] } =
      .line b!"{\"level\": \"INFO\", \"msg\": \"m\"}\n" :=
  ⟨_, rfl, by decide⟩

/-- C07, other half: with something to print all the groups are printed: the
line is that of the attributes wrapped in the groups, outermost first. -/
theorem C07_flash_groups_printed (names : List Bytes) : ∀ (h h' : H) (bs : List Attr) (r : Record),
    Reachable h → h.core.options.replace = none → (∀ n ∈ names, n ≠ [] ∧ addEscaped n = n) →
    ListRenders h.core.env bs → listHasLeaf bs = true →
    listDepth bs + names.length < h.core.env.stack →
    h.derive (names.map .group) = some h' →
    h'.handle none { r with attrs := bs } =
      h.handle none { r with attrs := names.foldr (fun n as => [.grp n as]) bs } := by
  induction names with
  | nil =>
    intro h h' bs r _ _ _ _ _ _ e
    simp [H.derive] at e; rw [e]; rfl
  | cons n ns ih =>
    intro h h' bs r hh hr hn hbs hl hd e
    simp only [List.map_cons, H.derive, H.step, Option.bind_some] at e
    obtain ⟨hn1, hn2⟩ := hn n (by simp)
    have hcore : (h.withGroup n).core = h.core.openGroup n := by simp [H.withGroup, hn1, H.core]
    have hh' : Reachable (h.withGroup n) := by
      obtain ⟨env, o, x, ops, e⟩ := hh
      refine ⟨env, o, x, ops ++ [.group n], ?_⟩
      have app : ∀ (ops : List Op) (a : H), a.derive (ops ++ [.group n]) =
          (a.derive ops).map (·.withGroup n) := by
        intro ops
        induction ops with
        | nil => intro a; rfl
        | cons op ops ih =>
          intro a
          simp only [List.cons_append, H.derive]
          cases a.step op with
          | none => rfl
          | some b => exact ih b
      rw [app, e]; rfl
    rw [ih (h.withGroup n) h' bs r hh' (by rw [hcore]; exact hr)
      (fun m hm => hn m (by simp [hm])) (by rw [hcore]; exact hbs) hl
      (by rw [hcore]; simp at hd; show _ < h.core.env.stack; omega) e]
    have wrap : ∀ ns : List Bytes, ListRenders h.core.env (ns.foldr (fun n as => [.grp n as]) bs) ∧
        listHasLeaf (ns.foldr (fun n as => [.grp n as]) bs) = true ∧
        listDepth (ns.foldr (fun n as => [.grp n as]) bs) = listDepth bs + ns.length := by
      intro ns
      induction ns with
      | nil => exact ⟨hbs, hl, rfl⟩
      | cons m ms ih =>
        obtain ⟨i1, i2, i3⟩ := ih
        refine ⟨?_, ?_, ?_⟩
        · simp only [List.foldr_cons, ListRenders, Attr.grp, AttrRenders, ValRenders]
          exact ⟨i1, trivial⟩
        · have : ∀ as, (Attr.mk m (.group as)).isEmpty = false := by intro as; cases m <;> rfl
          show (!(Attr.mk m (.group _)).isEmpty && listHasLeaf _ || false) = true
          rw [this, i2]; rfl
        · simp only [Attr.grp] at i3
          simp only [List.foldr_cons, listDepth, Attr.grp, attrDepth, valDepth, i3, List.length_cons]
          omega
    obtain ⟨w1, w2, w3⟩ := wrap ns
    exact C06_flash_withGroup_is_group_attr h n _ r hh hr hn1 hn2 w1 w2
      (by rw [w3]; simp at hd; omega)

example : ∃ h', Sample.root.derive ([b!"g", b!"h"].map .group) = some h' ∧
    h'.handle none { time := none, level := 0, message := b!"m", attrs := [.mk b!"k" (.bool true)] } =
      .line b!"{\"level\": \"INFO\", \"msg\": \"m\", \"g\": {\"h\": {\"k\": true}}}\n" :=
  ⟨_, rfl, by decide⟩

/-! ### C09 -/

/-- C09 in full, for flash. -/
def C09_statement : Prop :=
  ∀ (h : H) (r : Record), Reachable h →
    (h.withGroup []).handle none r = h.handle none r ∧
    (h.withAttrs []).map (·.handle none r) = some (h.handle none r)

/-- C09 is false for handlers fresh from WithGroup: both calls make the group
appear in records without attributes. -/
theorem C09_flash_fails_after_group : ¬ C09_statement := by
  intro hs
  have := (hs (Sample.root.withGroup b!"g") { time := none, level := 0, message := [] }
    ⟨Sample.env, {}, Sample.extras, [.group b!"g"], rfl⟩).1
  revert this
  decide

/-- The same for `WithAttrs(nil)`. -/
theorem C09_flash_withAttrs_fails_after_group : ∃ (h : H) (r : Record), Reachable h ∧
    (h.withAttrs []).map (·.handle none r) ≠ some (h.handle none r) :=
  ⟨Sample.root.withGroup b!"g", { time := none, level := 0, message := [] },
    ⟨Sample.env, {}, Sample.extras, [.group b!"g"], rfl⟩, by decide⟩

/-- C09 for handlers that do not come straight from WithGroup: the calls return
the same handler. -/
theorem C09_flash_neutral_plain_partial (p : Handler) :
    (H.plain p).withGroup [] = .plain p ∧ (H.plain p).withAttrs [] = some (.plain p) := by
  refine ⟨rfl, ?_⟩
  simp [H.withAttrs, Handler.withAttrs, addAttributes, addAll, H.core]

/-- C09 for all handlers and records with a non-empty attribute. -/
theorem C09_flash_neutral_loud_partial (h : H) (r : Record)
    (hl : ∃ a ∈ r.attrs, a ≠ emptyAttr) :
    (h.withGroup []).handle none r = h.handle none r ∧
    (h.withAttrs []).map (·.handle none r) = some (h.handle none r) := by
  have hq : r.attrs.all Attr.isEmpty = false := by
    obtain ⟨a, ha, hne⟩ := hl
    rw [Bool.eq_false_iff]
    intro h
    have := List.all_eq_true.1 h a ha
    exact hne (isEmpty_iff.1 this)
  rw [H.handle_loud h r hq]
  refine ⟨rfl, ?_⟩
  simp [H.withAttrs, Handler.withAttrs, addAttributes, addAll, H.handle]

example : ∃ a ∈ Sample.record.attrs, a ≠ emptyAttr :=
  ⟨_, List.Mem.head _, by intro h; cases h⟩

/-! ### C23 -/

/-- C23 in full, for flash. -/
def C23_statement : Prop :=
  ∀ (h : H) (ctx : Ctx) (r : Record), Reachable h → h.handle ctx r = h.handle none r

/-- C23 is false: with a context that has the string "x" under the key
"deadGroup", a handler with an open group sends a record whose first attribute
is a group named "x" to the parent handler. -/
theorem C23_flash_context_matters : ¬ C23_statement := by
  intro hs
  have := hs (Sample.root.withGroup b!"g") (some b!"x")
    { time := none, level := 0, message := [], attrs := [.grp b!"x" [.mk b!"k" (.bool true)]] }
    ⟨Sample.env, {}, Sample.extras, [.group b!"g"], rfl⟩
  revert this
  decide

/-- C23 with the exact guard: the context matters only if it holds the name of
the record's first non-empty attribute and that attribute is a group. -/
theorem C23_flash_context_partial (h : H) (ctx : Ctx) (r : Record)
    (hc : ∀ dead a, ctx = some dead → dead ≠ [] → r.attrs.find? (fun a => !a.isEmpty) = some a →
      a.key = dead → a.value.isGroup = false) :
    h.handle ctx r = h.handle none r := by
  cases h with
  | plain h => rfl
  | group h n p =>
    have : skipGroup ctx r.attrs = skipGroup none r.attrs := by
      unfold skipGroup
      cases hf : firstNonEmpty r.attrs with
      | none => rfl
      | some a =>
        cases ctx with
        | none => rfl
        | some dead =>
          simp only
          by_cases hd : dead = []
          · simp [hd]
          · by_cases hk : a.key = dead
            · have := hc dead a rfl hd hf hk
              simp [this]
            · simp [hk]
    simp only [H.handle, this]

example : ∀ dead a, (some b!"request-id" : Ctx) = some dead → dead ≠ [] →
    Sample.record.attrs.find? (fun a => !a.isEmpty) = some a → a.key = dead →
    a.value.isGroup = false := by
  intro dead a hd _ ha hk
  have : Sample.record.attrs.find? (fun a => !a.isEmpty) =
    some (.grp b!"h" [Sample.i b!"c" (-2), emptyAttr, .grp b!"" [.mk b!"d" (.bool true)]]) := rfl
  rw [this] at ha
  simp at ha hd
  subst ha hd
  revert hk
  simp only [Attr.grp, Attr.key_mk]
  decide

end Verif.Props
