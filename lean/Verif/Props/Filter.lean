import Verif.Score.Filter

/-
C44: filters keep exactly the handlers they are configured with.
-/

namespace Verif.Props.Filter

open Verif Verif.Go Verif.Data Verif.Score

/-! ### How filters are written -/

/-- What may be written as an argument of `NewFilterGroup`, `NewIncludeFilter` and
`NewExcludeFilter`: a name, a group made of such arguments, a nil group, or a value of
another type. -/
inductive Arg where
  | name (s : Bytes)
  | group (args : List Arg)
  | nilGroup
  | other

/-- The names an argument lists. -/
inductive Arg.Lists : Arg → Bytes → Prop
  | name (s : Bytes) : Arg.Lists (.name s) s
  | group {args : List Arg} {a : Arg} {s : Bytes} : a ∈ args → Arg.Lists a s → Arg.Lists (.group args) s

/-- There is no nil group in an argument. -/
inductive Arg.Clean : Arg → Prop
  | name (s : Bytes) : Arg.Clean (.name s)
  | group {args : List Arg} : (∀ a ∈ args, Arg.Clean a) → Arg.Clean (.group args)
  | other : Arg.Clean .other

mutual
/-- The value of an argument: the groups in it are made first; `none` is a panic. -/
def Arg.item (ord : Group → List (Bytes × Bool)) : Arg → Option Item
  | .name s => some (.str s)
  | .group args =>
    match Arg.items ord args with
    | some l => (newFilterGroup ord l).map fun g => .group (some g)
    | none => none
  | .nilGroup => some (.group none)
  | .other => some .other
/-- The values of arguments. -/
def Arg.items (ord : Group → List (Bytes × Bool)) : List Arg → Option (List Item)
  | [] => some []
  | a :: as =>
    match Arg.item ord a, Arg.items ord as with
    | some i, some l => some (i :: l)
    | _, _ => none
end

/-- `NewIncludeFilter(args...)`. -/
def includeArgs (ord : Group → List (Bytes × Bool)) (args : List Arg) : Option Filter :=
  (Arg.items ord args).bind (newIncludeFilter ord)

/-- `NewExcludeFilter(args...)`. -/
def excludeArgs (ord : Group → List (Bytes × Bool)) (args : List Arg) : Option Filter :=
  (Arg.items ord args).bind (newExcludeFilter ord)

/-! ### Groups -/

/-- Groups as they are made: every key has the value true, and is there once. -/
structure Good (g : Group) : Prop where
  nodup : (Map.keys g).Nodup
  val : ∀ k v, (k, v) ∈ g → v = true

theorem Good.keep_iff {g : Group} (h : Good g) (k : Bytes) : g.keep k = true ↔ (k, true) ∈ g := by
  unfold Group.keep
  constructor
  · intro hk
    cases e : Map.get g k with
    | none => rw [e] at hk; cases hk
    | some v =>
      have := Map.mem_of_get e
      rwa [h.val k v this] at this
  · intro hk
    rw [Map.get_of_mem h.nodup hk]
    rfl

theorem good_set {g : Group} (h : Good g) (s : Bytes) : Good (g.set s true) := by
  refine ⟨Map.nodup_set h.nodup _ _, fun k v hm => ?_⟩
  have := Map.get_of_mem (Map.nodup_set h.nodup s true) hm
  rw [Map.get_set] at this
  split at this
  · cases this; rfl
  · exact h.val _ _ (Map.mem_of_get this)

theorem keep_set (g : Group) (s k : Bytes) : Group.keep (g.set s true) k = true ↔ k = s ∨ g.keep k = true := by
  unfold Group.keep
  rw [Map.get_set]
  split
  · rename_i h
    simp [h]
  · rename_i h
    simp [h]

theorem merge_all {g : Group} (hg : Good g) : ∀ l : List (Bytes × Bool), (∀ e ∈ l, e.2 = true) →
    Good (l.foldl Group.merge g) ∧
      ∀ k, Group.keep (l.foldl Group.merge g) k = true ↔ g.keep k = true ∨ (k, true) ∈ l := by
  intro l
  induction l generalizing g with
  | nil => intro _; exact ⟨hg, fun k => by simp⟩
  | cons e l ih =>
    intro hl
    have he : e.2 = true := hl e (by simp)
    have hm : Group.merge g e = g.set e.1 true := by simp [Group.merge, he]
    rw [List.foldl_cons, hm]
    obtain ⟨h1, h2⟩ := ih (good_set hg e.1) fun x hx => hl x (by simp [hx])
    refine ⟨h1, fun k => ?_⟩
    rw [h2, keep_set]
    obtain ⟨a, b⟩ := e
    simp only at he
    subst he
    simp only [List.mem_cons, Prod.mk.injEq, and_true]
    tauto

/-- What an item lists, if it is a string or a group. -/
def Item.has : Item → Bytes → Prop
  | .str s, k => k = s
  | .group (some g), k => g.keep k = true
  | .group none, _ => False
  | .other, _ => False

/-- A group in an item is one as they are made, and not nil. -/
def Item.Ok : Item → Prop
  | .group (some g) => Good g
  | .group none => False
  | _ => True

theorem addAll_spec {ord : Group → List (Bytes × Bool)} (ho : ∀ g, (ord g).Perm g) (items : List Item) (h : ∀ i ∈ items, Item.Ok i) :
    ∀ {g : Group}, Good g → ∃ g', Group.addAll ord g items = some g' ∧ Good g' ∧
      ∀ k, g'.keep k = true ↔ g.keep k = true ∨ ∃ i ∈ items, Item.has i k := by
  induction items with
  | nil => intro g hg; exact ⟨g, rfl, hg, fun k => by simp⟩
  | cons i items ih =>
    intro g hg
    have hi := h i (by simp)
    have : ∃ g', Group.add ord g i = some g' ∧ Good g' ∧ ∀ k, g'.keep k = true ↔ g.keep k = true ∨ Item.has i k := by
      match i, hi with
      | .str s, _ =>
        exact ⟨_, rfl, good_set hg s, fun k => by rw [keep_set]; exact or_comm⟩
      | .group (some g2), h2 =>
        have hv : ∀ e ∈ ord g2, e.2 = true := fun e he => Good.val h2 e.1 e.2 ((ho g2).mem_iff.1 he)
        obtain ⟨h3, h4⟩ := merge_all hg (ord g2) hv
        refine ⟨_, rfl, h3, fun k => ?_⟩
        rw [h4, (ho g2).mem_iff, ← Good.keep_iff h2]
        rfl
      | .other, _ => exact ⟨_, rfl, hg, fun k => by simp [Item.has]⟩
    obtain ⟨g1, e1, hg1, k1⟩ := this
    obtain ⟨g2, e2, hg2, k2⟩ := ih (fun i hi => h i (by simp [hi])) hg1
    refine ⟨g2, ?_, hg2, fun k => ?_⟩
    · rw [Group.addAll, e1]; exact e2
    · rw [k2, k1]
      simp only [List.mem_cons, exists_eq_or_imp]
      tauto

theorem good_nil : Good [] := ⟨List.nodup_nil, fun _ _ h => by cases h⟩

theorem newGroup_spec {ord : Group → List (Bytes × Bool)} (ho : ∀ g, (ord g).Perm g) (items : List Item) (h : ∀ i ∈ items, Item.Ok i) :
    ∃ g, newFilterGroup ord items = some g ∧ Good g ∧ ∀ k, g.keep k = true ↔ ∃ i ∈ items, Item.has i k := by
  obtain ⟨g, e, hg, hk⟩ := addAll_spec ho items h good_nil
  refine ⟨g, e, hg, fun k => ?_⟩
  rw [hk]
  simp [Group.keep, Map.get_nil]

/-- The induction principle for arguments. -/
theorem Arg.ind {P : Arg → Prop} (hn : ∀ s, P (.name s)) (hg : ∀ args, (∀ a ∈ args, P a) → P (.group args))
    (h0 : P .nilGroup) (ho : P .other) : ∀ a, P a := fun a =>
  Arg.rec (motive_1 := P) (motive_2 := fun l => ∀ a ∈ l, P a) hn (fun args h => hg args h) h0 ho
    (fun _ h => by cases h) (fun a l h1 h2 x hx => by
      rcases List.mem_cons.1 hx with rfl | hx
      · exact h1
      · exact h2 x hx) a

theorem items_of {ord : Group → List (Bytes × Bool)} {args : List Arg}
    (h : ∀ a ∈ args, ∃ i, Arg.item ord a = some i ∧ Item.Ok i ∧ ∀ k, Item.has i k ↔ a.Lists k) :
    ∃ l, Arg.items ord args = some l ∧ (∀ i ∈ l, Item.Ok i) ∧ ∀ k, (∃ i ∈ l, Item.has i k) ↔ ∃ a ∈ args, a.Lists k := by
  induction args with
  | nil => exact ⟨[], by rw [Arg.items], by simp, by simp⟩
  | cons a args ih =>
    obtain ⟨i, e1, o1, k1⟩ := h a (by simp)
    obtain ⟨l, e2, o2, k2⟩ := ih fun a ha => h a (by simp [ha])
    refine ⟨i :: l, by rw [Arg.items, e1, e2], ?_, fun k => ?_⟩
    · intro x hx
      rcases List.mem_cons.1 hx with rfl | hx
      · exact o1
      · exact o2 x hx
    · simp only [List.mem_cons, exists_eq_or_imp, k1, k2]

theorem item_clean {ord : Group → List (Bytes × Bool)} (ho : ∀ g, (ord g).Perm g) :
    ∀ a : Arg, a.Clean → ∃ i, Arg.item ord a = some i ∧ Item.Ok i ∧ ∀ k, Item.has i k ↔ a.Lists k := by
  refine Arg.ind ?_ ?_ ?_ ?_
  · intro s _
    refine ⟨.str s, by rw [Arg.item], trivial, fun k => ?_⟩
    constructor
    · rintro rfl; exact .name _
    · rintro ⟨⟩; rfl
  · intro args ih hc
    have hc' : ∀ a ∈ args, a.Clean := by cases hc with | group h => exact h
    obtain ⟨l, e1, o1, k1⟩ := items_of fun a ha => ih a ha (hc' a ha)
    obtain ⟨g, e2, hg, k2⟩ := newGroup_spec ho l o1
    refine ⟨.group (some g), by rw [Arg.item, e1]; simp only [e2, Option.map_some], hg, fun k => ?_⟩
    have : Item.has (.group (some g)) k ↔ g.keep k = true := Iff.rfl
    rw [this, k2, k1]
    constructor
    · rintro ⟨a, ha, hl⟩; exact .group ha hl
    · intro h
      cases h with
      | group ha hl => exact ⟨_, ha, hl⟩
  · intro h; cases h
  · intro _
    refine ⟨.other, by rw [Arg.item], trivial, fun k => ?_⟩
    constructor
    · intro h; cases h
    · intro h; cases h

theorem items_clean {ord : Group → List (Bytes × Bool)} (ho : ∀ g, (ord g).Perm g) {args : List Arg} (h : ∀ a ∈ args, a.Clean) :
    ∃ l g, Arg.items ord args = some l ∧ newFilterGroup ord l = some g ∧ ∀ k, g.keep k = true ↔ ∃ a ∈ args, a.Lists k := by
  obtain ⟨l, e1, o1, k1⟩ := items_of fun a ha => item_clean ho a (h a ha)
  obtain ⟨g, e2, _, k2⟩ := newGroup_spec ho l o1
  exact ⟨l, g, e1, e2, fun k => by rw [k2, k1]⟩

/-! ### The claims -/

/-- An include filter keeps exactly the names listed, directly or in groups, in whatever
order maps are visited. -/
theorem C44_include {ord : Group → List (Bytes × Bool)} (ho : ∀ g, (ord g).Perm g) {args : List Arg} (h : ∀ a ∈ args, a.Clean) :
    ∃ f, includeArgs ord args = some f ∧ ∀ name, f.keep name = true ↔ ∃ a ∈ args, a.Lists name := by
  obtain ⟨l, g, e1, e2, hk⟩ := items_clean ho h
  refine ⟨.incl g, ?_, fun k => hk k⟩
  rw [includeArgs, e1]
  simp only [Option.bind_some, newIncludeFilter, e2, Option.map_some]

/-- An exclude filter keeps exactly the names that are not listed. -/
theorem C44_exclude {ord : Group → List (Bytes × Bool)} (ho : ∀ g, (ord g).Perm g) {args : List Arg} (h : ∀ a ∈ args, a.Clean) :
    ∃ f, excludeArgs ord args = some f ∧ ∀ name, f.keep name = true ↔ ¬ ∃ a ∈ args, a.Lists name := by
  obtain ⟨l, g, e1, e2, hk⟩ := items_clean ho h
  refine ⟨.excl g, ?_, fun k => ?_⟩
  · rw [excludeArgs, e1]
    simp only [Option.bind_some, newExcludeFilter, e2, Option.map_some]
  · rw [← hk, Filter.keep, Bool.not_eq_true', Bool.eq_false_iff]

/-- The arguments of the examples: a name, a group of a name and of another group, a
number that is not a filter. -/
def someArgs : List Arg := [.name b!"a", .group [.name b!"b", .group [.name b!"c", .name b!"a"]], .other]

theorem someArgs_clean : ∀ a ∈ someArgs, a.Clean := by
  intro a ha
  simp only [someArgs, List.mem_cons, List.not_mem_nil, or_false] at ha
  rcases ha with rfl | rfl | rfl
  · exact .name _
  · refine .group fun a ha => ?_
    simp only [List.mem_cons, List.not_mem_nil, or_false] at ha
    rcases ha with rfl | rfl
    · exact .name _
    · refine .group fun a ha => ?_
      simp only [List.mem_cons, List.not_mem_nil, or_false] at ha
      rcases ha with rfl | rfl <;> exact .name _
  · exact .other

example : ((includeArgs List.reverse someArgs).map fun f => [b!"a", b!"b", b!"c", b!"d"].map f.keep) = some [true, true, true, false] := by
  decide +kernel
example : ((excludeArgs List.reverse someArgs).map fun f => [b!"a", b!"b", b!"c", b!"d"].map f.keep) = some [false, false, false, true] := by
  decide +kernel

/-- A nil group anywhere makes the program panic. -/
theorem C44_nil_group_panics (ord : Group → List (Bytes × Bool)) (args more : List Arg) :
    includeArgs ord (args ++ .nilGroup :: more) = none ∧ excludeArgs ord (args ++ .nilGroup :: more) = none := by
  have step : ∀ (l : List Item) (k : List Item) (g : Group), Group.addAll ord g (l ++ .group none :: k) = none := by
    intro l
    induction l with
    | nil => intro k g; rw [List.nil_append, Group.addAll]; rfl
    | cons i l ih =>
      intro k g
      rw [List.cons_append, Group.addAll]
      cases Group.add ord g i with
      | none => rfl
      | some g' => exact ih k g'
  have shape : ∀ args : List Arg, Arg.items ord (args ++ .nilGroup :: more) = none ∨
      ∃ l k, Arg.items ord (args ++ .nilGroup :: more) = some (l ++ .group none :: k) := by
    intro args
    induction args with
    | nil =>
      rw [List.nil_append, Arg.items, Arg.item]
      cases Arg.items ord more with
      | none => exact .inl rfl
      | some k => exact .inr ⟨[], k, rfl⟩
    | cons a args ih =>
      rw [List.cons_append, Arg.items]
      cases Arg.item ord a with
      | none => exact .inl rfl
      | some i =>
        rcases ih with e | ⟨l, k, e⟩
        · rw [e]; exact .inl rfl
        · rw [e]; exact .inr ⟨i :: l, k, rfl⟩
  rcases shape args with e | ⟨l, k, e⟩
  · simp only [includeArgs, excludeArgs, e, Option.bind_none, and_self]
  · simp only [includeArgs, excludeArgs, e, Option.bind_some, newIncludeFilter, newExcludeFilter, newFilterGroup, step,
      Option.map_none, and_self]

example : includeArgs id [.name b!"a", .nilGroup, .name b!"b"] = none := (C44_nil_group_panics id [.name b!"a"] [.name b!"b"]).1

/-- Groups keep the union: a filter made of groups keeps a name iff the filter made of one
of the groups keeps it. -/
theorem C44_union {ord : Group → List (Bytes × Bool)} (ho : ∀ g, (ord g).Perm g) {groups : List (List Arg)}
    (h : ∀ g ∈ groups, ∀ a ∈ g, a.Clean) :
    ∃ f, includeArgs ord (groups.map .group) = some f ∧
      ∀ name, f.keep name = true ↔ ∃ g ∈ groups, ∃ f', includeArgs ord g = some f' ∧ f'.keep name = true := by
  obtain ⟨f, e, hf⟩ := C44_include ho (args := groups.map .group) (by
    intro a ha
    obtain ⟨g, hg, rfl⟩ := List.mem_map.1 ha
    exact .group (h g hg))
  refine ⟨f, e, fun name => ?_⟩
  rw [hf]
  constructor
  · rintro ⟨a, ha, hl⟩
    obtain ⟨g, hg, rfl⟩ := List.mem_map.1 ha
    obtain ⟨f', e', hf'⟩ := C44_include ho (h g hg)
    refine ⟨g, hg, f', e', (hf' name).2 ?_⟩
    cases hl with
    | group ha hl => exact ⟨_, ha, hl⟩
  · rintro ⟨g, hg, f', e', hk⟩
    obtain ⟨f2, e2, hf2⟩ := C44_include ho (h g hg)
    have : f2 = f' := by rw [e2] at e'; cases e'; rfl
    subst this
    obtain ⟨a, ha, hl⟩ := (hf2 name).1 hk
    exact ⟨.group g, List.mem_map.2 ⟨g, hg, rfl⟩, .group ha hl⟩

example : ((includeArgs id [.group someArgs, .group [.name b!"d"]]).map fun f => [b!"a", b!"d", b!"e"].map f.keep) =
    some [true, true, false] := by decide +kernel

/-! ### Keepers -/

/-- Keepers that include and exclude the same names share the handlers of the benchmarks
between them: every handler is kept by exactly one, as often and in the same order as in
the list of handlers. -/
theorem C44_partition {F : Type} {ord : Group → List (Bytes × Bool)} (ho : ∀ g, (ord g).Perm g) {args : List Arg}
    (h : ∀ a ∈ args, a.Clean) (S : Sorter) (pick : List Bytes → List Bytes) (b : Bench F) (w : Warns) :
    ∃ fi fe, includeArgs ord args = some fi ∧ excludeArgs ord args = some fe ∧
      (keeperHandlers S pick (some fi) b w).Sublist (b.handlerTags S pick).2 ∧
      (keeperHandlers S pick (some fe) b w).Sublist (b.handlerTags S pick).2 ∧
      (keeperHandlers S pick (some fi) b w ++ keeperHandlers S pick (some fe) b w).Perm (b.handlerTags S pick).2 ∧
      ∀ tag ∈ (b.handlerTags S pick).2,
        (tag ∈ keeperHandlers S pick (some fi) b w ↔ ∃ a ∈ args, a.Lists (warnHandlerName w tag)) ∧
        (tag ∈ keeperHandlers S pick (some fe) b w ↔ ¬ ∃ a ∈ args, a.Lists (warnHandlerName w tag)) := by
  obtain ⟨fi, ei, hi⟩ := C44_include ho h
  obtain ⟨fe, ee, he⟩ := C44_exclude ho h
  have hne : ∀ n, fe.keep n = !fi.keep n := by
    intro n
    rw [Bool.eq_iff_iff, he, Bool.not_eq_true', Bool.eq_false_iff, ne_eq, hi]
  refine ⟨fi, fe, ei, ee, List.filter_sublist, List.filter_sublist, ?_, fun tag ht => ⟨?_, ?_⟩⟩
  · unfold keeperHandlers kept
    simp only [hne]
    exact List.filter_append_perm _ _
  · unfold keeperHandlers kept
    rw [List.mem_filter, ← hi]
    simp [ht]
  · unfold keeperHandlers kept
    rw [List.mem_filter, ← he]
    simp [ht]

/-- Without a filter a keeper has all handlers and tests. -/
theorem C44_no_filter {F : Type} (S : Sorter) (pick : List Bytes → List Bytes) (b : Bench F) (w : Warns) :
    keeperHandlers S pick none b w = (b.handlerTags S pick).2 ∧
      ((∀ t ∈ (b.testTags S pick).2, b.hasTest t = true) → keeperTests S pick none b w = (b.testTags S pick).2) := by
  unfold keeperHandlers keeperTests kept
  refine ⟨by simp, fun h => ?_⟩
  rw [List.filter_eq_self]
  intro t ht
  simp [h t ht]

/-- Benchmarks of two handlers and two tests; one handler is known to the warnings under a full name. -/
def someBench : Bench Nat :=
  { byHandler := [(b!"slog_json", []), (b!"madkins_replattr", [])],
    byTest := [(b!"Bench.Simple", []), (b!"Bench.Logging", [])] }
def someWarns : Warns := { handlerData := [(b!"slog_json", { name := b!"slog/JSONHandler" }), (b!"madkins_replattr", { name := b!"madkins/replattr" })] }

example : keeperHandlers someSorter id (filterBasic id) someBench someWarns = [b!"slog_json"] ∧
    keeperHandlers someSorter id (filterDedup id) someBench someWarns = [b!"slog_json"] ∧
    keeperHandlers someSorter id (filterReplAttr id) someBench someWarns = [b!"madkins_replattr"] ∧
    keeperHandlers someSorter id none someBench someWarns = [b!"madkins_replattr", b!"slog_json"] := by decide +kernel

/-- The names of the handlers of `group.Dedup`. -/
def dedupNames : List Bytes := [b!"snqk/meld", b!"veqryn/dedup/Append", b!"veqryn/dedup/Ignore", b!"veqryn/dedup/Increment", b!"veqryn/dedup/Overwrite"]

theorem dedup_items {ord : Group → List (Bytes × Bool)} :
    groupDedup ord = newFilterGroup ord (dedupNames.map .str) := rfl

theorem has_strs (l : List Bytes) (k : Bytes) : (∃ i ∈ l.map Item.str, Item.has i k) ↔ k ∈ l := by
  constructor
  · rintro ⟨i, hi, hh⟩
    obtain ⟨s, hs, rfl⟩ := List.mem_map.1 hi
    cases hh
    exact hs
  · intro h
    exact ⟨.str k, List.mem_map.2 ⟨k, h, rfl⟩, rfl⟩

theorem strs_ok (l : List Bytes) : ∀ i ∈ l.map Item.str, Item.Ok i := by
  intro i hi
  obtain ⟨s, _, rfl⟩ := List.mem_map.1 hi
  trivial

/-- The filters of the keepers: the basic one keeps every name but those of the handlers
that replace attributes or remove duplicates, the two others keep these and one handler to compare them with. -/
theorem C44_configured {ord : Group → List (Bytes × Bool)} (ho : ∀ g, (ord g).Perm g) :
    ∃ fb fd fr, filterBasic ord = some fb ∧ filterDedup ord = some fd ∧ filterReplAttr ord = some fr ∧ ∀ name,
      (fb.keep name = true ↔ name ≠ b!"madkins/replattr" ∧ name ∉ dedupNames) ∧
      (fd.keep name = true ↔ name = b!"slog/JSONHandler" ∨ name ∈ dedupNames) ∧
      (fr.keep name = true ↔ name = b!"madkins/flash" ∨ name = b!"madkins/replattr") := by
  obtain ⟨gd, ed, od, kd⟩ := newGroup_spec ho _ (strs_ok dedupNames)
  obtain ⟨gr, er, or', kr⟩ := newGroup_spec ho _ (strs_ok [b!"madkins/replattr"])
  rw [← dedup_items] at ed
  replace er : groupReplAttr ord = some gr := er
  have fix : ∀ (i j : Item), Item.Ok i → Item.Ok j → ∀ l ∈ [i, j], Item.Ok l := by
    intro i j hi hj l hl
    simp only [List.mem_cons, List.not_mem_nil, or_false] at hl
    rcases hl with rfl | rfl
    · exact hi
    · exact hj
  obtain ⟨g1, e1, _, k1⟩ := newGroup_spec ho [.group (some gr), .group (some gd)] (fix _ _ or' od)
  obtain ⟨g2, e2, _, k2⟩ := newGroup_spec ho [.str b!"slog/JSONHandler", .group (some gd)] (fix _ _ trivial od)
  obtain ⟨g3, e3, _, k3⟩ := newGroup_spec ho [.str b!"madkins/flash", .group (some gr)] (fix _ _ trivial or')
  refine ⟨.excl g1, .incl g2, .incl g3, ?_, ?_, ?_, fun name => ?_⟩
  · rw [filterBasic, er, ed, newExcludeFilter, e1]; rfl
  · rw [filterDedup, ed, newIncludeFilter, e2]; rfl
  · rw [filterReplAttr, er, newIncludeFilter, e3]; rfl
  · simp only [has_strs] at kd kr
    refine ⟨?_, ?_, ?_⟩
    · rw [Filter.keep, Bool.not_eq_true', Bool.eq_false_iff, ne_eq, k1]
      simp only [List.mem_cons, List.not_mem_nil, or_false, exists_eq_or_imp, exists_eq_left, Item.has, kd, kr, not_or, ne_eq]
    · rw [Filter.keep, k2]
      simp only [List.mem_cons, List.not_mem_nil, or_false, exists_eq_or_imp, exists_eq_left, Item.has, kd]
    · rw [Filter.keep, k3]
      simp only [List.mem_cons, List.not_mem_nil, or_false, exists_eq_or_imp, exists_eq_left, Item.has, kr]

example : ((filterBasic id).map fun f => [b!"madkins/replattr", b!"veqryn/dedup/Ignore", b!"veqryn/dedup", b!"madkins/flash"].map f.keep) =
    some [false, false, true, true] := by decide +kernel

/-- The filter, meant for handlers, also selects tests: a test is kept only if the filter keeps
its name. -/
theorem C44_tests_too {F : Type} (S : Sorter) (pick : List Bytes → List Bytes) (f : Filter) (b : Bench F) (w : Warns) (t : Bytes) :
    t ∈ keeperTests S pick (some f) b w ↔ t ∈ (b.testTags S pick).2 ∧ b.hasTest t = true ∧ f.keep (warnTestName w t) = true := by
  unfold keeperTests kept
  rw [List.mem_filter, Bool.and_eq_true]

/-- So the keepers with include filters have no tests at all, unless a test is named like
one of the handlers. -/
theorem C44_plus_keepers_have_no_tests {F : Type} {ord : Group → List (Bytes × Bool)} (ho : ∀ g, (ord g).Perm g)
    (S : Sorter) (pick : List Bytes → List Bytes) (b : Bench F) (w : Warns)
    (h : ∀ t, warnTestName w t ∉ b!"slog/JSONHandler" :: b!"madkins/flash" :: b!"madkins/replattr" :: dedupNames) :
    keeperTests S pick (filterDedup ord) b w = [] ∧ keeperTests S pick (filterReplAttr ord) b w = [] := by
  obtain ⟨fb, fd, fr, _, ed, er, hk⟩ := C44_configured ho
  have h' := fun t => h t
  simp only [List.mem_cons, not_or] at h'
  rw [ed, er]
  constructor
  · refine List.eq_nil_iff_forall_not_mem.2 fun t ht => ?_
    obtain ⟨_, _, hf⟩ := (C44_tests_too S pick fd b w t).1 ht
    rcases (hk _).2.1.1 hf with e | e
    · exact (h' t).1 e
    · refine h t ?_
      simp [e]
  · refine List.eq_nil_iff_forall_not_mem.2 fun t ht => ?_
    obtain ⟨_, _, hf⟩ := (C44_tests_too S pick fr b w t).1 ht
    rcases (hk _).2.2.1 hf with e | e
    · exact (h' t).2.1 e
    · exact (h' t).2.2.1 e

example : keeperTests someSorter id (filterDedup id) someBench someWarns = [] ∧ keeperTests someSorter id (filterReplAttr id) someBench someWarns = [] ∧
    keeperTests someSorter id (filterBasic id) someBench someWarns = [b!"Bench.Logging", b!"Bench.Simple"] := by decide +kernel

/-- Names are looked up in the warnings: if these say nothing about a handler, its tag
is compared instead of its name, and the basic filter does not find what it should exclude. -/
theorem C44_unnamed_not_excluded {F : Type} {ord : Group → List (Bytes × Bool)} (ho : ∀ g, (ord g).Perm g)
    (S : Sorter) (pick : List Bytes → List Bytes) (b : Bench F) (w : Warns) (tag : Bytes)
    (ht : tag ∈ (b.handlerTags S pick).2) (hs : 0x2F ∉ tag) (hw : w.handlerData.get tag = none) :
    tag ∈ keeperHandlers S pick (filterBasic ord) b w := by
  obtain ⟨fb, fd, fr, eb, _, _, hk⟩ := C44_configured ho
  rw [eb]
  unfold keeperHandlers kept
  rw [List.mem_filter]
  refine ⟨ht, ?_⟩
  have : warnHandlerName w tag = tag := by unfold warnHandlerName; rw [hw]
  simp only [this]
  rw [(hk tag).1]
  constructor
  · rintro rfl; exact hs (by decide)
  · intro hm
    simp only [dedupNames, List.mem_cons, List.not_mem_nil, or_false] at hm
    rcases hm with rfl | rfl | rfl | rfl | rfl <;> exact hs (by decide)

example : keeperHandlers someSorter id (filterBasic id) someBench {} = [b!"madkins_replattr", b!"slog_json"] := by decide +kernel

/-- Every test of the benchmarks counts for exactly one axis of the keeper `Size`: the
large tests for the first, the others for the second. -/
theorem C44_size (tests : List Bytes) (t : Bytes) (ht : t ∈ tests) :
    (Score.isTrue (sizeLarge tests) t = true ↔ t = b!"Bench.BigGroup" ∨ t = b!"Bench.Logging") ∧
      Score.isTrue (sizeSmall tests) t = !Score.isTrue (sizeLarge tests) t := by
  have all : ∀ (l : List Bytes) (v : Bool) (m : Map Bytes Bool) (k : Bytes),
      Map.get (l.foldl (fun m t => m.set t v) m) k = if k ∈ l then some v else m.get k := by
    intro l v
    induction l with
    | nil => intro m k; simp
    | cons a l ih =>
      intro m k
      rw [List.foldl_cons, ih, Map.get_set]
      by_cases h1 : k ∈ l
      · simp [h1]
      · by_cases h2 : k = a <;> simp [h1, h2]
  have h1 : Score.isTrue (sizeLarge tests) t = true ↔ t ∈ largeTests := by
    unfold Score.isTrue sizeLarge testTagMap
    rw [all, Option.getD_some, all]
    simp only [List.not_mem_nil, if_false, Map.get_nil]
    split <;> simp_all
  have h2 : Score.isTrue (sizeSmall tests) t = true ↔ t ∉ largeTests := by
    unfold Score.isTrue sizeSmall testTagMap
    rw [all, Option.getD_none, all]
    simp only [ht, if_true]
    split <;> simp_all
  refine ⟨?_, ?_⟩
  · rw [h1]; simp [largeTests]
  · rw [Bool.eq_iff_iff, h2, Bool.not_eq_true', Bool.eq_false_iff, ne_eq, h1]

example : [b!"Bench.Simple", b!"Bench.Logging", b!"Bench.BigGroup"].map (Score.isTrue (sizeLarge [b!"Bench.Simple", b!"Bench.Logging"])) = [false, true, true] := by
  decide +kernel

end Verif.Props.Filter
