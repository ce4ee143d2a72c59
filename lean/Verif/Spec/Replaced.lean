import Verif.Spec.LogTree

/-
Specification: members of attributes when a ReplaceAttr function is in force.
-/

namespace Verif.LogTree
open Slog Json

/-- What stays fixed: environment, time layout, which keys are built-in fields,
the replacement function, and whether the name of a group attribute is added to
the group names passed for its members (slog does, flash and sloggy do not). -/
structure Repl where
  env : Env
  layout : Bytes
  basic : Bytes → Bool
  f : AttrFn
  nest : Bool

/-- What the replacement function makes of an attribute: LogValuers are resolved
first, built-in fields get no groups. -/
def Repl.apply (R : Repl) (gs : List Bytes) (a : Attr) : Attr :=
  R.f (if R.basic a.key then [] else gs) (.mk a.key a.value.resolve)

theorem Repl.apply_mk (R : Repl) (gs : List Bytes) (k : Bytes) (v : Value) :
    R.apply gs (.mk k v) = R.f (if R.basic k then [] else gs) (.mk k v.resolve) := rfl

/-- Groups passed for the members of a group. -/
def Repl.inner (R : Repl) (gs : List Bytes) (k : Bytes) : List Bytes :=
  if R.nest && !k.isEmpty then gs ++ [k] else gs

/-- A printable value that is not a group, and its image. A LogValuer returned
by the replacement function is shown as the object it is. -/
def Shown (env : Env) (layout : Bytes) : Value → Tree → Prop
  | .logValuer o _, t => AnyClean (.obj o) ∧ anyTree (.obj o) = some t
  | v, t => LeafClean env layout v ∧ leafTree env layout v = some t

mutual
/-- `RAttr R gs n a ms`: under the group names `gs` the attribute `a` stands
for the members `ms`, with at most `n` nested groups. -/
inductive RAttr (R : Repl) : List Bytes → Nat → Attr → List (Bytes × Tree) → Prop
  /-- replaced by the empty attribute -/
  | gone {gs n a} : (R.apply gs a).isEmpty = true → RAttr R gs n a []
  /-- replaced by a group without content -/
  | hollow {gs n a k as} : R.apply gs a = .mk k (.group as) → listHasLeaf as = false → RAttr R gs n a []
  /-- replaced by a group without name -/
  | inline {gs n a as ms} : R.apply gs a = .mk [] (.group as) → listHasLeaf as = true →
      RList R gs n as ms → RAttr R gs (n + 1) a ms
  /-- replaced by a group -/
  | group {gs n a k as ms} : R.apply gs a = .mk k (.group as) → k ≠ [] → Utf8.Valid k →
      listHasLeaf as = true → RList R (R.inner gs k) n as ms → ms ≠ [] →
      RAttr R gs (n + 1) a [(k, .obj ms)]
  /-- replaced by anything else -/
  | leaf {gs n a k v t} : R.apply gs a = .mk k v → (Attr.mk k v).isEmpty = false → Utf8.Valid k →
      Shown R.env R.layout v t → RAttr R gs n a [(k, t)]
/-- The same for lists. -/
inductive RList (R : Repl) : List Bytes → Nat → List Attr → List (Bytes × Tree) → Prop
  | nil {gs n} : RList R gs n [] []
  | cons {gs n a as x y} : RAttr R gs n a x → RList R gs n as y → RList R gs n (a :: as) (x ++ y)
end

/-- Members of a record with attributes `as` logged through a handler derived
by `ops`: the replacement function is told the names given to WithGroup,
outermost first. -/
def RPlace (R : Repl) (n : Nat) : List Bytes → List Op → List Attr → List (Bytes × Tree) → Prop
  | gs, [], as, ms => RList R gs n as ms
  | gs, .attrs bs :: ops, as, ms => ∃ x y, RList R gs n bs x ∧ RPlace R n gs ops as y ∧ ms = x ++ y
  | gs, .group g :: ops, as, ms =>
    if g.isEmpty then RPlace R n gs ops as ms
    else if as.all Attr.isEmpty && groupsOnly ops then RList R gs n as ms
    else decodeBody g = some g ∧ ∃ y, RPlace R n (gs ++ [g]) ops as y ∧ ms = [(g, .obj y)]

/-- The group names in force when the record is handled. -/
def opened (quiet : Bool) : List Bytes → List Op → List Bytes
  | gs, [] => gs
  | gs, .attrs _ :: ops => opened quiet gs ops
  | gs, .group g :: ops =>
    if g.isEmpty then opened quiet gs ops
    else if quiet && groupsOnly ops then gs
    else opened quiet (gs ++ [g]) ops

end Verif.LogTree

namespace Verif.LogTree
open Slog Json

/-! ### Well-behaved replacement functions -/

/-- A replacement function that keeps groups as they are and turns any other
printable attribute into a printable one that is not a group, or removes it. -/
structure Tame (env : Env) (layout : Bytes) (f : AttrFn) : Prop where
  groups : ∀ gs k as, f gs (.mk k (.group as)) = .mk k (.group as)
  leaves : ∀ gs k v, Utf8.Valid k → LeafClean env layout v →
    (f gs (.mk k v)).isEmpty = true ∨
    (Utf8.Valid (f gs (.mk k v)).key ∧ LeafClean env layout (f gs (.mk k v)).value)

mutual
/-- Is something left of an attribute? -/
def attrLeft (R : Repl) (gs : List Bytes) : Attr → Bool
  | .mk k v => valLeft R gs k v
/-- The same for key and value. -/
def valLeft (R : Repl) (gs : List Bytes) (k : Bytes) : Value → Bool
  | .logValuer _ r => valLeft R gs k r
  | .group as => listHasLeaf as && listLeft R gs as
  | v => !(R.apply gs (.mk k v)).isEmpty
/-- Is something left of a list of attributes? -/
def listLeft (R : Repl) (gs : List Bytes) : List Attr → Bool
  | [] => false
  | a :: as => attrLeft R gs a || listLeft R gs as
end

mutual
/-- All keys and values are printable once LogValuers are resolved, and no group
loses all of its members to the replacement function. -/
def AttrSafe (R : Repl) (gs : List Bytes) : Attr → Prop
  | .mk k v => Utf8.Valid k ∧ ValSafe R gs v
/-- The same for a value. -/
def ValSafe (R : Repl) (gs : List Bytes) : Value → Prop
  | .logValuer _ r => ValSafe R gs r
  | .group as => (listHasLeaf as = true → listLeft R gs as = true) ∧ ListSafe R gs as
  | v => LeafClean R.env R.layout v
/-- The same for a list. -/
def ListSafe (R : Repl) (gs : List Bytes) : List Attr → Prop
  | [] => True
  | a :: as => AttrSafe R gs a ∧ ListSafe R gs as
end

mutual
/-- Nesting of groups, also those LogValuers stand for. -/
def attrDeep : Attr → Nat
  | .mk _ v => valDeep v
/-- The same for a value. -/
def valDeep : Value → Nat
  | .logValuer _ r => valDeep r
  | .group as => listDeep as + 1
  | _ => 0
/-- The same for a list. -/
def listDeep : List Attr → Nat
  | [] => 0
  | a :: as => max (attrDeep a) (listDeep as)
end

/-- The attributes given along a chain are safe, under the groups then open. -/
def OpsSafe (R : Repl) : List Bytes → List Op → Prop
  | _, [] => True
  | gs, .attrs as :: ops => ListSafe R gs as ∧ OpsSafe R gs ops
  | gs, .group g :: ops =>
    decodeBody g = some g ∧ OpsSafe R (if g.isEmpty then gs else gs ++ [g]) ops

/-- Nesting along a chain. -/
def opsDeep : List Op → Nat
  | [] => 0
  | .attrs as :: ops => max (listDeep as) (opsDeep ops)
  | .group _ :: ops => opsDeep ops

theorem leafClean_tree {env : Env} {layout : Bytes} {v : Value} (h : LeafClean env layout v) :
    ∃ t, leafTree env layout v = some t ∧ Shown env layout v t := by
  have key : ∀ v, LeafClean env layout v → (∃ t, leafTree env layout v = some t) := by
    intro v h
    cases v with
    | any a =>
      simp only [LeafClean] at h
      simp only [leafTree]
      cases a with
      | nil => exact ⟨_, rfl⟩
      | obj o =>
        obtain ⟨net, st, er, jm, tm, ma⟩ := o
        simp only [AnyClean] at h
        simp only [anyTree]
        cases st with
        | some s => exact ⟨_, rfl⟩
        | none =>
          cases er with
          | some s => exact ⟨_, rfl⟩
          | none =>
            cases jm with
            | some r => cases r with
              | ok t => exact ⟨_, rfl⟩
              | error e => exact h.elim
            | none =>
              cases tm with
              | some r => cases r with
                | ok t => exact ⟨_, rfl⟩
                | error e => exact h.elim
              | none =>
                cases ma with
                | ok b =>
                  obtain ⟨t, ht⟩ := h
                  exact ⟨t, parseTree_of_denotes ht.1⟩
                | error e => exact h.elim
    | group as => exact h.elim
    | logValuer o r => exact h.elim
    | _ => exact ⟨_, rfl⟩
  obtain ⟨t, ht⟩ := key v h
  refine ⟨t, ht, ?_⟩
  cases v with
  | logValuer o r => exact h.elim
  | _ => exact ⟨h, ht⟩

theorem leaf_case {R : Repl} (ht : Tame R.env R.layout R.f) (gs : List Bytes) (k : Bytes) (v : Value)
    (n : Nat) (hk : Utf8.Valid k) (h : LeafClean R.env R.layout v) (hr : v.resolve = v)
    (hl : valLeft R gs k v = !(R.apply gs (.mk k v)).isEmpty) :
    ∃ ms, (∀ w : Value, w.resolve = v.resolve → RAttr R gs n (.mk k w) ms) ∧
      (valLeft R gs k v = true → ms ≠ []) := by
  have eta : ∀ a : Attr, Attr.mk a.key a.value = a := fun ⟨_, _⟩ => rfl
  have ap : ∀ w : Value, w.resolve = v.resolve → R.apply gs (.mk k w) = R.apply gs (.mk k v) := by
    intro w hw
    rw [Repl.apply_mk, hw, Repl.apply_mk]
  rcases he : (R.apply gs (.mk k v)).isEmpty with _ | _
  · obtain ⟨t, _, h2⟩ : ∃ t, leafTree R.env R.layout (R.apply gs (.mk k v)).value = some t ∧
        Shown R.env R.layout (R.apply gs (.mk k v)).value t := by
      rcases ht.leaves (if R.basic k then [] else gs) k v hk h with h' | ⟨_, h'⟩
      · rw [Repl.apply_mk, hr] at he
        rw [h'] at he; cases he
      · rw [Repl.apply_mk, hr]
        exact leafClean_tree h'
    have hv : Utf8.Valid (R.apply gs (.mk k v)).key := by
      rcases ht.leaves (if R.basic k then [] else gs) k v hk h with h' | ⟨h', _⟩
      · rw [Repl.apply_mk, hr] at he
        rw [h'] at he; cases he
      · rw [Repl.apply_mk, hr]; exact h'
    refine ⟨[((R.apply gs (.mk k v)).key, t)], fun w hw => ?_, by simp⟩
    refine .leaf (k := (R.apply gs (.mk k v)).key) (v := (R.apply gs (.mk k v)).value) ?_ ?_ hv h2
    · rw [ap w hw, eta]
    · rw [eta]; exact he
  · exact ⟨[], fun w hw => .gone (by rw [ap w hw]; exact he), by rw [hl, he]; simp⟩

mutual
theorem safe_attr {R : Repl} (hn : R.nest = false) (ht : Tame R.env R.layout R.f) (gs : List Bytes) :
    ∀ (a : Attr) (n : Nat), AttrSafe R gs a → attrDeep a ≤ n →
    ∃ ms, RAttr R gs n a ms ∧ (attrLeft R gs a = true → ms ≠ [])
  | .mk k v, n, h, hd => by
    simp only [AttrSafe] at h
    simp only [attrDeep] at hd
    obtain ⟨ms, h1, h2⟩ := safe_val hn ht gs k v n h.1 h.2 hd
    exact ⟨ms, h1 _ rfl, by simpa only [attrLeft] using h2⟩
theorem safe_val {R : Repl} (hn : R.nest = false) (ht : Tame R.env R.layout R.f) (gs : List Bytes) :
    ∀ (k : Bytes) (v : Value) (n : Nat), Utf8.Valid k → ValSafe R gs v → valDeep v ≤ n →
    ∃ ms, (∀ w : Value, w.resolve = v.resolve → RAttr R gs n (.mk k w) ms) ∧
      (valLeft R gs k v = true → ms ≠ [])
  | k, .logValuer o r, n, hk, h, hd => by
    simp only [ValSafe] at h
    simp only [valDeep] at hd
    obtain ⟨ms, h1, h2⟩ := safe_val hn ht gs k r n hk h hd
    exact ⟨ms, fun w hw => h1 w (by rw [hw]; rfl), by simpa only [valLeft] using h2⟩
  | k, .group as, n, hk, h, hd => by
    simp only [ValSafe] at h
    simp only [valDeep] at hd
    obtain ⟨n, rfl⟩ : ∃ m, n = m + 1 := ⟨n - 1, by omega⟩
    obtain ⟨ms, h1, h2⟩ := safe_list hn ht gs as n h.2 (by omega)
    have ap : ∀ w : Value, w.resolve = (Value.group as).resolve →
        R.apply gs (.mk k w) = .mk k (.group as) := by
      intro w hw
      rw [Repl.apply_mk, hw]
      exact ht.groups _ _ _
    cases hl : listHasLeaf as with
    | false =>
      exact ⟨[], fun w hw => .hollow (ap w hw) hl, by simp only [valLeft, hl]; simp⟩
    | true =>
      have hms := h2 (h.1 hl)
      cases k with
      | nil => exact ⟨ms, fun w hw => .inline (ap w hw) hl h1, fun _ => hms⟩
      | cons c k =>
        refine ⟨[(c :: k, .obj ms)], fun w hw => .group (ap w hw) (by simp) hk hl ?_ hms, by simp⟩
        simpa [Repl.inner, hn] using h1
  | k, .any a, n, hk, h, hd | k, .bool a, n, hk, h, hd | k, .duration a, n, hk, h, hd
  | k, .float64 a, n, hk, h, hd | k, .int64 a, n, hk, h, hd | k, .string a, n, hk, h, hd
  | k, .time a, n, hk, h, hd | k, .uint64 a, n, hk, h, hd => by
    simp only [ValSafe] at h
    refine leaf_case ht gs k _ n hk h ?_ ?_ <;> intros <;> simp_all [Value.resolve, valLeft]
theorem safe_list {R : Repl} (hn : R.nest = false) (ht : Tame R.env R.layout R.f) (gs : List Bytes) :
    ∀ (as : List Attr) (n : Nat), ListSafe R gs as → listDeep as ≤ n →
    ∃ ms, RList R gs n as ms ∧ (listLeft R gs as = true → ms ≠ [])
  | [], n, _, _ => ⟨[], .nil, by simp [listLeft]⟩
  | a :: as, n, h, hd => by
    simp only [ListSafe] at h
    simp only [listDeep] at hd
    obtain ⟨x, h1, h2⟩ := safe_attr hn ht gs a n h.1 (by omega)
    obtain ⟨y, h3, h4⟩ := safe_list hn ht gs as n h.2 (by omega)
    refine ⟨x ++ y, .cons h1 h3, ?_⟩
    simp only [listLeft, Bool.or_eq_true]
    rintro (h | h)
    · simp [h2 h]
    · simp [h4 h]
end

/-- Under safe conditions a placement exists. -/
theorem safe_place {R : Repl} (hn : R.nest = false) (ht : Tame R.env R.layout R.f) (as : List Attr)
    (n : Nat) (hd : listDeep as ≤ n) : ∀ (ops : List Op) (gs : List Bytes), OpsSafe R gs ops →
    opsDeep ops ≤ n → ListSafe R (opened (as.all Attr.isEmpty) gs ops) as →
    ∃ pl, RPlace R n gs ops as pl := by
  intro ops
  induction ops with
  | nil =>
    intro gs _ _ hs
    obtain ⟨ms, h, _⟩ := safe_list hn ht gs as n hs hd
    exact ⟨ms, h⟩
  | cons op ops ih =>
    intro gs ho hdo hs
    cases op with
    | attrs bs =>
      simp only [OpsSafe] at ho
      simp only [opsDeep] at hdo
      obtain ⟨x, h1, _⟩ := safe_list hn ht gs bs n ho.1 (by omega)
      obtain ⟨y, h2⟩ := ih gs ho.2 (by omega) hs
      exact ⟨x ++ y, x, y, h1, h2, rfl⟩
    | group g =>
      simp only [OpsSafe] at ho
      simp only [opsDeep] at hdo
      simp only [opened] at hs
      by_cases hg : g.isEmpty = true
      · rw [if_pos hg] at hs ho
        obtain ⟨y, h⟩ := ih gs ho.2 hdo hs
        exact ⟨y, by rw [RPlace, if_pos hg]; exact h⟩
      · rw [if_neg hg] at hs ho
        by_cases hq : (as.all Attr.isEmpty && groupsOnly ops) = true
        · rw [if_pos hq] at hs
          obtain ⟨ms, h, _⟩ := safe_list hn ht gs as n hs hd
          exact ⟨ms, by rw [RPlace, if_neg hg, if_pos hq]; exact h⟩
        · rw [if_neg hq] at hs
          obtain ⟨y, h⟩ := ih _ ho.2 hdo hs
          exact ⟨[(g, .obj y)], by rw [RPlace, if_neg hg, if_neg hq]; exact ⟨ho.1, y, h, rfl⟩⟩

end Verif.LogTree
