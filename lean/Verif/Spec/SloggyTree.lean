import Verif.Spec.Replaced
import Verif.Spec.Quotable

/-
Specification: the JSON members sloggy is to print.

* `imagesBy`/`placeBy`: members of attributes and of a record logged through a
  derivation chain, for any way of showing single values. LogValuers stand for
  the values they resolve to.
* `SAttr`, `SList`, `SPlace`: the same as relations, with or without a
  replacement function.
-/

namespace Verif.LogTree
open Slog Json

/-! ### Members for a given image of single values -/

mutual
/-- Members an attribute stands for. -/
def imageBy (leaf : Value → Option Tree) : Attr → Option (List (Bytes × Tree))
  | .mk k v => valImageBy leaf k v
/-- The same for key and value. -/
def valImageBy (leaf : Value → Option Tree) (k : Bytes) : Value → Option (List (Bytes × Tree))
  | .logValuer _ r => valImageBy leaf k r
  | .group as => (imagesBy leaf as).map (grouped k)
  | v => single k v (leaf v)
/-- Members of an attribute list. -/
def imagesBy (leaf : Value → Option Tree) : List Attr → Option (List (Bytes × Tree))
  | [] => some []
  | a :: as =>
    match imageBy leaf a, imagesBy leaf as with
    | some x, some y => some (x ++ y)
    | _, _ => none
end

/-- Members of a record logged through a chain of WithAttrs and WithGroup: each
attribute inside the groups opened before it; trailing groups are left out if
all attributes of the record are empty attributes. -/
def placeBy (leaf : Value → Option Tree) : List Op → List Attr → Option (List (Bytes × Tree))
  | [], as => imagesBy leaf as
  | .attrs bs :: ops, as =>
    match imagesBy leaf bs, placeBy leaf ops as with
    | some x, some y => some (x ++ y)
    | _, _ => none
  | .group n :: ops, as =>
    if n.isEmpty then placeBy leaf ops as
    else if as.all Attr.isEmpty && groupsOnly ops then some []
    else (placeBy leaf ops as).map fun ms => [(n, .obj ms)]

/-! ### Single values as sloggy shows them -/

/-- Marshaler text becomes a string, and so does the error. -/
def sResText : Res → Bytes
  | .ok t => t
  | .error e => b!"!ERROR:" ++ e

/-- Image of an `any`: null; the text of a network address, error, Stringer or
marshaler; or whatever `json.Marshal` says. -/
def sAnyTree : AnyVal → Option Tree
  | .nil => some .null
  | .obj o =>
    match o.net, o.error, o.stringer, o.jsonM, o.textM, o.marshal with
    | some s, _, _, _, _, _ => some (.str s)
    | none, some s, _, _, _, _ => some (.str s)
    | none, none, some s, _, _, _ => some (.str s)
    | none, none, none, some r, _, _ => some (.str (sResText r))
    | none, none, none, none, some r, _ => some (.str (sResText r))
    | none, none, none, none, none, .ok b => parseTree b
    | none, none, none, none, none, .error _ => none

/-- The time layout sloggy uses, RFC 3339 with nanoseconds. -/
def sLayout : Bytes := b!"2006-01-02T15:04:05.999999999Z07:00"

/-- Image of a value that is neither group nor LogValuer. -/
def sLeafTree (env : Env) : Value → Option Tree
  | .any a => sAnyTree a
  | .bool b => some (.bool b)
  | .duration d => some (.num (decInt d))
  | .float64 f => some (.num f.text)
  | .int64 i => some (.num (decInt i))
  | .string s => some (.str s)
  | .time t => some (.str (env.formatTime sLayout t))
  | .uint64 n => some (.num (decNat n))
  | .group _ => none
  | .logValuer _ _ => none

/-- The texts an `any` is shown by are quotable, and what `json.Marshal` returns
is JSON on one line. -/
def SAnyClean (p : Nat → Bool) : AnyVal → Prop
  | .nil => True
  | .obj o =>
    match o.net, o.error, o.stringer, o.jsonM, o.textM, o.marshal with
    | some s, _, _, _, _, _ => Quotable p s
    | none, some s, _, _, _, _ => Quotable p s
    | none, none, some s, _, _, _ => Quotable p s
    | none, none, none, some r, _, _ => Quotable p (sResText r)
    | none, none, none, none, some r, _ => Quotable p (sResText r)
    | none, none, none, none, none, .ok b => ∃ t, LineText b t
    | none, none, none, none, none, .error _ => False

/-- A printable single value. -/
def SLeafClean (env : Env) : Value → Prop
  | .any a => SAnyClean env.isPrint a
  | .float64 f => F64.finite f
  | .string s => Quotable env.isPrint s
  | .time t => Quotable env.isPrint (env.formatTime sLayout t)
  | .group _ => False
  | .logValuer _ _ => False
  | _ => True

/-! ### No replacement function -/

/-- The value of a LogValuer has something to show. -/
def Solid (k : Bytes) (v : Value) : Prop := (Attr.mk k v).isEmpty = false ∧ valHasLeaf v = true

mutual
/-- All keys and values are printable, and LogValuers stand for values with
something to show. -/
def SAttrClean (env : Env) : Attr → Prop
  | .mk k v => Quotable env.isPrint k ∧ SValClean env k v
/-- The same for key and value. -/
def SValClean (env : Env) (k : Bytes) : Value → Prop
  | .logValuer _ r => Solid k r.resolve ∧ SValClean env k r
  | .group as => SListClean env as
  | v => SLeafClean env v
/-- The same for a list. -/
def SListClean (env : Env) : List Attr → Prop
  | [] => True
  | a :: as => SAttrClean env a ∧ SListClean env as
end

/-- The attributes of a chain are printable, and group names can stand in a JSON
string as they are. -/
def SOpsClean (env : Env) : List Op → Prop
  | [] => True
  | .attrs as :: ops => SListClean env as ∧ SOpsClean env ops
  | .group n :: ops => decodeBody n = some n ∧ SOpsClean env ops

/-! ### With or without a replacement function -/

/-- The names of the built-in fields. -/
def sBasic (k : Bytes) : Bool := k == b!"time" || k == b!"level" || k == b!"msg" || k == b!"source"

/-- What stays fixed. -/
structure View where
  env : Env
  f : Option AttrFn

/-- The attribute to show: with its value resolved, or what the replacement
function makes of it. -/
def View.apply (S : View) (gs : List Bytes) (a : Attr) : Attr :=
  match S.f with
  | none => .mk a.key a.value.resolve
  | some f => f (if sBasic a.key then [] else gs) a

/-- The attribute is left out. -/
def View.gone (S : View) (gs : List Bytes) (a : Attr) : Bool :=
  a.isEmpty || (S.f.isSome && (S.apply gs a).isEmpty)

/-- A printable value that is not a group, and its image. A LogValuer returned
by the replacement function is shown as the object it is. -/
def SShown (env : Env) : Value → Tree → Prop
  | .logValuer o _, t => SAnyClean env.isPrint (.obj o) ∧ sAnyTree (.obj o) = some t
  | v, t => SLeafClean env v ∧ sLeafTree env v = some t

mutual
/-- `SAttr S gs n a ms`: under the group names `gs` the attribute `a` stands
for the members `ms`, with at most `n` nested groups. -/
inductive SAttr (S : View) : List Bytes → Nat → Attr → List (Bytes × Tree) → Prop
  /-- empty, or replaced by the empty attribute -/
  | gone {gs n a} : S.gone gs a = true → SAttr S gs n a []
  /-- a group without content -/
  | hollow {gs n a k as} : S.apply gs a = .mk k (.group as) → listHasLeaf as = false →
      SAttr S gs n a []
  /-- a group without name -/
  | inline {gs n a as ms} : S.gone gs a = false → S.apply gs a = .mk [] (.group as) →
      listHasLeaf as = true → SList S gs n as ms → SAttr S gs (n + 1) a ms
  /-- a group -/
  | group {gs n a k as ms} : S.gone gs a = false → S.apply gs a = .mk k (.group as) → k ≠ [] →
      Quotable S.env.isPrint k → listHasLeaf as = true → SList S gs n as ms →
      SAttr S gs (n + 1) a [(k, .obj ms)]
  /-- anything else -/
  | leaf {gs n a k v t} : S.gone gs a = false → S.apply gs a = .mk k v →
      Quotable S.env.isPrint k → SShown S.env v t → SAttr S gs n a [(k, t)]
/-- The same for lists. -/
inductive SList (S : View) : List Bytes → Nat → List Attr → List (Bytes × Tree) → Prop
  | nil {gs n} : SList S gs n [] []
  | cons {gs n a as x y} : SAttr S gs n a x → SList S gs n as y → SList S gs n (a :: as) (x ++ y)
end

/-- Members of a record with attributes `as` logged through a handler derived
by `ops`. -/
def SPlace (S : View) (n : Nat) : List Bytes → List Op → List Attr → List (Bytes × Tree) → Prop
  | gs, [], as, ms => SList S gs n as ms
  | gs, .attrs bs :: ops, as, ms => ∃ x y, SList S gs n bs x ∧ SPlace S n gs ops as y ∧ ms = x ++ y
  | gs, .group g :: ops, as, ms =>
    if g.isEmpty then SPlace S n gs ops as ms
    else if as.all Attr.isEmpty && groupsOnly ops then ms = []
    else decodeBody g = some g ∧ ∃ y, SPlace S n (gs ++ [g]) ops as y ∧ ms = [(g, .obj y)]

/-! ### Clean attributes have images -/

theorem sAnyClean_tree {p : Nat → Bool} {a : AnyVal} (h : SAnyClean p a) :
    ∃ t, sAnyTree a = some t := by
  cases a with
  | nil => exact ⟨_, rfl⟩
  | obj o =>
    obtain ⟨nt, s, e, j, x, m⟩ := o
    simp only [SAnyClean] at h
    simp only [sAnyTree]
    cases nt with
    | some s => exact ⟨_, rfl⟩
    | none =>
    cases e with
    | some s => exact ⟨_, rfl⟩
    | none =>
    cases s with
    | some s => exact ⟨_, rfl⟩
    | none =>
    cases j with
    | some s => exact ⟨_, rfl⟩
    | none =>
    cases x with
    | some s => exact ⟨_, rfl⟩
    | none =>
    cases m with
    | ok b =>
      obtain ⟨t, ht⟩ := h
      exact ⟨t, parseTree_of_denotes ht.1⟩
    | error e => exact h.elim

theorem sLeafClean_tree {env : Env} {v : Value} (h : SLeafClean env v) :
    ∃ t, sLeafTree env v = some t ∧ SShown env v t := by
  cases v with
  | any a =>
    obtain ⟨t, ht⟩ := sAnyClean_tree h
    exact ⟨t, ht, h, ht⟩
  | group as => exact h.elim
  | logValuer o r => exact h.elim
  | _ => exact ⟨_, rfl, h, rfl⟩

theorem apply_none {S : View} (hf : S.f = none) (gs : List Bytes) (k : Bytes) (v : Value) :
    S.apply gs (.mk k v) = .mk k v.resolve := by
  simp [View.apply, hf]

theorem gone_none {S : View} (hf : S.f = none) (gs : List Bytes) (a : Attr) :
    S.gone gs a = a.isEmpty := by
  simp [View.gone, hf]

theorem leaf_image {S : View} (hf : S.f = none) (gs : List Bytes) (n : Nat) {k : Bytes} {v w : Value}
    (hk : Quotable S.env.isPrint k) (h : SLeafClean S.env v) (hv : v.resolve = v)
    (hw : w.resolve = v) (hs : w = v ∨ (Attr.mk k v).isEmpty = false) :
    ∃ ms, single k v (sLeafTree S.env v) = some ms ∧ SAttr S gs n (.mk k w) ms ∧
      ((Attr.mk k v).isEmpty = false → ms ≠ []) := by
  obtain ⟨t, h1, h2⟩ := sLeafClean_tree h
  cases he : (Attr.mk k v).isEmpty with
  | true =>
    rcases hs with rfl | hs
    · exact ⟨[], by simp [single, he], .gone (by rw [gone_none hf, he]), by simp⟩
    · rw [he] at hs; cases hs
  | false =>
    have hwe : (Attr.mk k w).isEmpty = false := by
      cases hwe : (Attr.mk k w).isEmpty with
      | false => rfl
      | true =>
        have : w = .any .nil := by
          unfold Attr.isEmpty at hwe
          split at hwe
          · rename_i e; cases e; rfl
          · simp at hwe
        subst this
        simp [Value.resolve] at hw
        subst hw
        rw [hwe] at he; cases he
    refine ⟨[(k, t)], by simp [single, he, h1], .leaf ?_ ?_ hk h2, by simp⟩
    · rw [gone_none hf, hwe]
    · rw [apply_none hf, hw]

theorem leaf_val {S : View} (hf : S.f = none) (gs : List Bytes) (n : Nat) {k : Bytes} {v : Value}
    (hk : Quotable S.env.isPrint k) (h : SLeafClean S.env v) (hv : v.resolve = v)
    (hi : valImageBy (sLeafTree S.env) k v = single k v (sLeafTree S.env v)) :
    ∃ ms, valImageBy (sLeafTree S.env) k v = some ms ∧
      (∀ w : Value, w.resolve = v.resolve → (w = v ∨ Solid k v.resolve) → SAttr S gs n (.mk k w) ms) ∧
      ((Attr.mk k v).isEmpty = false → valHasLeaf v = true → ms ≠ []) := by
  obtain ⟨ms, h1, _, h3⟩ := leaf_image hf gs n hk h hv hv (.inl rfl)
  refine ⟨ms, by rw [hi, h1], fun w hw hs => ?_, fun he _ => h3 he⟩
  rw [hv] at hw hs
  obtain ⟨ms', h1', h2', _⟩ := leaf_image hf gs n hk h hv hw (hs.imp id (·.1))
  rw [h1] at h1'
  cases h1'
  exact h2'

mutual
theorem clean_attr {S : View} (hf : S.f = none) (gs : List Bytes) : ∀ (a : Attr) (n : Nat),
    SAttrClean S.env a → attrDeep a ≤ n →
    ∃ ms, imageBy (sLeafTree S.env) a = some ms ∧ SAttr S gs n a ms ∧
      (attrHasLeaf a = true → ms ≠ [])
  | .mk k v, n, h, hd => by
    simp only [SAttrClean] at h
    simp only [attrDeep] at hd
    obtain ⟨ms, h1, h2, h3⟩ := clean_val hf gs k v n h.1 h.2 hd
    refine ⟨ms, by rw [imageBy]; exact h1, h2 v rfl (.inl rfl), ?_⟩
    intro hl
    simp only [attrHasLeaf, Bool.and_eq_true, Bool.not_eq_true'] at hl
    exact h3 hl.1 hl.2
theorem clean_val {S : View} (hf : S.f = none) (gs : List Bytes) : ∀ (k : Bytes) (v : Value) (n : Nat),
    Quotable S.env.isPrint k → SValClean S.env k v → valDeep v ≤ n →
    ∃ ms, valImageBy (sLeafTree S.env) k v = some ms ∧
      (∀ w : Value, w.resolve = v.resolve → (w = v ∨ Solid k v.resolve) → SAttr S gs n (.mk k w) ms) ∧
      ((Attr.mk k v).isEmpty = false → valHasLeaf v = true → ms ≠ [])
  | k, .logValuer o r, n, hk, h, hd => by
    simp only [SValClean] at h
    simp only [valDeep] at hd
    obtain ⟨ms, h1, h2, h3⟩ := clean_val hf gs k r n hk h.2 hd
    have hres : (Value.logValuer o r).resolve = r.resolve := by simp [Value.resolve]
    refine ⟨ms, by rw [valImageBy]; exact h1, fun w hw _ => h2 w (by rw [hw, hres]) (.inr h.1), ?_⟩
    intro _ _
    apply h3
    · cases hr : (Attr.mk k r).isEmpty with
      | false => rfl
      | true =>
        exfalso
        have e : r = .any .nil := by
          unfold Attr.isEmpty at hr
          split at hr
          · rename_i e; cases e; rfl
          · simp at hr
        subst e
        have := h.1.1
        simp [Value.resolve] at this
        rw [hr] at this; cases this
    · cases r with
      | group as => simpa [Value.resolve] using h.1.2
      | _ => rfl
  | k, .group as, n, hk, h, hd => by
    simp only [SValClean] at h
    simp only [valDeep] at hd
    obtain ⟨n, rfl⟩ : ∃ m, n = m + 1 := ⟨n - 1, by omega⟩
    obtain ⟨ms, h1, h2, h3, h4⟩ := clean_list hf gs as n h (by omega)
    have ap : ∀ w : Value, w.resolve = (Value.group as).resolve →
        S.apply gs (.mk k w) = .mk k (.group as) := by
      intro w hw
      rw [apply_none hf, hw]; rfl
    have ng : ∀ w : Value, w.resolve = (Value.group as).resolve → S.gone gs (.mk k w) = false := by
      intro w hw
      rw [gone_none hf]
      cases w <;> simp [Value.resolve] at hw <;> cases k <;> rfl
    cases hl : listHasLeaf as with
    | false =>
      have := h4 hl
      subst this
      refine ⟨[], by rw [valImageBy, h1]; simp [grouped], fun w hw _ => .hollow (ap w hw) hl, ?_⟩
      intro _ h; simp [valHasLeaf, hl] at h
    | true =>
      have hms := h3 hl
      have hme : ms.isEmpty = false := by simpa using hms
      cases k with
      | nil =>
        refine ⟨ms, by rw [valImageBy, h1]; simp [grouped, hme],
          fun w hw _ => .inline (ng w hw) (ap w hw) hl h2, fun _ _ => hms⟩
      | cons c k =>
        refine ⟨[(c :: k, .obj ms)], by rw [valImageBy, h1]; simp [grouped, hme],
          fun w hw _ => .group (ng w hw) (ap w hw) (by simp) hk hl h2, by simp⟩
  | k, .any a, n, hk, h, hd | k, .bool a, n, hk, h, hd | k, .duration a, n, hk, h, hd
  | k, .float64 a, n, hk, h, hd | k, .int64 a, n, hk, h, hd | k, .string a, n, hk, h, hd
  | k, .time a, n, hk, h, hd | k, .uint64 a, n, hk, h, hd => by
    simp only [SValClean] at h
    refine leaf_val hf gs n hk h ?_ ?_ <;> first | rfl | simp [valImageBy]
theorem clean_list {S : View} (hf : S.f = none) (gs : List Bytes) : ∀ (as : List Attr) (n : Nat),
    SListClean S.env as → listDeep as ≤ n →
    ∃ ms, imagesBy (sLeafTree S.env) as = some ms ∧ SList S gs n as ms ∧
      (listHasLeaf as = true → ms ≠ []) ∧ (listHasLeaf as = false → ms = [])
  | [], n, _, _ => ⟨[], rfl, .nil, by simp [listHasLeaf], by simp⟩
  | a :: as, n, h, hd => by
    simp only [SListClean] at h
    simp only [listDeep] at hd
    obtain ⟨x, a1, a2, a3⟩ := clean_attr hf gs a n h.1 (by omega)
    obtain ⟨y, b1, b2, b3, b4⟩ := clean_list hf gs as n h.2 (by omega)
    refine ⟨x ++ y, by rw [imagesBy, a1, b1], .cons a2 b2, ?_, ?_⟩
    · simp only [listHasLeaf, Bool.or_eq_true]
      rintro (h | h)
      · simp [a3 h]
      · simp [b3 h]
    · simp only [listHasLeaf, Bool.or_eq_false_iff]
      rintro ⟨h1, h2⟩
      have := leafless_attr a h.1 a1 h1
      simp [this, b4 h2]
/-- An attribute without anything to show has no members. -/
theorem leafless_attr {env : Env} : ∀ (a : Attr) {ms : List (Bytes × Tree)}, SAttrClean env a →
    imageBy (sLeafTree env) a = some ms → attrHasLeaf a = false → ms = []
  | .mk k v, ms, hc, hi, hl => by
    rw [imageBy] at hi
    simp only [SAttrClean] at hc
    have hc := hc.2
    simp only [attrHasLeaf, Bool.and_eq_false_iff, Bool.not_eq_false'] at hl
    rcases hl with hl | hl
    · have e := hl
      unfold Attr.isEmpty at e
      split at e
      · rename_i e'; cases e'
        simp [valImageBy, single, Attr.isEmpty] at hi
        exact hi
      · simp at e
    · match v, hl, hi, hc with
      | .group as, hl, hi, hc =>
        simp only [SValClean] at hc
        rw [valImageBy] at hi
        simp only [valHasLeaf] at hl
        cases hx : imagesBy (sLeafTree env) as with
        | none => rw [hx] at hi; simp at hi
        | some xs =>
          rw [hx] at hi
          have := leafless_list as hc hx hl
          subst this
          simp [grouped] at hi
          exact hi
theorem leafless_list {env : Env} : ∀ (as : List Attr) {ms : List (Bytes × Tree)}, SListClean env as →
    imagesBy (sLeafTree env) as = some ms → listHasLeaf as = false → ms = []
  | [], ms, _, hi, _ => by simp [imagesBy] at hi; exact hi
  | a :: as, ms, hc, hi, hl => by
    simp only [SListClean] at hc
    simp only [listHasLeaf, Bool.or_eq_false_iff] at hl
    rw [imagesBy] at hi
    split at hi
    · rename_i x y hx hy
      have h1 := leafless_attr a hc.1 hx hl.1
      have h2 := leafless_list as hc.2 hy hl.2
      simp at hi
      rw [← hi, h1, h2]; rfl
    · simp at hi
end

/-- Clean chains have a placement. -/
theorem clean_place {S : View} (hf : S.f = none) (as : List Attr) (n : Nat) (hc : SListClean S.env as)
    (hd : listDeep as ≤ n) : ∀ (ops : List Op) (gs : List Bytes), SOpsClean S.env ops → opsDeep ops ≤ n →
    ∃ pl, placeBy (sLeafTree S.env) ops as = some pl ∧ SPlace S n gs ops as pl := by
  intro ops
  induction ops with
  | nil =>
    intro gs _ _
    obtain ⟨ms, h1, h2, _⟩ := clean_list hf gs as n hc hd
    exact ⟨ms, h1, h2⟩
  | cons op ops ih =>
    intro gs ho hdo
    cases op with
    | attrs bs =>
      simp only [SOpsClean] at ho
      simp only [opsDeep] at hdo
      obtain ⟨x, h1, h2, _⟩ := clean_list hf gs bs n ho.1 (by omega)
      obtain ⟨y, h3, h4⟩ := ih gs ho.2 (by omega)
      exact ⟨x ++ y, by simp [placeBy, h1, h3], x, y, h2, h4, rfl⟩
    | group g =>
      simp only [SOpsClean] at ho
      simp only [opsDeep] at hdo
      by_cases hg : g.isEmpty = true
      · obtain ⟨y, h1, h2⟩ := ih gs ho.2 hdo
        exact ⟨y, by rw [placeBy, if_pos hg]; exact h1, by rw [SPlace, if_pos hg]; exact h2⟩
      · by_cases hq : (as.all Attr.isEmpty && groupsOnly ops) = true
        · exact ⟨[], by rw [placeBy, if_neg hg, if_pos hq], by rw [SPlace, if_neg hg, if_pos hq]⟩
        · obtain ⟨y, h1, h2⟩ := ih (gs ++ [g]) ho.2 hdo
          exact ⟨[(g, .obj y)], by rw [placeBy, if_neg hg, if_neg hq, h1]; rfl,
            by rw [SPlace, if_neg hg, if_neg hq]; exact ⟨ho.1, y, h2, rfl⟩⟩

end Verif.LogTree
