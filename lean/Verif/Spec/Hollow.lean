import Verif.Spec.Replaced

/-
Specification: what is left of attributes when a ReplaceAttr function is in force, with groups
that may lose all of their members; and where a handler that forgets the comma after an
empty group goes wrong.
-/

namespace Verif.LogTree
open Slog Json

/-- What is left of an attribute: a value, or a group with what is left of its members. -/
inductive Shape
  | leaf (t : Tree)
  | group (ms : List (Bytes × Shape))

mutual
/-- The JSON value for a shape. -/
def Shape.tree : Shape → Tree
  | .leaf t => t
  | .group ms => .obj (shapeTrees ms)
/-- The JSON members for shapes. -/
def shapeTrees : List (Bytes × Shape) → List (Bytes × Tree)
  | [] => []
  | (k, s) :: ms => (k, s.tree) :: shapeTrees ms
end

mutual
/-- Groups that are empty, or have such a group as their last member. -/
def Shape.hollow : Shape → Bool
  | .leaf _ => false
  | .group ms => endsHollow true ms
/-- Is the last member hollow? If there is none, the answer is `d`. -/
def endsHollow (d : Bool) : List (Bytes × Shape) → Bool
  | [] => d
  | (_, s) :: ms => endsHollow s.hollow ms
end

mutual
/-- Nowhere is a hollow group followed by another member. -/
def Shape.sound : Shape → Bool
  | .leaf _ => true
  | .group ms => soundList ms
/-- The same for members. -/
def soundList : List (Bytes × Shape) → Bool
  | [] => true
  | (_, s) :: ms => s.sound && (ms.isEmpty || !s.hollow) && soundList ms
end

mutual
/-- `LAttr R gs n a ms`: under the group names `gs` the members `ms` are left of the attribute
`a`, with at most `n` nested groups. As `RAttr`, but a group may become empty. -/
inductive LAttr (R : Repl) : List Bytes → Nat → Attr → List (Bytes × Shape) → Prop
  /-- replaced by the empty attribute -/
  | gone {gs n a} : (R.apply gs a).isEmpty = true → LAttr R gs n a []
  /-- replaced by a group without content -/
  | hollow {gs n a k as} : R.apply gs a = .mk k (.group as) → listHasLeaf as = false → LAttr R gs n a []
  /-- replaced by a group without name -/
  | inline {gs n a as ms} : R.apply gs a = .mk [] (.group as) → listHasLeaf as = true →
      LList R gs n as ms → LAttr R gs (n + 1) a ms
  /-- replaced by a group -/
  | group {gs n a k as ms} : R.apply gs a = .mk k (.group as) → k ≠ [] → Utf8.Valid k →
      listHasLeaf as = true → LList R (R.inner gs k) n as ms →
      LAttr R gs (n + 1) a [(k, .group ms)]
  /-- replaced by anything else -/
  | leaf {gs n a k v t} : R.apply gs a = .mk k v → (Attr.mk k v).isEmpty = false → Utf8.Valid k →
      Shown R.env R.layout v t → LAttr R gs n a [(k, .leaf t)]
/-- The same for lists. -/
inductive LList (R : Repl) : List Bytes → Nat → List Attr → List (Bytes × Shape) → Prop
  | nil {gs n} : LList R gs n [] []
  | cons {gs n a as x y} : LAttr R gs n a x → LList R gs n as y → LList R gs n (a :: as) (x ++ y)
end

/-- Members of a record with attributes `as` logged through a handler derived by `ops`, and
whether all lists given to WithAttrs or logged are sound, each for itself. -/
def LPlace (R : Repl) (n : Nat) : List Bytes → List Op → List Attr → List (Bytes × Tree) → Bool → Prop
  | gs, [], as, ms, ok => ∃ ss, LList R gs n as ss ∧ ms = shapeTrees ss ∧ ok = soundList ss
  | gs, .attrs bs :: ops, as, ms, ok => ∃ ss y ok', LList R gs n bs ss ∧ LPlace R n gs ops as y ok' ∧
      ms = shapeTrees ss ++ y ∧ ok = (soundList ss && ok')
  | gs, .group g :: ops, as, ms, ok =>
    if g.isEmpty then LPlace R n gs ops as ms ok
    else if as.all Attr.isEmpty && groupsOnly ops then
      ∃ ss, LList R gs n as ss ∧ ms = shapeTrees ss ∧ ok = soundList ss
    else decodeBody g = some g ∧ ∃ y, LPlace R n (gs ++ [g]) ops as y ok ∧ ms = [(g, .obj y)]

/-! ### Replacement functions whose results can be printed -/

mutual
/-- Keys and values can be printed once LogValuers are resolved. -/
def AttrFit (env : Env) (layout : Bytes) : Attr → Prop
  | .mk k v => Utf8.Valid k ∧ ValFit env layout v
/-- The same for a value. -/
def ValFit (env : Env) (layout : Bytes) : Value → Prop
  | .logValuer _ r => ValFit env layout r
  | .group as => ListFit env layout as
  | v => LeafClean env layout v
/-- The same for a list. -/
def ListFit (env : Env) (layout : Bytes) : List Attr → Prop
  | [] => True
  | a :: as => AttrFit env layout a ∧ ListFit env layout as
end

/-- A result that can be printed: a LogValuer is printed as the object it is. -/
def OutFit (env : Env) (layout : Bytes) : Attr → Prop
  | .mk k v => Utf8.Valid k ∧
    match v with
    | .logValuer o _ => AnyClean (.obj o)
    | .group as => ListFit env layout as
    | v => LeafClean env layout v

/-- The attribute with its LogValuer resolved. -/
def Solved (a : Attr) : Attr := .mk a.key a.value.resolve

/-- A replacement function that makes printable attributes of printable ones, and does not go on
for ever: if it makes a group of an attribute, the members of the group have a smaller rank.
Otherwise it may do what it likes. -/
structure Fitting (env : Env) (layout : Bytes) (f : AttrFn) (rank : Attr → Nat) : Prop where
  clean : ∀ gs a, AttrFit env layout a → a.value.isLogValuer = false → OutFit env layout (f gs a)
  ends : ∀ gs a k as, f gs a = .mk k (.group as) → ∀ b ∈ as, rank (Solved b) < rank a

/-- The attributes of a chain can be printed, and group names can stand in a JSON string as they
are. -/
def OpsFit (env : Env) (layout : Bytes) : List Op → Prop
  | [] => True
  | .attrs as :: ops => ListFit env layout as ∧ OpsFit env layout ops
  | .group n :: ops => decodeBody n = some n ∧ OpsFit env layout ops

/-- All attributes of a list and a chain have at most some rank. -/
def Ranked (rank : Attr → Nat) (n : Nat) (ops : List Op) (as : List Attr) : Prop :=
  (∀ bs, Op.attrs bs ∈ ops → ∀ b ∈ bs, rank (Solved b) ≤ n) ∧ ∀ a ∈ as, rank (Solved a) ≤ n

/-! ### Everything printable has a shape -/

theorem valFit_resolve {env : Env} {layout : Bytes} : ∀ {v : Value}, ValFit env layout v →
    ValFit env layout v.resolve ∧ v.resolve.isLogValuer = false
  | .logValuer _ r, h => by
    simp only [ValFit] at h
    simp only [Value.resolve]
    exact valFit_resolve h
  | .group as, h => ⟨h, rfl⟩
  | .any _, h | .bool _, h | .duration _, h | .float64 _, h | .int64 _, h | .string _, h
  | .time _, h | .uint64 _, h => ⟨h, rfl⟩

theorem outFit_shown {env : Env} {layout : Bytes} {k : Bytes} {v : Value} (h : OutFit env layout (.mk k v))
    (hg : v.isGroup = false) : ∃ t, Shown env layout v t := by
  obtain ⟨_, h⟩ := h
  cases v with
  | logValuer o r =>
    obtain ⟨t, h1, h2⟩ := leafClean_tree (env := env) (layout := layout) (v := .any (.obj o)) h
    exact ⟨t, h2⟩
  | group as => cases hg
  | _ =>
    obtain ⟨t, _, ht⟩ := leafClean_tree h
    exact ⟨t, ht⟩

theorem fit_attr {R : Repl} {rank : Attr → Nat} (hR : R.nest = false) (hf : Fitting R.env R.layout R.f rank)
    (gs : List Bytes) : ∀ (n : Nat) (a : Attr), AttrFit R.env R.layout a → rank (Solved a) ≤ n →
    ∃ ms, LAttr R gs n a ms := by
  have step : ∀ a, AttrFit R.env R.layout a → OutFit R.env R.layout (R.apply gs a) ∧
      ∀ k as, R.apply gs a = .mk k (.group as) → ∀ b ∈ as, rank (Solved b) < rank (Solved a) := by
    rintro ⟨k, v⟩ ha
    simp only [AttrFit] at ha
    obtain ⟨h1, h2⟩ := valFit_resolve ha.2
    exact ⟨hf.clean _ _ (by simp only [AttrFit]; exact ⟨ha.1, h1⟩) h2, fun k' as he => hf.ends _ _ k' as he⟩
  intro n
  induction n with
  | zero =>
    intro a ha hd
    obtain ⟨h1, h2⟩ := step a ha
    cases hgone : (R.apply gs a).isEmpty with
    | true => exact ⟨[], .gone hgone⟩
    | false =>
      rcases he : R.apply gs a with ⟨k, v⟩
      rw [he] at h1 h2 hgone
      cases v with
      | group as =>
        cases as with
        | nil => exact ⟨[], .hollow he rfl⟩
        | cons b bs => exact absurd (h2 k _ rfl b (by simp)) (by omega)
      | _ =>
        obtain ⟨t, ht⟩ := outFit_shown h1 rfl
        exact ⟨_, .leaf he hgone h1.1 ht⟩
  | succ n ih =>
    intro a ha hd
    obtain ⟨h1, h2⟩ := step a ha
    cases hgone : (R.apply gs a).isEmpty with
    | true => exact ⟨[], .gone hgone⟩
    | false =>
      rcases he : R.apply gs a with ⟨k, v⟩
      rw [he] at h1 h2 hgone
      cases v with
      | group as =>
        have list : ∀ as, ListFit R.env R.layout as → (∀ b ∈ as, rank (Solved b) ≤ n) → ∃ ms, LList R gs n as ms := by
          intro as
          induction as with
          | nil => exact fun _ _ => ⟨[], .nil⟩
          | cons b bs ihb =>
            intro hl hd
            simp only [ListFit] at hl
            obtain ⟨x, hx⟩ := ih b hl.1 (hd b (by simp))
            obtain ⟨y, hy⟩ := ihb hl.2 fun c hc => hd c (by simp [hc])
            exact ⟨_, .cons hx hy⟩
        obtain ⟨ms, hms⟩ := list as h1.2 fun b hb => by
          have := h2 k as rfl b hb
          omega
        cases hl : listHasLeaf as with
        | false => exact ⟨[], .hollow he hl⟩
        | true =>
          cases k with
          | nil => exact ⟨ms, .inline he hl hms⟩
          | cons c k =>
            have hin : R.inner gs (c :: k) = gs := by simp [Repl.inner, hR]
            exact ⟨_, .group he (by simp) h1.1 hl (by rw [hin]; exact hms)⟩
      | _ =>
        obtain ⟨t, ht⟩ := outFit_shown h1 rfl
        exact ⟨_, .leaf he hgone h1.1 ht⟩

theorem fit_list {R : Repl} {rank : Attr → Nat} (hR : R.nest = false) (hf : Fitting R.env R.layout R.f rank)
    (gs : List Bytes) (n : Nat) : ∀ as, ListFit R.env R.layout as → (∀ a ∈ as, rank (Solved a) ≤ n) →
    ∃ ms, LList R gs n as ms := by
  intro as
  induction as with
  | nil => exact fun _ _ => ⟨[], .nil⟩
  | cons b bs ihb =>
    intro hl hd
    simp only [ListFit] at hl
    obtain ⟨x, hx⟩ := fit_attr hR hf gs n b hl.1 (hd b (by simp))
    obtain ⟨y, hy⟩ := ihb hl.2 fun c hc => hd c (by simp [hc])
    exact ⟨_, .cons hx hy⟩

theorem fit_place {R : Repl} {rank : Attr → Nat} (hR : R.nest = false) (hf : Fitting R.env R.layout R.f rank)
    (n : Nat) {as : List Attr} (has : ListFit R.env R.layout as) :
    ∀ (ops : List Op) (gs : List Bytes), OpsFit R.env R.layout ops → Ranked rank n ops as →
      ∃ pl ok, LPlace R n gs ops as pl ok := by
  intro ops
  induction ops with
  | nil =>
    intro gs _ hw
    obtain ⟨ss, h⟩ := fit_list hR hf gs n as has hw.2
    exact ⟨_, _, ss, h, rfl, rfl⟩
  | cons op ops ih =>
    intro gs ho hw
    have hw' : Ranked rank n ops as := ⟨fun bs hbs => hw.1 bs (by simp [hbs]), hw.2⟩
    cases op with
    | attrs bs =>
      simp only [OpsFit] at ho
      obtain ⟨x, h1⟩ := fit_list hR hf gs n bs ho.1 (hw.1 bs (by simp))
      obtain ⟨y, ok, h2⟩ := ih gs ho.2 hw'
      exact ⟨_, _, x, y, ok, h1, h2, rfl, rfl⟩
    | group g =>
      simp only [OpsFit] at ho
      by_cases hg : g.isEmpty = true
      · obtain ⟨y, ok, h⟩ := ih gs ho.2 hw'
        exact ⟨y, ok, by rw [LPlace, if_pos hg]; exact h⟩
      · by_cases hq : (as.all Attr.isEmpty && groupsOnly ops) = true
        · obtain ⟨ss, h⟩ := fit_list hR hf gs n as has hw.2
          exact ⟨_, _, by rw [LPlace, if_neg hg, if_pos hq]; exact ⟨ss, h, rfl, rfl⟩⟩
        · obtain ⟨y, ok, h⟩ := ih (gs ++ [g]) ho.2 hw'
          exact ⟨[(g, .obj y)], ok, by rw [LPlace, if_neg hg, if_neg hq]; exact ⟨ho.1, y, h, rfl⟩⟩

end Verif.LogTree
