/-
Go slices over shared backing arrays (Go language specification, "Appending to
and copying slices"). All slices in the modelled code start at offset 0 of
their array. Elements beyond the longest length ever written are not stored.
-/

namespace Verif.Heap

/-- The backing arrays, by identity. -/
abbrev Mem (α : Type) := List (List α)

/-- A slice: array, length, capacity. -/
structure Slice where
  arr : Nat
  len : Nat
  cap : Nat
deriving DecidableEq, Repr

/-- The nil slice. -/
def Slice.nil : Slice := ⟨0, 0, 0⟩

/-- The elements of an array. -/
def Mem.array (m : Mem α) (i : Nat) : List α := (m[i]?).getD []

/-- The elements a slice shows. -/
def Mem.read (m : Mem α) (s : Slice) : List α := (m.array s.arr).take s.len

/-- Overwrite `a[i:i+len(xs)]`. -/
def overwrite (a : List α) (i : Nat) (xs : List α) : List α :=
  a.take i ++ xs ++ a.drop (i + xs.length)

/-- `make([]T, 0, cap)`. -/
def Mem.alloc (m : Mem α) (cap : Nat) : Mem α × Slice := (m ++ [[]], ⟨m.length, 0, cap⟩)

/-- `append(s, xs...)`: in place if the capacity suffices, otherwise into a new
array whose capacity the runtime chooses (`grow oldCap needed`). -/
def Mem.append (grow : Nat → Nat → Nat) (m : Mem α) (s : Slice) (xs : List α) : Mem α × Slice :=
  if s.len + xs.length ≤ s.cap then
    (m.set s.arr (overwrite (m.array s.arr) s.len xs), { s with len := s.len + xs.length })
  else
    (m ++ [m.read s ++ xs], ⟨m.length, s.len + xs.length, grow s.cap (s.len + xs.length)⟩)

/-- Several appends one after the other. -/
def Mem.appends (grow : Nat → Nat → Nat) (m : Mem α) (s : Slice) : List (List α) → Mem α × Slice
  | [] => (m, s)
  | xs :: rest => let (m, s) := m.append grow s xs; m.appends grow s rest

/-- A slice that can occur: the array exists and holds its elements. -/
structure Valid (m : Mem α) (s : Slice) : Prop where
  cap : s.len ≤ s.cap
  stored : s.len ≤ (m.array s.arr).length
  known : 0 < s.cap → s.arr < m.length

theorem valid_nil (m : Mem α) : Valid m Slice.nil :=
  ⟨Nat.le_refl _, Nat.zero_le _, fun h => absurd h (Nat.lt_irrefl 0)⟩

theorem array_append_old {m : Mem α} {i : Nat} (h : i < m.length) (x) :
    Mem.array (m ++ [x]) i = m.array i := by
  simp [Mem.array, List.getElem?_append_left h]

theorem array_append_new (m : Mem α) (x) : Mem.array (m ++ [x]) m.length = x := by
  simp [Mem.array]

theorem array_set_ne {m : Mem α} {i j : Nat} (h : i ≠ j) (x) :
    Mem.array (m.set i x) j = m.array j := by
  simp [Mem.array, List.getElem?_set_ne h]

theorem array_set_eq {m : Mem α} {i : Nat} (h : i < m.length) (x) :
    Mem.array (m.set i x) i = x := by
  simp [Mem.array, h]

theorem array_out {m : Mem α} {i : Nat} (h : m.length ≤ i) : m.array i = [] := by
  simp [Mem.array, h]

theorem overwrite_length (a : List α) {i} (xs : List α) (h : i ≤ a.length) :
    i + xs.length ≤ (overwrite a i xs).length ∧ a.length ≤ (overwrite a i xs).length := by
  simp [overwrite]; omega

theorem overwrite_take (a : List α) {i} (xs : List α) (h : i ≤ a.length) {n} (hn : n ≤ i) :
    (overwrite a i xs).take n = a.take n := by
  unfold overwrite
  rw [List.append_assoc, List.take_append_of_le_length (by simp; omega), List.take_take,
    Nat.min_eq_left hn]

theorem overwrite_read (a : List α) {i} (xs : List α) (h : i ≤ a.length) :
    (overwrite a i xs).take (i + xs.length) = a.take i ++ xs := by
  unfold overwrite
  have : i + xs.length = (a.take i ++ xs).length := by simp; omega
  rw [this, List.take_left']
  rfl

/-- `make` gives an empty slice of a new array. -/
theorem alloc_valid (m : Mem α) (c) : Valid (m.alloc c).1 (m.alloc c).2 :=
  ⟨Nat.zero_le _, Nat.zero_le _, fun _ => by simp [Mem.alloc]⟩

theorem alloc_read (m : Mem α) (c) : (m.alloc c).1.read (m.alloc c).2 = [] := by
  simp [Mem.alloc, Mem.read]

/-- What is known of a memory change: arrays stay, and slices that `safe`
allows still show the same elements. -/
structure Keeps (m m' : Mem α) (safe : Slice → Prop) : Prop where
  longer : m.length ≤ m'.length
  stored : ∀ i, (m.array i).length ≤ (m'.array i).length
  same : ∀ t, Valid m t → safe t → m'.read t = m.read t

theorem Keeps.refl (m : Mem α) (safe) : Keeps m m safe :=
  ⟨Nat.le_refl _, fun _ => Nat.le_refl _, fun _ _ _ => rfl⟩

theorem Keeps.valid {m m' : Mem α} {safe t} (k : Keeps m m' safe) (h : Valid m t) : Valid m' t :=
  ⟨h.cap, Nat.le_trans h.stored (k.stored _), fun hc => Nat.lt_of_lt_of_le (h.known hc) k.longer⟩

theorem Keeps.trans {m m' m'' : Mem α} {safe safe'} (k : Keeps m m' safe) (k' : Keeps m' m'' safe')
    (h : ∀ t, Valid m t → safe t → safe' t) : Keeps m m'' safe :=
  ⟨Nat.le_trans k.longer k'.longer, fun i => Nat.le_trans (k.stored i) (k'.stored i),
    fun t v s => (k'.same t (k.valid v) (h t v s)).trans (k.same t v s)⟩

theorem read_known {m m' : Mem α} {t} (v : Valid m t) (h : t.arr < m.length → m'.array t.arr = m.array t.arr) :
    m'.read t = m.read t := by
  by_cases hk : t.arr < m.length
  · simp [Mem.read, h hk]
  · have : t.len = 0 := by
      have := v.stored
      rw [array_out (by omega)] at this
      simpa using this
    simp [Mem.read, this]

theorem keeps_snoc (m : Mem α) (x) (safe) : Keeps m (m ++ [x]) safe := by
  refine ⟨by simp, ?_, ?_⟩
  · intro i
    by_cases h : i < m.length
    · rw [array_append_old h]; exact Nat.le_refl _
    · rw [array_out (by omega)]; simp
  · intro t v _
    exact read_known v fun h => array_append_old h x

theorem alloc_keeps (m : Mem α) (c) (safe) : Keeps m (m.alloc c).1 safe := keeps_snoc m [] safe

/-- A slice is safe from appends to `s`: another array, or not beyond `s`. -/
def SafeFrom (s t : Slice) : Prop := t.arr = s.arr → t.len ≤ s.len

/-- The slice that an append returns: the same array and longer, or a new
array. -/
def From (m : Mem α) (s s' : Slice) : Prop :=
  s.len ≤ s'.len ∧ (s'.arr = s.arr ∧ s'.cap = s.cap ∨ m.length ≤ s'.arr)

/-- One append: the returned slice shows the old elements and the new ones; all
slices that do not reach beyond `s` keep their elements. -/
theorem append_spec {grow : Nat → Nat → Nat} (hg : ∀ c n, n ≤ grow c n) {m : Mem α} {s : Slice}
    (v : Valid m s) (xs : List α) :
    Valid (m.append grow s xs).1 (m.append grow s xs).2 ∧
    (m.append grow s xs).1.read (m.append grow s xs).2 = m.read s ++ xs ∧
    Keeps m (m.append grow s xs).1 (SafeFrom s) ∧
    (m.append grow s xs).2.len = s.len + xs.length ∧
    From m s (m.append grow s xs).2 := by
  unfold Mem.append
  split
  · rename_i hc
    by_cases hk : s.arr < m.length
    · refine ⟨⟨hc, ?_, ?_⟩, ?_, ⟨?_, ?_, ?_⟩, rfl, by simp, .inl ⟨rfl, rfl⟩⟩
      · simp only [array_set_eq hk]
        exact (overwrite_length _ xs v.stored).1
      · intro h; simpa using hk
      · simp only [Mem.read, array_set_eq hk]
        exact overwrite_read _ xs v.stored
      · simp
      · intro i
        by_cases hi : s.arr = i
        · subst hi
          rw [array_set_eq hk]
          exact (overwrite_length _ xs v.stored).2
        · rw [array_set_ne hi]; exact Nat.le_refl _
      · intro t vt st
        by_cases hi : s.arr = t.arr
        · simp only [Mem.read, ← hi, array_set_eq hk]
          exact overwrite_take _ xs v.stored (st hi.symm)
        · simp only [Mem.read, array_set_ne hi]
    · have h0 : s.cap = 0 := by
        have := v.known
        omega
      have hx : xs = [] := List.length_eq_zero_iff.1 (by omega)
      subst hx
      have e : m.set s.arr (overwrite (m.array s.arr) s.len []) = m :=
        List.set_eq_of_length_le (by omega)
      rw [e]
      refine ⟨⟨by simpa using v.cap, by simpa using v.stored, v.known⟩, by simp,
        Keeps.refl _ _, rfl, by simp, .inl ⟨rfl, rfl⟩⟩
  · refine ⟨⟨hg _ _, ?_, by simp⟩, ?_, keeps_snoc _ _ _, rfl, by simp, .inr (Nat.le_refl _)⟩
    · rw [array_append_new]
      have := v.stored
      simp [Mem.read]; omega
    · simp only [Mem.read, array_append_new]
      apply List.take_of_length_le
      simp; omega

/-- Several appends. -/
theorem appends_spec {grow : Nat → Nat → Nat} (hg : ∀ c n, n ≤ grow c n) (chunks : List (List α)) :
    ∀ {m : Mem α} {s : Slice}, Valid m s →
    Valid (m.appends grow s chunks).1 (m.appends grow s chunks).2 ∧
    (m.appends grow s chunks).1.read (m.appends grow s chunks).2 = m.read s ++ chunks.flatten ∧
    Keeps m (m.appends grow s chunks).1 (SafeFrom s) ∧
    (m.appends grow s chunks).2.len = s.len + chunks.flatten.length ∧
    From m s (m.appends grow s chunks).2 := by
  induction chunks with
  | nil =>
    intro m s v
    exact ⟨v, by simp [Mem.appends], Keeps.refl _ _, by simp [Mem.appends],
      Nat.le_refl _, .inl ⟨rfl, rfl⟩⟩
  | cons xs rest ih =>
    intro m s v
    obtain ⟨v1, r1, k1, l1, f1⟩ := append_spec hg v xs
    obtain ⟨v2, r2, k2, l2, f2⟩ := ih v1
    refine ⟨v2, ?_, ?_, ?_, ?_⟩
    · simp only [Mem.appends]; rw [r2, r1]; simp
    · simp only [Mem.appends]
      refine k1.trans k2 ?_
      intro t vt st ht
      rcases f1.2 with ⟨e, _⟩ | e
      · rw [l1]; exact Nat.le_trans (st (ht.trans e)) (Nat.le_add_right _ _)
      · -- a slice known before cannot be in the new array, unless it is empty
        have : t.len = 0 := by
          by_cases hk : t.arr < m.length
          · omega
          · have := vt.stored
            rw [array_out (by omega)] at this
            simpa using this
        omega
    · simp only [Mem.appends]; rw [l2, l1]; simp [Nat.add_assoc]
    · simp only [Mem.appends]
      refine ⟨Nat.le_trans f1.1 f2.1, ?_⟩
      rcases f2.2 with ⟨e, ec⟩ | e
      · rcases f1.2 with ⟨e', ec'⟩ | e'
        · exact .inl ⟨e.trans e', ec.trans ec'⟩
        · exact .inr (e ▸ e')
      · exact .inr (Nat.le_trans k1.longer e)

end Verif.Heap
