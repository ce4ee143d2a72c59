import Verif.Score.Range

/-
C40: scores made from the range of measurements.
-/

namespace Verif.Props.ScoreRange
open Verif.Score

/-! ### Specification -/

/-- The measurements have a smallest and a largest one that differ. -/
structure Spread {α : Type} [LinearOrder α] (ms : List α) (lo hi : α) : Prop where
  lo_mem : lo ∈ ms
  hi_mem : hi ∈ ms
  lo_le : ∀ m ∈ ms, lo ≤ m
  le_hi : ∀ m ∈ ms, m ≤ hi
  lt : lo < hi

/-- The range of times. -/
def rangeF (ms : List Rat) : RangeF := ms.foldl RangeF.add .new
/-- The range of counts. -/
def rangeU (ms : List Nat) : RangeU := ms.foldl RangeU.add .new

/-- What is claimed of the scores of measurements. -/
structure Scores {α : Type} [LinearOrder α] (ms : List α) (lo hi : α) (f : α → Val) (g : α → Rat) (top : Rat) : Prop where
  finite : ∀ m ∈ ms, f m = .fin (g m)
  nonneg : ∀ m ∈ ms, 0 ≤ g m
  le : ∀ m ∈ ms, g m ≤ top
  smallest : g lo = top
  largest : g hi = 0
  antitone : ∀ m ∈ ms, ∀ m' ∈ ms, m ≤ m' → g m' ≤ g m

/-- C40 as stated, for a way of rounding. -/
def C40_statement (R : Rounding) : Prop :=
  (∀ (ms : List Rat) (lo hi : Rat), (∀ m ∈ ms, 0 ≤ m ∧ m ≤ maxFloat ∧ R.rnd m = m) → Spread ms lo hi →
    ∃ g, Scores ms lo hi (fun m => (rangeF ms).ranged R (.fin m)) g 100) ∧
  (∀ (ms : List Nat) (lo hi : Nat), (∀ m ∈ ms, m < 2 ^ 64) → Spread ms lo hi →
    ∃ g, Scores ms lo hi (fun m => (rangeU ms).ranged R (Val.ofNat R m)) g 100)

/-! ### Ranges -/

theorem rangeF_fold (ms : List Rat) : ∀ r : RangeF,
    (∀ m ∈ ms, (ms.foldl RangeF.add r).low ≤ m) ∧ (∀ m ∈ ms, m ≤ (ms.foldl RangeF.add r).high) ∧
    (ms.foldl RangeF.add r).low ≤ r.low ∧ r.high ≤ (ms.foldl RangeF.add r).high ∧
    ((ms.foldl RangeF.add r).low = r.low ∨ (ms.foldl RangeF.add r).low ∈ ms) ∧
    ((ms.foldl RangeF.add r).high = r.high ∨ (ms.foldl RangeF.add r).high ∈ ms) := by
  induction ms with
  | nil => intro r; simp
  | cons a ms ih =>
    intro r
    obtain ⟨h1, h2, h3, h4, h5, h6⟩ := ih (r.add a)
    have l1 : (r.add a).low ≤ a ∧ (r.add a).low ≤ r.low ∧ ((r.add a).low = a ∨ (r.add a).low = r.low) := by
      unfold RangeF.add; simp only; split_ifs <;> simp_all <;> linarith
    have l2 : a ≤ (r.add a).high ∧ r.high ≤ (r.add a).high ∧ ((r.add a).high = a ∨ (r.add a).high = r.high) := by
      unfold RangeF.add; simp only; split_ifs <;> simp_all <;> linarith
    simp only [List.foldl_cons]
    refine ⟨?_, ?_, h3.trans l1.2.1, l2.2.1.trans h4, ?_, ?_⟩
    · intro m hm
      rcases List.mem_cons.1 hm with rfl | hm
      · exact h3.trans l1.1
      · exact h1 m hm
    · intro m hm
      rcases List.mem_cons.1 hm with rfl | hm
      · exact l2.1.trans h4
      · exact h2 m hm
    · rcases h5 with h5 | h5
      · rcases l1.2.2 with h | h
        · exact .inr (by rw [h5, h]; simp)
        · exact .inl (h5.trans h)
      · exact .inr (by simp [h5])
    · rcases h6 with h6 | h6
      · rcases l2.2.2 with h | h
        · exact .inr (by rw [h6, h]; simp)
        · exact .inl (h6.trans h)
      · exact .inr (by simp [h6])

theorem rangeU_fold (ms : List Nat) : ∀ r : RangeU,
    (∀ m ∈ ms, (ms.foldl RangeU.add r).low ≤ m) ∧ (∀ m ∈ ms, m ≤ (ms.foldl RangeU.add r).high) ∧
    (ms.foldl RangeU.add r).low ≤ r.low ∧ r.high ≤ (ms.foldl RangeU.add r).high ∧
    ((ms.foldl RangeU.add r).low = r.low ∨ (ms.foldl RangeU.add r).low ∈ ms) ∧
    ((ms.foldl RangeU.add r).high = r.high ∨ (ms.foldl RangeU.add r).high ∈ ms) := by
  induction ms with
  | nil => intro r; simp
  | cons a ms ih =>
    intro r
    obtain ⟨h1, h2, h3, h4, h5, h6⟩ := ih (r.add a)
    have l1 : (r.add a).low ≤ a ∧ (r.add a).low ≤ r.low ∧ ((r.add a).low = a ∨ (r.add a).low = r.low) := by
      unfold RangeU.add; simp only; split_ifs <;> simp_all <;> omega
    have l2 : a ≤ (r.add a).high ∧ r.high ≤ (r.add a).high ∧ ((r.add a).high = a ∨ (r.add a).high = r.high) := by
      unfold RangeU.add; simp only; split_ifs <;> simp_all <;> omega
    simp only [List.foldl_cons]
    refine ⟨?_, ?_, h3.trans l1.2.1, l2.2.1.trans h4, ?_, ?_⟩
    · intro m hm
      rcases List.mem_cons.1 hm with rfl | hm
      · exact h3.trans l1.1
      · exact h1 m hm
    · intro m hm
      rcases List.mem_cons.1 hm with rfl | hm
      · exact l2.1.trans h4
      · exact h2 m hm
    · rcases h5 with h5 | h5
      · rcases l1.2.2 with h | h
        · exact .inr (by rw [h5, h]; simp)
        · exact .inl (h5.trans h)
      · exact .inr (by simp [h5])
    · rcases h6 with h6 | h6
      · rcases l2.2.2 with h | h
        · exact .inr (by rw [h6, h]; simp)
        · exact .inl (h6.trans h)
      · exact .inr (by simp [h6])

/-- The range is from the smallest to the largest. -/
theorem rangeF_spread {ms : List Rat} {lo hi : Rat} (hm : ∀ m ∈ ms, 0 ≤ m ∧ m ≤ maxFloat) (hs : Spread ms lo hi) :
    rangeF ms = ⟨lo, hi⟩ := by
  obtain ⟨h1, h2, h3, h4, h5, h6⟩ := rangeF_fold ms .new
  have hl : (rangeF ms).low = lo := by
    refine le_antisymm (h1 _ hs.lo_mem) ?_
    rcases h5 with h5 | h5
    · exact h5 ▸ (hm _ hs.lo_mem).2
    · exact hs.lo_le _ h5
  have hh : (rangeF ms).high = hi := by
    refine le_antisymm ?_ (h2 _ hs.hi_mem)
    rcases h6 with h6 | h6
    · exact h6 ▸ (hm _ hs.hi_mem).1
    · exact hs.le_hi _ h6
  cases h : rangeF ms
  rw [h] at hl hh; subst hl hh; rfl

theorem rangeU_spread {ms : List Nat} {lo hi : Nat} (hm : ∀ m ∈ ms, m < 2 ^ 64) (hs : Spread ms lo hi) :
    rangeU ms = ⟨lo, hi⟩ := by
  obtain ⟨h1, h2, h3, h4, h5, h6⟩ := rangeU_fold ms .new
  have hl : (rangeU ms).low = lo := by
    refine le_antisymm (h1 _ hs.lo_mem) ?_
    rcases h5 with h5 | h5
    · have := hm _ hs.lo_mem
      show lo ≤ (ms.foldl RangeU.add .new).low
      rw [h5]; show lo ≤ 2 ^ 64 - 1; omega
    · exact hs.lo_le _ h5
  have hh : (rangeU ms).high = hi := by
    refine le_antisymm ?_ (h2 _ hs.hi_mem)
    rcases h6 with h6 | h6
    · show (ms.foldl RangeU.add .new).high ≤ hi
      rw [h6]; exact Nat.zero_le _
    · exact hs.le_hi _ h6
  cases h : rangeU ms
  rw [h] at hl hh; subst hl hh; rfl

/-! ### Scores -/

/-- The score of a measurement. -/
def scoreOf (R : Rounding) (hi len : Rat) (m : Rat) : Rat := R.rnd (R.rnd (100 * R.rnd (hi - m)) / len)

/-- The score of the smallest measurement. -/
def topOf (R : Rounding) (len : Rat) : Rat := R.rnd (R.rnd (100 * len) / len)

theorem top_up (R : Rounding) {len : Rat} (h : 0 < len) : topOf R len ≤ 100 * R.p ^ 2 := by
  have hp := R.p_ge
  have h1 := R.le_up (x := 100 * len) (by positivity)
  have h0 := R.nonneg (x := 100 * len) (by positivity)
  have h2 : R.rnd (100 * len) / len ≤ 100 * R.p := by
    rw [div_le_iff₀ h]; linarith
  have h3 := R.le_up (x := R.rnd (100 * len) / len) (by positivity)
  have : (R.rnd (100 * len) / len) * R.p ≤ 100 * R.p * R.p :=
    mul_le_mul_of_nonneg_right h2 (by linarith)
  unfold topOf
  calc _ ≤ _ := h3
    _ ≤ _ := this
    _ = _ := by ring

theorem top_down (R : Rounding) {len : Rat} (h : 0 < len) : 100 * R.d ^ 2 ≤ topOf R len := by
  have hd := R.d_pos
  have h1 := R.ge_down (x := 100 * len) (by positivity)
  have h0 := R.nonneg (x := 100 * len) (by positivity)
  have h2 : 100 * R.d ≤ R.rnd (100 * len) / len := by
    rw [le_div_iff₀ h]; linarith
  have h3 := R.ge_down (x := R.rnd (100 * len) / len) (by positivity)
  have : 100 * R.d * R.d ≤ (R.rnd (100 * len) / len) * R.d :=
    mul_le_mul_of_nonneg_right h2 (by linarith)
  unfold topOf
  calc _ = _ := by ring
    _ ≤ _ := this
    _ ≤ _ := h3

theorem score_antitone (R : Rounding) {hi len m m' : Rat} (h : 0 < len) (hm : m ≤ m') : scoreOf R hi len m' ≤ scoreOf R hi len m := by
  unfold scoreOf
  apply R.mono
  apply div_le_div_of_nonneg_right _ h.le
  apply R.mono
  have : R.rnd (hi - m') ≤ R.rnd (hi - m) := R.mono (by linarith)
  linarith

theorem score_hi (R : Rounding) {hi len : Rat} : scoreOf R hi len hi = 0 := by
  unfold scoreOf
  rw [sub_self, R.zero, mul_zero, R.zero, zero_div, R.zero]

theorem rangedF (R : Rounding) {lo hi : Rat} (h : lo < hi) (m : Rat) :
    (RangeF.mk lo hi).ranged R (.fin m) = .fin (scoreOf R hi (R.rnd (hi - lo)) m) := by
  have hl : R.rnd (hi - lo) ≠ 0 := (R.pos (by linarith)).ne'
  unfold RangeF.ranged RangeF.length scoreOf Val.sub Val.neg Val.add Val.mul
  simp only [← sub_eq_add_neg]
  unfold Val.div
  simp only [if_neg hl]

/-- What holds of C40 for times, however numbers are rounded: the scores reverse the
order, the largest measurement has the score 0, and the smallest has the largest score,
which may differ from 100 by two roundings. -/
theorem C40_times_partial (R : Rounding) (ms : List Rat) (lo hi : Rat) (hm : ∀ m ∈ ms, 0 ≤ m ∧ m ≤ maxFloat)
    (hs : Spread ms lo hi) : ∃ g top, Scores ms lo hi (fun m => (rangeF ms).ranged R (.fin m)) g top ∧
      100 * R.d ^ 2 ≤ top ∧ top ≤ 100 * R.p ^ 2 := by
  have hl : 0 < R.rnd (hi - lo) := R.pos (by linarith [hs.lt])
  refine ⟨scoreOf R hi (R.rnd (hi - lo)), topOf R (R.rnd (hi - lo)), ?_, top_down R hl, top_up R hl⟩
  refine ⟨?_, ?_, ?_, rfl, score_hi R, ?_⟩
  · intro m _
    show (rangeF ms).ranged R (.fin m) = _
    rw [rangeF_spread hm hs, rangedF R hs.lt]
  · intro m h
    rw [← score_hi R (hi := hi) (len := R.rnd (hi - lo))]
    exact score_antitone R hl (hs.le_hi m h)
  · intro m h
    exact score_antitone R hl (hs.lo_le m h)
  · intro m _ m' _ h
    exact score_antitone R hl h

theorem rangedU (R : Rounding) {lo hi : Nat} (h : lo < hi) (hh : hi ≤ 2 ^ 53) {m : Nat} (hm : m ≤ 2 ^ 53) :
    (RangeU.mk lo hi).ranged R (Val.ofNat R m) = .fin (scoreOf R hi (hi - lo) m) := by
  have e : (hi + 2 ^ 64 - lo) % 2 ^ 64 = hi - lo := by omega
  have hc : ((hi - lo : Nat) : Rat) = (hi : Rat) - lo := by push_cast [h.le]; rfl
  have hl : (hi : Rat) - lo ≠ 0 := by rw [← hc]; exact_mod_cast (by omega)
  unfold RangeU.ranged RangeU.length scoreOf Val.ofNat
  simp only [e]
  rw [R.nat hi hh, R.nat m hm, R.nat (hi - lo) (by omega), hc]
  unfold Val.sub Val.neg Val.add Val.mul
  simp only [← sub_eq_add_neg]
  unfold Val.div
  simp only [if_neg hl]

/-- What holds of C40 for counts, up to 2^53. -/
theorem C40_counts_partial (R : Rounding) (ms : List Nat) (lo hi : Nat) (hm : ∀ m ∈ ms, m ≤ 2 ^ 53)
    (hs : Spread ms lo hi) : ∃ g top, Scores ms lo hi (fun m => (rangeU ms).ranged R (Val.ofNat R m)) g top ∧
      100 * R.d ^ 2 ≤ top ∧ top ≤ 100 * R.p ^ 2 := by
  have hlt : (lo : Rat) < hi := by exact_mod_cast hs.lt
  have hl : 0 < (hi : Rat) - lo := by linarith
  have e : R.rnd ((hi : Rat) - lo) = hi - lo := by
    have := R.nat (hi - lo) (by have := hm _ hs.hi_mem; omega)
    push_cast [hs.lt.le] at this
    exact this
  refine ⟨fun m => scoreOf R hi (hi - lo) m, topOf R (hi - lo), ?_, top_down R hl, top_up R hl⟩
  refine ⟨?_, ?_, ?_, ?_, score_hi R, ?_⟩
  · intro m h
    show (rangeU ms).ranged R (Val.ofNat R m) = _
    rw [rangeU_spread (fun m h => (hm m h).trans_lt (by norm_num)) hs, rangedU R hs.lt (hm _ hs.hi_mem) (hm m h)]
  · intro m h
    show 0 ≤ scoreOf R hi (hi - lo) m
    rw [← score_hi R (hi := hi) (len := (hi : Rat) - lo)]
    exact score_antitone R hl (by exact_mod_cast hs.le_hi m h)
  · intro m h
    have := score_antitone R (hi := hi) hl (m := lo) (m' := m) (by exact_mod_cast hs.lo_le m h)
    refine this.trans (le_of_eq ?_)
    unfold scoreOf topOf; rw [e]
  · show scoreOf R hi (hi - lo) lo = _
    unfold scoreOf topOf; rw [e]
  · intro m _ m' _ h
    exact score_antitone R hl (by exact_mod_cast h)

/-- Without rounding all of C40 holds. -/
theorem C40_exact : C40_statement .exact := by
  have top : ∀ len : Rat, 0 < len → topOf .exact len = 100 := by
    intro len h
    show 100 * len / len = 100
    field_simp
  constructor
  · intro ms lo hi hm hs
    have hl : 0 < hi - lo := by linarith [hs.lt]
    have : rangeF ms = ⟨lo, hi⟩ := rangeF_spread (fun m h => ⟨(hm m h).1, (hm m h).2.1⟩) hs
    refine ⟨scoreOf .exact hi (hi - lo), ?_, ?_, ?_, top _ hl, score_hi _, ?_⟩
    · intro m _
      show (rangeF ms).ranged .exact (.fin m) = _
      rw [this, rangedF .exact hs.lt]; rfl
    · intro m h
      rw [← score_hi .exact (hi := hi) (len := hi - lo)]
      exact score_antitone _ hl (hs.le_hi m h)
    · intro m h
      rw [← top _ hl]
      exact score_antitone _ hl (hs.lo_le m h)
    · intro m _ m' _ h
      exact score_antitone _ hl h
  · intro ms lo hi hm hs
    have hlt : (lo : Rat) < hi := by exact_mod_cast hs.lt
    have hl : 0 < (hi : Rat) - lo := by linarith
    have hn : ∀ m : Nat, (RangeU.mk lo hi).ranged .exact (Val.ofNat .exact m) = .fin (scoreOf .exact hi (hi - lo) m) := by
      intro m
      have h := hm _ hs.hi_mem
      have hlt' := hs.lt
      have e : (hi + 2 ^ 64 - lo) % 2 ^ 64 = hi - lo := by omega
      have hc : ((hi - lo : Nat) : Rat) = (hi : Rat) - lo := by push_cast [hlt'.le]; rfl
      unfold RangeU.ranged RangeU.length scoreOf Val.ofNat
      simp only [e]
      unfold Val.sub Val.neg Val.add Val.mul Rounding.exact
      simp only [← sub_eq_add_neg, hc]
      unfold Val.div
      simp only [if_neg hl.ne']
    refine ⟨fun m => scoreOf .exact hi (hi - lo) m, ?_, ?_, ?_, top _ hl, score_hi _, ?_⟩
    · intro m _
      show (rangeU ms).ranged .exact (Val.ofNat .exact m) = _
      rw [rangeU_spread hm hs, hn]
    · intro m h
      show 0 ≤ scoreOf .exact hi (hi - lo) m
      rw [← score_hi .exact (hi := hi) (len := (hi : Rat) - lo)]
      exact score_antitone _ hl (by exact_mod_cast hs.le_hi m h)
    · intro m h
      rw [← top _ hl]
      exact score_antitone (m := (lo : Rat)) _ hl (by exact_mod_cast hs.lo_le m h)
    · intro m _ m' _ h
      exact score_antitone _ hl (by exact_mod_cast h)

/-! ### Where C40 fails -/

/-- 50605.31 nanoseconds. -/
def someLow : Rat := round64 (5060531 / 100)
/-- 79377.12 nanoseconds. -/
def someHigh : Rat := round64 (7937712 / 100)

theorem someSpread : Spread [someHigh, someLow] someLow someHigh :=
  ⟨by simp, by simp, by intro m hm; simp at hm; rcases hm with rfl | rfl <;> decide +kernel,
    by intro m hm; simp at hm; rcases hm with rfl | rfl <;> decide +kernel, by decide +kernel⟩

/-- With the arithmetic of `float64` C40 is false: with two handlers at 50605.31 ns and
79377.12 ns the better one gets more than 100. -/
theorem C40_rounding_fails : ¬ C40_statement ieee := by
  intro h
  obtain ⟨g, hg⟩ := h.1 [someHigh, someLow] someLow someHigh (by
    intro m hm
    simp at hm
    rcases hm with rfl | rfl
    · exact ⟨by decide +kernel, by decide +kernel, ieee.idem _⟩
    · exact ⟨by decide +kernel, by decide +kernel, ieee.idem _⟩) someSpread
  have h1 := hg.finite someLow (by simp)
  rw [hg.smallest] at h1
  exact absurd h1 (by show (rangeF [someHigh, someLow]).ranged ieee (.fin someLow) ≠ .fin 100; decide +kernel)

/-- It is even larger than 100. -/
theorem C40_above_100 : ∃ q, (rangeF [someHigh, someLow]).ranged ieee (.fin someLow) = .fin q ∧ 100 < q :=
  ⟨100 + 1 / 2 ^ 46, by decide +kernel, by norm_num⟩

/-- Large counts are off by far: of the counts 2^64 - 1025 and 2^64 - 1 the smaller one
gets 200. -/
theorem C40_large_counts : Spread [2 ^ 64 - 1025, 2 ^ 64 - 1] (2 ^ 64 - 1025) (2 ^ 64 - 1) ∧
    (rangeU [2 ^ 64 - 1025, 2 ^ 64 - 1]).ranged ieee (Val.ofNat ieee (2 ^ 64 - 1025)) = .fin 200 := by
  refine ⟨⟨by simp, by simp, by intro m hm; simp at hm; omega, by intro m hm; simp at hm; omega, by norm_num⟩, by decide +kernel⟩

/-- A case of `C40_times_partial`. -/
example : ∃ g top, Scores [3, 1, 2] 1 3 (fun m => (rangeF [3, 1, 2]).ranged ieee (.fin m)) g top ∧
    100 * ieee.d ^ 2 ≤ top ∧ top ≤ 100 * ieee.p ^ 2 :=
  C40_times_partial ieee [3, 1, 2] 1 3 (by
    intro m hm; simp at hm
    rcases hm with rfl | rfl | rfl <;> exact ⟨by norm_num, by decide +kernel⟩)
    ⟨by simp, by simp, by intro m hm; simp at hm; rcases hm with rfl | rfl | rfl <;> norm_num,
      by intro m hm; simp at hm; rcases hm with rfl | rfl | rfl <;> norm_num, by norm_num⟩

/-- A case of `C40_counts_partial`, with its score in the middle. -/
example : (rangeU [3, 1, 2]).ranged ieee (Val.ofNat ieee 2) = .fin 50 ∧
    ∃ g top, Scores [3, 1, 2] 1 3 (fun m => (rangeU [3, 1, 2]).ranged ieee (Val.ofNat ieee m)) g top ∧
      100 * ieee.d ^ 2 ≤ top ∧ top ≤ 100 * ieee.p ^ 2 :=
  ⟨by decide +kernel, C40_counts_partial ieee [3, 1, 2] 1 3 (by
    intro m hm; simp at hm
    rcases hm with rfl | rfl | rfl <;> norm_num)
    ⟨by simp, by simp, by intro m hm; simp at hm; omega, by intro m hm; simp at hm; omega, by norm_num⟩⟩

end Verif.Props.ScoreRange
