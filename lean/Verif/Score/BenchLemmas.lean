import Verif.Score.BenchAxis
import Verif.Props.ScoreRange
import Verif.Props.ScoreAverage

/-
Lemmas on the benchmark axis.
-/

set_option linter.unusedSimpArgs false

namespace Verif.Score
open Go Verif.Warning Verif.Data Verif.Props.ScoreRange Verif.Props.ScoreAverage

/-! ### Ranges -/

/-- A measurement. -/
def measured (r : Record Rat) : Weight → Rat
  | .allocations => r.memAllocsPerOp
  | .allocBytes => r.memBytesPerOp
  | .nanoseconds => r.nanosPerOp

/-- Measurements that can be handled exactly. -/
structure OkRecord (r : Record Rat) : Prop where
  nanos : 0 ≤ r.nanosPerOp ∧ r.nanosPerOp ≤ maxFloat
  allocs : r.memAllocsPerOp ≤ 2 ^ 53
  bytes : r.memBytesPerOp ≤ 2 ^ 53

/-- Some handlers differ. -/
def Differ (w : Weight) (rs : List (Record Rat)) : Prop := ∃ r ∈ rs, ∃ r' ∈ rs, measured r w ≠ measured r' w
/-- None is better. -/
def Best (w : Weight) (rs : List (Record Rat)) (r : Record Rat) : Prop := ∀ r' ∈ rs, measured r w ≤ measured r' w

theorem ranges_fold (rs : List (Record Rat)) : ∀ g : Ranges, rs.foldl Ranges.add g =
    ⟨(rs.map Record.nanosPerOp).foldl RangeF.add g.nanos, (rs.map Record.memAllocsPerOp).foldl RangeU.add g.allocs,
      (rs.map Record.memBytesPerOp).foldl RangeU.add g.bytes⟩ := by
  induction rs with
  | nil => intro g; rfl
  | cons r rs ih => intro g; simp only [List.foldl_cons, List.map_cons, ih]; rfl

theorem ranges_eq (rs : List (Record Rat)) : rs.foldl Ranges.add {} =
    ⟨rangeF (rs.map Record.nanosPerOp), rangeU (rs.map Record.memAllocsPerOp), rangeU (rs.map Record.memBytesPerOp)⟩ := ranges_fold rs {}

theorem high_low_U (r : RangeU) (v : Nat) :
    (let r := if v > r.high then { r with high := v } else r; if v < r.low then { r with low := v } else r) = r.add v := by
  unfold RangeU.add
  simp only
  split_ifs <;> rfl

theorem high_low_F (r : RangeF) (v : Rat) :
    (let r := if v > r.high then { r with high := v } else r; if v < r.low then { r with low := v } else r) = r.add v := by
  unfold RangeF.add
  simp only
  split_ifs <;> rfl

/-- The original calculation finds the same ranges. -/
theorem addOriginal_eq (g : Ranges) (r : Record Rat) : g.addOriginal r = g.add r := by
  have h1 : ∀ g : Ranges, (let g := if r.memAllocsPerOp > g.allocs.high then { g with allocs.high := r.memAllocsPerOp } else g
      if r.memAllocsPerOp < g.allocs.low then { g with allocs.low := r.memAllocsPerOp } else g) =
        ({ g with allocs := g.allocs.add r.memAllocsPerOp } : Ranges) := by
    intro g
    rw [← high_low_U]
    simp only
    split_ifs <;> rfl
  have h2 : ∀ g : Ranges, (let g := if r.memBytesPerOp > g.bytes.high then { g with bytes.high := r.memBytesPerOp } else g
      if r.memBytesPerOp < g.bytes.low then { g with bytes.low := r.memBytesPerOp } else g) =
        ({ g with bytes := g.bytes.add r.memBytesPerOp } : Ranges) := by
    intro g
    rw [← high_low_U]
    simp only
    split_ifs <;> rfl
  have h3 : ∀ g : Ranges, (let g := if r.nanosPerOp > g.nanos.high then { g with nanos.high := r.nanosPerOp } else g
      if r.nanosPerOp < g.nanos.low then { g with nanos.low := r.nanosPerOp } else g) =
        ({ g with nanos := g.nanos.add r.nanosPerOp } : Ranges) := by
    intro g
    rw [← high_low_F]
    simp only
    split_ifs <;> rfl
  show _ = (Ranges.mk _ _ _)
  refine (h3 _).trans ?_
  have := h1 g
  have e := (h2 _).trans (congrArg (fun g : Ranges => ({ g with bytes := g.bytes.add r.memBytesPerOp } : Ranges)) this)
  exact congrArg (fun g : Ranges => ({ g with nanos := g.nanos.add r.nanosPerOp } : Ranges)) e

/-- Times have a smallest and a largest. -/
theorem spreadF {ms : List Rat} (hm : ∀ m ∈ ms, 0 ≤ m ∧ m ≤ maxFloat) {a b : Rat} (ha : a ∈ ms) (hb : b ∈ ms) (hne : a ≠ b) :
    Spread ms (rangeF ms).low (rangeF ms).high := by
  obtain ⟨h1, h2, h3, h4, h5, h6⟩ := rangeF_fold ms .new
  have hlm : (rangeF ms).low ∈ ms := by
    rcases h5 with h5 | h5
    · have e : a = (rangeF ms).low := le_antisymm ((hm a ha).2.trans (le_of_eq h5.symm)) (h1 a ha)
      rwa [← e]
    · exact h5
  have hhm : (rangeF ms).high ∈ ms := by
    rcases h6 with h6 | h6
    · have e : a = (rangeF ms).high := le_antisymm (h2 a ha) ((le_of_eq h6).trans (hm a ha).1)
      rwa [← e]
    · exact h6
  refine ⟨hlm, hhm, h1, h2, ?_⟩
  rcases lt_or_gt_of_ne hne with h | h
  · exact (h1 a ha).trans_lt (h.trans_le (h2 b hb))
  · exact (h1 b hb).trans_lt (h.trans_le (h2 a ha))

/-- Counts have a smallest and a largest. -/
theorem spreadU {ms : List Nat} (hm : ∀ m ∈ ms, m < 2 ^ 64) {a b : Nat} (ha : a ∈ ms) (hb : b ∈ ms) (hne : a ≠ b) :
    Spread ms (rangeU ms).low (rangeU ms).high := by
  obtain ⟨h1, h2, h3, h4, h5, h6⟩ := rangeU_fold ms .new
  have hlm : (rangeU ms).low ∈ ms := by
    rcases h5 with h5 | h5
    · have h5 : (rangeU ms).low = 2 ^ 64 - 1 := h5
      have := hm a ha
      have h1 : (rangeU ms).low ≤ a := h1 a ha
      have e : a = (rangeU ms).low := by omega
      rwa [← e]
    · exact h5
  have hhm : (rangeU ms).high ∈ ms := by
    rcases h6 with h6 | h6
    · have h6 : (rangeU ms).high = 0 := h6
      have h2 : a ≤ (rangeU ms).high := h2 a ha
      have e : a = (rangeU ms).high := by omega
      rwa [← e]
    · exact h6
  refine ⟨hlm, hhm, h1, h2, ?_⟩
  rcases lt_or_gt_of_ne hne with h | h
  · exact (h1 a ha).trans_lt (h.trans_le (h2 b hb))
  · exact (h1 b hb).trans_lt (h.trans_le (h2 a ha))

theorem same_F (R : Rounding) {ms : List Rat} (hm : ∀ m ∈ ms, 0 ≤ m ∧ m ≤ maxFloat) {a : Rat} (ha : a ∈ ms) (h : ∀ b ∈ ms, b = a) :
    ((rangeF ms).length R).isPos = false := by
  obtain ⟨h1, h2, h3, h4, h5, h6⟩ := rangeF_fold ms .new
  have el : (rangeF ms).low = a := by
    rcases h5 with h5 | h5
    · exact le_antisymm (h1 a ha) ((hm a ha).2.trans (le_of_eq h5.symm))
    · exact h _ h5
  have eh : (rangeF ms).high = a := by
    rcases h6 with h6 | h6
    · exact le_antisymm ((le_of_eq h6).trans (hm a ha).1) (h2 a ha)
    · exact h _ h6
  unfold RangeF.length
  rw [el, eh]
  simp [Val.sub, Val.add, Val.neg, Val.isPos, R.zero]

theorem same_U (R : Rounding) {ms : List Nat} (hm : ∀ m ∈ ms, m < 2 ^ 64) {a : Nat} (ha : a ∈ ms) (h : ∀ b ∈ ms, b = a) :
    ((rangeU ms).length R).isPos = false := by
  obtain ⟨h1, h2, h3, h4, h5, h6⟩ := rangeU_fold ms .new
  have el : (rangeU ms).low = a := by
    rcases h5 with h5 | h5
    · have h5 : (rangeU ms).low = 2 ^ 64 - 1 := h5
      have := hm a ha
      have h1 : (rangeU ms).low ≤ a := h1 a ha
      omega
    · exact h _ h5
  have eh : (rangeU ms).high = a := by
    rcases h6 with h6 | h6
    · have h6 : (rangeU ms).high = 0 := h6
      have h2 : a ≤ (rangeU ms).high := h2 a ha
      omega
    · exact h _ h6
  unfold RangeU.length
  rw [el, eh]
  have : (a + 2 ^ 64 - a) % 2 ^ 64 = 0 := by omega
  simp only [this, Val.ofNat, Val.isPos, Nat.cast_zero, R.zero, lt_irrefl, decide_false]

/-- What is known of a measure of a record in a test. -/
structure Facts (R : Rounding) (g : Ranges) (rs : List (Record Rat)) (r : Record Rat) (w : Weight) : Prop where
  pos : (g.length R w).isPos = true ↔ Differ w rs
  score : (g.length R w).isPos = true → ∃ x, g.ranged R w (itemValue R r w) = .fin x ∧ 0 ≤ x ∧ x ≤ 100 * R.p ^ 2 ∧
    (Best w rs r → 100 * R.d ^ 2 ≤ x)

theorem facts_F (R : Rounding) {g : Ranges} {rs : List (Record Rat)} (hok : ∀ r ∈ rs, OkRecord r) (hg : g.nanos = rangeF (rs.map Record.nanosPerOp))
    {r : Record Rat} (hr : r ∈ rs) : Facts R g rs r .nanoseconds := by
  have hm : ∀ m ∈ rs.map Record.nanosPerOp, 0 ≤ m ∧ m ≤ maxFloat := by
    intro m hm
    obtain ⟨r, hr, rfl⟩ := List.mem_map.1 hm
    exact (hok r hr).nanos
  have hrm : r.nanosPerOp ∈ rs.map Record.nanosPerOp := List.mem_map_of_mem hr
  have hpos : (g.length R .nanoseconds).isPos = true → Differ .nanoseconds rs := by
    intro h
    by_contra hn
    have : ∀ b ∈ rs.map Record.nanosPerOp, b = r.nanosPerOp := by
      intro b hb
      obtain ⟨r', hr', rfl⟩ := List.mem_map.1 hb
      by_contra hne
      exact hn ⟨r', hr', r, hr, hne⟩
    have := same_F R hm hrm this
    rw [← hg] at this
    rw [show g.length R .nanoseconds = g.nanos.length R from rfl, this] at h
    cases h
  have hspread : Differ .nanoseconds rs → Spread (rs.map Record.nanosPerOp) (rangeF (rs.map Record.nanosPerOp)).low (rangeF (rs.map Record.nanosPerOp)).high := by
    rintro ⟨a, ha, b, hb, hne⟩
    exact spreadF hm (List.mem_map_of_mem ha) (List.mem_map_of_mem hb) hne
  refine ⟨⟨hpos, ?_⟩, ?_⟩
  · intro h
    have hs := (hspread h).lt
    have : 0 < R.rnd (g.nanos.high - g.nanos.low) := R.pos (by rw [hg]; linarith)
    simp [Ranges.length, RangeF.length, Val.sub, Val.add, Val.neg, Val.isPos, ← sub_eq_add_neg, this]
  · intro h
    have hs := hspread (hpos h)
    obtain ⟨f, top, hf, h1, h2⟩ := C40_times_partial R _ _ _ hm hs
    refine ⟨f r.nanosPerOp, ?_, hf.nonneg _ hrm, (hf.le _ hrm).trans h2, ?_⟩
    · have := hf.finite _ hrm
      rw [← hg] at this
      exact this
    · intro hb
      have : r.nanosPerOp = (rangeF (rs.map Record.nanosPerOp)).low := by
        refine le_antisymm ?_ (hs.lo_le _ hrm)
        obtain ⟨r', hr', e⟩ := List.mem_map.1 hs.lo_mem
        rw [← e]; exact hb r' hr'
      rw [this, hf.smallest]; exact h1

theorem facts_U (R : Rounding) {g : RangeU} {rs : List (Record Rat)} (f : Record Rat → Nat) (hok : ∀ r ∈ rs, f r ≤ 2 ^ 53)
    (hg : g = rangeU (rs.map f)) {r : Record Rat} (hr : r ∈ rs) :
    ((g.length R).isPos = true ↔ ∃ r ∈ rs, ∃ r' ∈ rs, f r ≠ f r') ∧
    ((g.length R).isPos = true → ∃ x, g.ranged R (Val.ofNat R (f r)) = .fin x ∧ 0 ≤ x ∧ x ≤ 100 * R.p ^ 2 ∧
      ((∀ r' ∈ rs, f r ≤ f r') → 100 * R.d ^ 2 ≤ x)) := by
  have hm : ∀ m ∈ rs.map f, m ≤ 2 ^ 53 := by
    intro m hm
    obtain ⟨r, hr, rfl⟩ := List.mem_map.1 hm
    exact hok r hr
  have hm' : ∀ m ∈ rs.map f, m < 2 ^ 64 := fun m h => (hm m h).trans_lt (by norm_num)
  have hrm : f r ∈ rs.map f := List.mem_map_of_mem hr
  have hpos : (g.length R).isPos = true → ∃ r ∈ rs, ∃ r' ∈ rs, f r ≠ f r' := by
    intro h
    by_contra hn
    have : ∀ b ∈ rs.map f, b = f r := by
      intro b hb
      obtain ⟨r', hr', rfl⟩ := List.mem_map.1 hb
      by_contra hne
      exact hn ⟨r', hr', r, hr, hne⟩
    have := same_U R hm' hrm this
    rw [← hg] at this
    rw [this] at h
    cases h
  have hspread : (∃ r ∈ rs, ∃ r' ∈ rs, f r ≠ f r') → Spread (rs.map f) (rangeU (rs.map f)).low (rangeU (rs.map f)).high := by
    rintro ⟨a, ha, b, hb, hne⟩
    exact spreadU hm' (List.mem_map_of_mem ha) (List.mem_map_of_mem hb) hne
  refine ⟨⟨hpos, ?_⟩, ?_⟩
  · intro h
    have hs := hspread h
    have hlt := hs.lt
    have hh := hm _ hs.hi_mem
    rw [← hg] at hlt hh
    have e : (g.high + 2 ^ 64 - g.low) % 2 ^ 64 = g.high - g.low := by omega
    have : (0 : Rat) < ((g.high - g.low : Nat) : Rat) := by exact_mod_cast (by omega)
    have := R.pos this
    simp only [RangeU.length, Val.ofNat, Val.isPos, e, this, decide_true]
  · intro h
    have hs := hspread (hpos h)
    obtain ⟨s, top, hf, h1, h2⟩ := C40_counts_partial R _ _ _ hm hs
    refine ⟨s (f r), ?_, hf.nonneg _ hrm, (hf.le _ hrm).trans h2, ?_⟩
    · have := hf.finite _ hrm
      rw [← hg] at this
      exact this
    · intro hb
      have : f r = (rangeU (rs.map f)).low := by
        refine le_antisymm ?_ (hs.lo_le _ hrm)
        obtain ⟨r', hr', e⟩ := List.mem_map.1 hs.lo_mem
        rw [← e]; exact hb r' hr'
      rw [this, hf.smallest]; exact h1

/-- The scores of one test. -/
theorem facts (R : Rounding) {rs : List (Record Rat)} (hok : ∀ r ∈ rs, OkRecord r) {r : Record Rat} (hr : r ∈ rs) (w : Weight) :
    Facts R (rs.foldl Ranges.add {}) rs r w := by
  rw [ranges_eq]
  cases w with
  | nanoseconds => exact facts_F R hok rfl hr
  | allocations =>
    obtain ⟨h1, h2⟩ := facts_U R Record.memAllocsPerOp (fun r h => (hok r h).allocs) rfl hr
    refine ⟨h1.trans ?_, fun h => ?_⟩
    · constructor
      · rintro ⟨a, ha, b, hb, hne⟩; exact ⟨a, ha, b, hb, by simpa [measured] using hne⟩
      · rintro ⟨a, ha, b, hb, hne⟩; exact ⟨a, ha, b, hb, by simpa [measured] using hne⟩
    · obtain ⟨x, e, a, b, c⟩ := h2 h
      exact ⟨x, e, a, b, fun hb => c fun r' hr' => by have := hb r' hr'; simpa [measured] using this⟩
  | allocBytes =>
    obtain ⟨h1, h2⟩ := facts_U R Record.memBytesPerOp (fun r h => (hok r h).bytes) rfl hr
    refine ⟨h1.trans ?_, fun h => ?_⟩
    · constructor
      · rintro ⟨a, ha, b, hb, hne⟩; exact ⟨a, ha, b, hb, by simpa [measured] using hne⟩
      · rintro ⟨a, ha, b, hb, hne⟩; exact ⟨a, ha, b, hb, by simpa [measured] using hne⟩
    · obtain ⟨x, e, a, b, c⟩ := h2 h
      exact ⟨x, e, a, b, fun hb => c fun r' hr' => by have := hb r' hr'; simpa [measured] using this⟩

end Verif.Score
