import Verif.Props.BenchScore
import Mathlib.Algebra.Order.Ring.Pow

/-
C91: the scores of benchmarks are weighted means of positions between the best and the
worst result.
-/

set_option linter.unusedSimpArgs false

namespace Verif.Props.BenchFormula
open Go Verif.Warning Verif.Data Verif.Score Verif.Props.BenchData Verif.Props.BenchScore Verif.Props.ScoreRange Verif.Props.ScoreAverage

/-! ### Specification -/

/-- The best and the worst of the last results for each test, by each measure. -/
def Limits (ds : List (Data Rat)) (best worst : Bytes → Weight → Rat) : Prop :=
  ∀ h t d w, lastFor ds h t = some d → best t w ≤ measure d w ∧ measure d w ≤ worst t w ∧
    (∃ h' d', lastFor ds h' t = some d' ∧ measure d' w = best t w) ∧ (∃ h' d', lastFor ds h' t = some d' ∧ measure d' w = worst t w)

/-- What was measured last for a handler and a test. -/
def last (ds : List (Data Rat)) (h t : Bytes) (w : Weight) : Rat :=
  match lastFor ds h t with
  | some d => measure d w
  | none => 0

/-- The measures. -/
def all : List Weight := [.allocations, .allocBytes, .nanoseconds]

/-- A mean of values with weights. -/
def weighted (l : List (Nat × Rat)) : Rat := (l.map fun x => (x.1 : Rat) * x.2).sum / (l.map fun x => (x.1 : Rat)).sum
/-- A mean of values. -/
def plain (l : List Rat) : Rat := l.sum / l.length

section
variable (weights : Weight → Nat) (best worst : Bytes → Weight → Rat) (x : Bytes → Weight → Rat)

/-- Where a result stands between the worst, 0, and the best, 100. -/
def position (t : Bytes) (w : Weight) : Rat := 100 * (worst t w - x t w) / (worst t w - best t w)
/-- The score in a test: a mean over the measures that tell handlers apart. -/
def inTest (t : Bytes) : Rat := weighted ((all.filter fun w => decide (best t w < worst t w)).map fun w => (weights w, position best worst x t w))
/-- The score by tests: a mean over tests. -/
def byTests (ts : List Bytes) : Rat := plain (ts.map (inTest weights best worst x))
/-- The score for a measure: a mean over the tests where it tells handlers apart. -/
def inMeasure (ts : List Bytes) (w : Weight) : Rat :=
  plain ((ts.filter fun t => decide (best t w < worst t w)).map fun t => position best worst x t w)
/-- The score by measures: a mean over measures. -/
def byMeasures (ts : List Bytes) : Rat := weighted (all.map fun w => (weights w, inMeasure best worst x ts w))
end

/-- A value that is near a number: up to `k` roundings, and one of a divisor. -/
def Near (R : Rounding) (k : Nat) (x : Rat) (v : Val) : Prop :=
  ∃ q, v = .fin q ∧ x * (R.d ^ k / R.p) ≤ q ∧ q ≤ x * (R.p ^ k / R.d)

/-! ### Roundings -/

theorem low_mono (R : Rounding) {k n : Nat} (h : k ≤ n) : R.d ^ n / R.p ≤ R.d ^ k / R.p :=
  div_le_div_of_nonneg_right (pow_down R h) (by linarith [R.p_ge])
theorem up_mono (R : Rounding) {k n : Nat} (h : k ≤ n) : R.p ^ k / R.d ≤ R.p ^ n / R.d :=
  div_le_div_of_nonneg_right (pow_up R h) R.d_pos.le
theorem low_nonneg (R : Rounding) (k : Nat) : 0 ≤ R.d ^ k / R.p := div_nonneg (pow_nonneg R.d_pos.le _) (by linarith [R.p_ge])
theorem up_nonneg (R : Rounding) (k : Nat) : 0 ≤ R.p ^ k / R.d := div_nonneg (pow_nonneg (by linarith [R.p_ge]) _) R.d_pos.le

theorem Near.weaken {R : Rounding} {k n : Nat} {x : Rat} {v : Val} (hx : 0 ≤ x) (h : Near R k x v) (hk : k ≤ n) : Near R n x v := by
  obtain ⟨q, e, a, b⟩ := h
  exact ⟨q, e, (mul_le_mul_of_nonneg_left (low_mono R hk) hx).trans a, b.trans (mul_le_mul_of_nonneg_left (up_mono R hk) hx)⟩

/-- Without rounding what is near is equal. -/
theorem Near.exact {k : Nat} {x : Rat} {v : Val} (h : Near .exact k x v) : v = .fin x := by
  obtain ⟨q, e, a, b⟩ := h
  have hp : Rounding.exact.p = 1 := by simp [Rounding.p, Rounding.exact]
  have hd : Rounding.exact.d = 1 := by simp [Rounding.d, Rounding.exact]
  rw [hp, hd] at a b
  simp at a b
  rw [e, le_antisymm b a]

theorem near_score (R : Rounding) {lo hi m : Rat} (hlt : lo < hi) (hm : m ≤ hi) {len : Rat} (h1 : (hi - lo) * R.d ≤ len) (h2 : len ≤ (hi - lo) * R.p) :
    100 * (hi - m) / (hi - lo) * (R.d ^ 3 / R.p) ≤ scoreOf R hi len m ∧ scoreOf R hi len m ≤ 100 * (hi - m) / (hi - lo) * (R.p ^ 3 / R.d) := by
  have hp := R.p_ge
  have hd := R.d_pos
  have hD : 0 < hi - lo := by linarith
  have hl : 0 < len := lt_of_lt_of_le (mul_pos hD hd) h1
  have x0 : 0 ≤ hi - m := by linarith
  have a1 := R.le_up x0
  have a2 := R.ge_down x0
  have a3 := R.nonneg x0
  have y0 : 0 ≤ 100 * R.rnd (hi - m) := by linarith
  have b1 := R.le_up y0
  have b2 := R.ge_down y0
  have b3 := R.nonneg y0
  have z0 : 0 ≤ R.rnd (100 * R.rnd (hi - m)) / len := div_nonneg b3 hl.le
  have c1 := R.le_up z0
  have c2 := R.ge_down z0
  unfold scoreOf
  constructor
  · refine le_trans ?_ c2
    have h3 : 100 * (hi - m) * R.d ^ 2 ≤ R.rnd (100 * R.rnd (hi - m)) := by nlinarith
    have h4 : 100 * (hi - m) * R.d ^ 2 / ((hi - lo) * R.p) ≤ R.rnd (100 * R.rnd (hi - m)) / len :=
      div_le_div₀ b3 h3 hl h2
    calc _ = 100 * (hi - m) * R.d ^ 2 / ((hi - lo) * R.p) * R.d := by
          have : R.p ≠ 0 := by linarith
          field_simp
      _ ≤ _ := mul_le_mul_of_nonneg_right h4 hd.le
  · refine le_trans c1 ?_
    have h3 : R.rnd (100 * R.rnd (hi - m)) ≤ 100 * (hi - m) * R.p ^ 2 := by nlinarith
    have h4 : R.rnd (100 * R.rnd (hi - m)) / len ≤ 100 * (hi - m) * R.p ^ 2 / ((hi - lo) * R.d) :=
      div_le_div₀ (by positivity) h3 (mul_pos hD hd) h1
    calc _ ≤ 100 * (hi - m) * R.p ^ 2 / ((hi - lo) * R.d) * R.p := mul_le_mul_of_nonneg_right h4 (by linarith)
      _ = _ := by
        field_simp

theorem R_up (R : Rounding) {x : Rat} (h : 0 ≤ x) : R.rnd x ≤ x * R.p := R.le_up h
theorem R_down (R : Rounding) {x : Rat} (h : 0 ≤ x) : x * R.d ≤ R.rnd x := R.ge_down h

/-! ### Means -/

theorem total_le {α : Type} (f g : α → Op) (c : Rat) : ∀ l : List α, (∀ a ∈ l, (f a).times = (g a).times ∧ (f a).score * c ≤ (g a).score) →
    total (l.map f) * c ≤ total (l.map g) := by
  intro l
  induction l with
  | nil => intro _; simp [total]
  | cons a l ih =>
    intro h
    have h1 := ih fun b hb => h b (by simp [hb])
    obtain ⟨e, h2⟩ := h a (by simp)
    have ht : (0 : Rat) ≤ (g a).times := by positivity
    have e1 : total ((a :: l).map f) = (f a).score * (f a).times + total (l.map f) := by simp [total]
    have e2 : total ((a :: l).map g) = (g a).score * (g a).times + total (l.map g) := by simp [total]
    rw [e1, e2, e]
    have := mul_le_mul_of_nonneg_right h2 ht
    calc _ = (f a).score * c * (g a).times + total (l.map f) * c := by ring
      _ ≤ _ := by linarith

theorem total_ge {α : Type} (f g : α → Op) (c : Rat) : ∀ l : List α, (∀ a ∈ l, (f a).times = (g a).times ∧ (g a).score ≤ (f a).score * c) →
    total (l.map g) ≤ total (l.map f) * c := by
  intro l
  induction l with
  | nil => intro _; simp [total]
  | cons a l ih =>
    intro h
    have h1 := ih fun b hb => h b (by simp [hb])
    obtain ⟨e, h2⟩ := h a (by simp)
    have ht : (0 : Rat) ≤ (g a).times := by positivity
    have e1 : total ((a :: l).map f) = (f a).score * (f a).times + total (l.map f) := by simp [total]
    have e2 : total ((a :: l).map g) = (g a).score * (g a).times + total (l.map g) := by simp [total]
    rw [e1, e2, e]
    have := mul_le_mul_of_nonneg_right h2 ht
    calc _ ≤ (f a).score * c * (g a).times + total (l.map f) * c := by linarith
      _ = _ := by ring

/-- An average of what is near is near the mean. -/
theorem near_mean (R : Rounding) {α : Type} (l : List α) (f g : α → Op) (k : Nat)
    (h : ∀ a ∈ l, (f a).times = (g a).times ∧ 0 ≤ (f a).score ∧ Near R k (f a).score (.fin (g a).score))
    (hw : 0 < weight (l.map f)) (hmax : weight (l.map f) ≤ 2 ^ 53) :
    Near R (k + (2 * l.length + 1)) (mean (l.map f)) (averageOf R (l.map g)) := by
  have near : ∀ a ∈ l, (f a).score * (R.d ^ k / R.p) ≤ (g a).score ∧ (g a).score ≤ (f a).score * (R.p ^ k / R.d) := by
    intro a ha
    obtain ⟨q, e, x, y⟩ := (h a ha).2.2
    injection e with e
    rw [e]; exact ⟨x, y⟩
  have ew : weight (l.map g) = weight (l.map f) := by
    unfold weight
    rw [List.map_map, List.map_map]
    congr 1
    exact List.map_congr_left fun a ha => (h a ha).1.symm
  obtain ⟨q, e, h1, h2⟩ := C41_error_partial R (l.map g) (by
    intro o ho
    obtain ⟨a, ha, rfl⟩ := List.mem_map.1 ho
    exact le_trans (mul_nonneg (h a ha).2.1 (low_nonneg R k)) (near a ha).1) (by rw [ew]; exact hw) (by rw [ew]; exact hmax)
  rw [List.length_map] at h1 h2
  have t1 := total_le f g (R.d ^ k / R.p) l fun a ha => ⟨(h a ha).1, (near a ha).1⟩
  have t2 := total_ge f g (R.p ^ k / R.d) l fun a ha => ⟨(h a ha).1, (near a ha).2⟩
  have hW : (0 : Rat) < weight (l.map f) := by exact_mod_cast hw
  have m1 : mean (l.map f) * (R.d ^ k / R.p) ≤ mean (l.map g) := by
    unfold mean
    rw [ew, div_mul_eq_mul_div]
    exact div_le_div_of_nonneg_right t1 hW.le
  have m2 : mean (l.map g) ≤ mean (l.map f) * (R.p ^ k / R.d) := by
    unfold mean
    rw [ew, div_mul_eq_mul_div]
    exact div_le_div_of_nonneg_right t2 hW.le
  refine ⟨q, e, ?_, ?_⟩
  · refine le_trans (le_of_eq ?_) (le_trans (mul_le_mul_of_nonneg_right m1 (pow_nonneg R.d_pos.le (2 * l.length + 1))) h1)
    rw [pow_add]; ring
  · refine le_trans (le_trans h2 (mul_le_mul_of_nonneg_right m2 (pow_nonneg (by linarith [R.p_ge]) (2 * l.length + 1)))) (le_of_eq ?_)
    rw [pow_add]; ring

theorem mean_nonneg (ops : List Op) (h : ∀ o ∈ ops, 0 ≤ o.score) : 0 ≤ mean ops := by
  unfold mean total
  refine div_nonneg (List.sum_nonneg ?_) (by positivity)
  intro x hx
  obtain ⟨o, ho, rfl⟩ := List.mem_map.1 hx
  exact mul_nonneg (h o ho) (by positivity)

/-! ### One test -/

section
variable (s : Setting) {best worst : Bytes → Weight → Rat} (L : Limits s.ds best worst)
include L

/-- Which measures count. -/
theorem counts_limits {h t : Bytes} {d : Data Rat} (hl : lastFor s.ds h t = some d) (w : Weight) :
    counts s.R (s.rng t) w = true ↔ best t w < worst t w := by
  rw [(facts_of s hl w).1]
  constructor
  · rintro ⟨h1, h2, d1, d2, e1, e2, hne⟩
    obtain ⟨a1, b1, _⟩ := L h1 t d1 w e1
    obtain ⟨a2, b2, _⟩ := L h2 t d2 w e2
    rcases lt_or_gt_of_ne hne with hlt | hlt <;> linarith
  · intro hlt
    obtain ⟨_, _, ⟨h1, d1, e1, m1⟩, ⟨h2, d2, e2, m2⟩⟩ := L h t d w hl
    exact ⟨h1, h2, d1, d2, e1, e2, by rw [m1, m2]; exact hlt.ne⟩

/-- The least and the greatest of a list, from those of the results. -/
theorem spread_of {α : Type} [LinearOrder α] (f : Record Rat → α) (c : α → Rat) (hc : ∀ a b, c a ≤ c b ↔ a ≤ b) (w : Weight)
    (hf : ∀ d, c (f (fullRecord s.fl d)) = measure d w) {h t : Bytes} {d : Data Rat} (hl : lastFor s.ds h t = some d) (hlt : best t w < worst t w) :
    ∃ lo hi, Spread ((s.records t).map f) lo hi ∧ c lo = best t w ∧ c hi = worst t w := by
  obtain ⟨_, _, ⟨h1, d1, e1, m1⟩, ⟨h2, d2, e2, m2⟩⟩ := L h t d w hl
  refine ⟨f (fullRecord s.fl d1), f (fullRecord s.fl d2), ⟨?_, ?_, ?_, ?_, ?_⟩, (hf d1).trans m1, (hf d2).trans m2⟩
  · exact List.mem_map_of_mem ((mem_records s t _).2 ⟨h1, d1, e1, rfl⟩)
  · exact List.mem_map_of_mem ((mem_records s t _).2 ⟨h2, d2, e2, rfl⟩)
  · intro m hm
    obtain ⟨r, hr, rfl⟩ := List.mem_map.1 hm
    obtain ⟨h', d', e', rfl⟩ := (mem_records s t r).1 hr
    rw [← hc, hf, hf, m1]
    exact (L h' t d' w e').1
  · intro m hm
    obtain ⟨r, hr, rfl⟩ := List.mem_map.1 hm
    obtain ⟨h', d', e', rfl⟩ := (mem_records s t r).1 hr
    rw [← hc, hf, hf, m2]
    exact (L h' t d' w e').2.1
  · rw [← not_le, ← hc, hf, hf, m1, m2, not_le]; exact hlt

omit L in
theorem near_U {lo hi m : Nat} (R : Rounding) (hlt : lo < hi) (hm : m ≤ hi) (hh : hi ≤ 2 ^ 53) :
    Near R 3 (100 * ((hi : Rat) - m) / (hi - lo)) ((RangeU.mk lo hi).ranged R (Val.ofNat R m)) := by
  rw [rangedU R hlt hh (hm.trans hh)]
  have h1 : (lo : Rat) < hi := by exact_mod_cast hlt
  obtain ⟨a, b⟩ := near_score R (m := m) h1 (by exact_mod_cast hm) (len := hi - lo) (mul_le_of_le_one_right (by linarith) R.d_le)
    (le_mul_of_one_le_right (by linarith) R.p_ge)
  exact ⟨_, rfl, a, b⟩

/-- The score of a measure of a test. -/
theorem near_position {h t : Bytes} {d : Data Rat} (hl : lastFor s.ds h t = some d) (w : Weight) (hlt : best t w < worst t w) :
    Near s.R 3 (position best worst (last s.ds h) t w) (scoreIn s.R (s.rng t) (partRecord s.fl d) w) := by
  have ex : last s.ds h t w = measure d w := by unfold last; rw [hl]
  obtain ⟨hb, hw, _⟩ := L h t d w hl
  have hmem : ∀ r ∈ s.records t, ∃ d' ∈ s.ds, r = fullRecord s.fl d' := by
    intro r hr
    obtain ⟨h', d', e', rfl⟩ := (mem_records s t r).1 hr
    exact ⟨d', (lastFor_mem e').1, rfl⟩
  unfold position
  rw [ex]
  unfold scoreIn Setting.rng
  rw [ranges_eq]
  cases w with
  | nanoseconds =>
    obtain ⟨lo, hi, hs, h1, h2⟩ := spread_of s L Record.nanosPerOp id (fun _ _ => Iff.rfl) .nanoseconds (fun _ => rfl) hl hlt
    have hm : ∀ m ∈ (s.records t).map Record.nanosPerOp, 0 ≤ m ∧ m ≤ maxFloat := by
      intro m hm
      obtain ⟨r, hr, rfl⟩ := List.mem_map.1 hm
      obtain ⟨d', hd', rfl⟩ := hmem r hr
      exact s.nanos d' hd'
    rw [← h2] at hw
    rw [← h1, ← h2]
    have hlen : 0 < hi - lo := by linarith [hs.lt]
    show Near s.R 3 (100 * (hi - d.nsOps) / (hi - lo)) ((rangeF ((s.records t).map Record.nanosPerOp)).ranged s.R (.fin d.nsOps))
    rw [rangeF_spread hm hs, rangedF s.R hs.lt]
    obtain ⟨a, b⟩ := near_score s.R (m := d.nsOps) hs.lt hw (R_down s.R hlen.le) (R_up s.R hlen.le)
    exact ⟨_, rfl, a, b⟩
  | allocBytes =>
    obtain ⟨lo, hi, hs, h1, h2⟩ := spread_of s L Record.memBytesPerOp (fun n => (n : Rat)) (fun _ _ => Nat.cast_le) .allocBytes (fun _ => rfl) hl hlt
    have hm : ∀ m ∈ (s.records t).map Record.memBytesPerOp, m ≤ 2 ^ 53 := by
      intro m hm
      obtain ⟨r, hr, rfl⟩ := List.mem_map.1 hm
      obtain ⟨d', hd', rfl⟩ := hmem r hr
      exact s.bytes d' hd'
    rw [← h2] at hw
    rw [← h1, ← h2]
    show Near s.R 3 (100 * ((hi : Rat) - (d.bytesOp : Nat)) / (hi - lo)) ((rangeU ((s.records t).map Record.memBytesPerOp)).ranged s.R (Val.ofNat s.R d.bytesOp))
    rw [rangeU_spread (fun m h => (hm m h).trans_lt (by norm_num)) hs]
    exact near_U s.R hs.lt (by simpa [BenchScore.measure] using hw) (hm _ hs.hi_mem)
  | allocations =>
    obtain ⟨lo, hi, hs, h1, h2⟩ := spread_of s L Record.memAllocsPerOp (fun n => (n : Rat)) (fun _ _ => Nat.cast_le) .allocations (fun _ => rfl) hl hlt
    have hm : ∀ m ∈ (s.records t).map Record.memAllocsPerOp, m ≤ 2 ^ 53 := by
      intro m hm
      obtain ⟨r, hr, rfl⟩ := List.mem_map.1 hm
      obtain ⟨d', hd', rfl⟩ := hmem r hr
      exact s.allocs d' hd'
    rw [← h2] at hw
    rw [← h1, ← h2]
    show Near s.R 3 (100 * ((hi : Rat) - (d.allocsOp : Nat)) / (hi - lo)) ((rangeU ((s.records t).map Record.memAllocsPerOp)).ranged s.R (Val.ofNat s.R d.allocsOp))
    rw [rangeU_spread (fun m h => (hm m h).trans_lt (by norm_num)) hs]
    exact near_U s.R hs.lt (by simpa [BenchScore.measure] using hw) (hm _ hs.hi_mem)

/-! ### Means of scores -/

omit L in
theorem all_perm : weightOrder.Perm all := by decide

omit L in
theorem cast_sum (l : List Nat) : ((l.sum : Nat) : Rat) = (l.map fun n : Nat => (n : Rat)).sum := by
  induction l with
  | nil => simp
  | cons n l ih => simp [ih]

omit L in
/-- A mean with weights, as the mean of what is added. -/
theorem mean_weighted (c : Weight → Bool) (f : Weight → Rat) (g : Weight → Nat) :
    mean ((weightOrder.filter c).map fun w => Op.many (f w) (g w)) = weighted ((all.filter c).map fun w => (g w, f w)) := by
  have hp : (weightOrder.filter c).Perm (all.filter c) := all_perm.filter c
  unfold mean total weight weighted
  congr 1
  · rw [List.map_map, List.map_map]
    refine Eq.trans (congrArg List.sum (List.map_congr_left fun w _ => ?_)) (hp.map (fun w => (g w : Rat) * f w)).sum_eq
    exact mul_comm _ _
  · rw [List.map_map, List.map_map]
    have e : (((weightOrder.filter c).map (Op.times ∘ fun w => Op.many (f w) (g w))).sum : Nat) = ((all.filter c).map g).sum := (hp.map g).sum_eq
    rw [e, cast_sum, List.map_map]
    rfl

omit L in
/-- A mean, as the mean of what is added. -/
theorem mean_plain {α : Type} (l : List α) (f : α → Rat) : mean (l.map fun a => Op.one (f a)) = plain (l.map f) := by
  unfold mean total weight plain
  rw [List.map_map, List.map_map, List.length_map]
  congr 1
  · refine congrArg List.sum (List.map_congr_left fun a _ => ?_)
    simp [Op.score, Op.times]
  · show (((l.map fun _ => 1).sum : Nat) : Rat) = _
    simp

omit L in
theorem weight_one {α : Type} (l : List α) (f : α → Rat) : weight (l.map fun a => Op.one (f a)) = l.length := by
  unfold weight
  rw [List.map_map]
  show (l.map fun _ => 1).sum = _
  simp

theorem position_nonneg {h t : Bytes} {d : Data Rat} (hl : lastFor s.ds h t = some d) (w : Weight) : 0 ≤ position best worst (last s.ds h) t w := by
  obtain ⟨a, b, _⟩ := L h t d w hl
  unfold position last
  rw [hl]
  exact div_nonneg (mul_nonneg (by norm_num) (by simpa using b)) (by linarith)

/-- The score in a test. -/
theorem near_inTest {h t : Bytes} {d : Data Rat} (hl : lastFor s.ds h t = some d) (hs : ∃ w, Distinguishes s.ds t w ∧ 0 < s.o.weights w) :
    Near s.R 10 (inTest s.o.weights best worst (last s.ds h) t) ((testSum s.R s.o.weights (s.rng t) (partRecord s.fl d)).average s.R) ∧
      0 ≤ inTest s.o.weights best worst (last s.ds h) t := by
  have hc : ∀ w, counts s.R (s.rng t) w = decide (best t w < worst t w) := fun w => by
    rw [Bool.eq_iff_iff, counts_limits s L hl w, decide_eq_true_iff]
  have e0 : testSum s.R s.o.weights (s.rng t) (partRecord s.fl d) = _ :=
    testSum_ops s.R s.o.weights s.rng (e := (t, partRecord s.fl d)) (lo := 0) (hi := 100 * s.R.p ^ 2) (by
      intro w hw
      obtain ⟨x, e, a, b, _⟩ := (facts_of s hl w).2 hw
      exact ⟨x, e, a, b⟩)
  have em := mean_weighted (fun w => decide (best t w < worst t w)) (fun w => position best worst (last s.ds h) t w) s.o.weights
  have hf : weightOrder.filter (counts s.R (s.rng t)) = weightOrder.filter (fun w => decide (best t w < worst t w)) := by
    congr 1; funext w; exact hc w
  have hW : weight ((weightOrder.filter (fun w => decide (best t w < worst t w))).map fun w => Op.many (position best worst (last s.ds h) t w) (s.o.weights w)) =
      ((weightOrder.filter (fun w => decide (best t w < worst t w))).map s.o.weights).sum := by
    unfold weight; rw [List.map_map]; rfl
  have hn := near_mean s.R (weightOrder.filter (fun w => decide (best t w < worst t w)))
    (fun w => Op.many (position best worst (last s.ds h) t w) (s.o.weights w))
    (fun w => Op.many (scoreIn s.R (s.rng t) (partRecord s.fl d) w).num (s.o.weights w)) 3 (by
      intro w hw
      have hlt := of_decide_eq_true (List.mem_filter.1 hw).2
      refine ⟨rfl, position_nonneg s L hl w, ?_⟩
      obtain ⟨q, e, a, b⟩ := near_position s L hl w hlt
      refine ⟨q, ?_, a, b⟩
      simp only [Op.score, e, Val.num]) (by
      rw [hW, order_pos]
      obtain ⟨w, hw, hp⟩ := hs
      exact ⟨w, by rw [← hc]; exact (facts_of s hl w).1.2 hw, hp⟩) (by
      rw [hW]; exact (order_sum _ _).trans s.weights)
  have hpos : 0 ≤ inTest s.o.weights best worst (last s.ds h) t := by
    unfold inTest
    rw [← em]
    refine mean_nonneg _ ?_
    intro o ho
    obtain ⟨w, _, rfl⟩ := List.mem_map.1 ho
    exact position_nonneg s L hl w
  refine ⟨?_, hpos⟩
  rw [em] at hn
  rw [e0]
  simp only
  rw [hf]
  refine Near.weaken hpos hn ?_
  have : (weightOrder.filter (fun w => decide (best t w < worst t w))).length ≤ 3 := List.length_filter_le _ _
  omega

end

/-! ### C91 -/

section
variable (s : Setting) {best worst : Bytes → Weight → Rat} (L : Limits s.ds best worst) {h : Bytes} {es : List (Bytes × Record Rat)}
  (hes : ∀ t r, (t, r) ∈ es ↔ (∃ d, lastFor s.ds h t = some d ∧ r = partRecord s.fl d) ∧ Included s.o t) (hlen : es.length ≤ s.ds.length)
  {ts : List Bytes} (hp : (es.map Prod.fst).Perm ts)
include L hes hlen hp

theorem near_byTests (hE : EachTest s.o s.ds h) :
    Near s.R (2 * s.ds.length + 11) (byTests s.o.weights best worst (last s.ds h) ts) (scoreByTest s.R s.o.weights s.rng es) ∧
      0 ≤ byTests s.o.weights best worst (last s.ds h) ts := by
  have key : ∀ e ∈ es, Near s.R 10 (inTest s.o.weights best worst (last s.ds h) e.1) ((testSum s.R s.o.weights (s.rng e.1) e.2).average s.R) ∧
      0 ≤ inTest s.o.weights best worst (last s.ds h) e.1 := by
    rintro ⟨t, r⟩ he
    obtain ⟨⟨d, hl, rfl⟩, hi⟩ := (hes t r).1 he
    exact near_inTest s L hl (hE.2 t ⟨⟨d, hl⟩, hi⟩)
  have e1 : overTests s.R s.o.weights s.rng es =
      (es.map fun e => Op.one ((testSum s.R s.o.weights (s.rng e.1) e.2).average s.R).num).foldl (Op.run s.R) {} := by
    have := fold_ops s.R (fun a (e : Bytes × Record Rat) => a.add s.R ((testSum s.R s.o.weights (s.rng e.1) e.2).average s.R)) (fun _ => true)
      (fun e => Op.one ((testSum s.R s.o.weights (s.rng e.1) e.2).average s.R).num) es {} (by
        intro e he _ a
        obtain ⟨q, hq, _⟩ := (key e he).1
        simp only [hq]; rfl)
    simp only [if_true, filter_true] at this
    exact this
  have hne : 0 < es.length := by
    obtain ⟨t, ⟨d, hl⟩, hi⟩ := hE.1
    exact List.length_pos_of_mem ((hes t _).2 ⟨⟨d, hl, rfl⟩, hi⟩)
  have hn := near_mean s.R es (fun e => Op.one (inTest s.o.weights best worst (last s.ds h) e.1))
    (fun e => Op.one ((testSum s.R s.o.weights (s.rng e.1) e.2).average s.R).num) 10 (by
      intro e he
      obtain ⟨⟨q, hq, a, b⟩, h0⟩ := key e he
      exact ⟨rfl, h0, q, by simp only [Op.score, hq, Val.num], a, b⟩) (by rw [weight_one]; exact hne) (by rw [weight_one]; exact hlen.trans s.few)
  have em : mean (es.map fun e => Op.one (inTest s.o.weights best worst (last s.ds h) e.1)) = byTests s.o.weights best worst (last s.ds h) ts := by
    rw [mean_plain]
    unfold byTests plain
    have hq := hp.map (inTest s.o.weights best worst (last s.ds h))
    rw [List.map_map] at hq
    rw [← hq.sum_eq, ← hq.length_eq]; rfl
  have h0 : 0 ≤ byTests s.o.weights best worst (last s.ds h) ts := by
    rw [← em]
    refine mean_nonneg _ ?_
    intro o ho
    obtain ⟨e, he, rfl⟩ := List.mem_map.1 ho
    exact (key e he).2
  refine ⟨?_, h0⟩
  rw [em] at hn
  unfold scoreByTest
  rw [e1]
  exact Near.weaken h0 hn (by omega)

theorem near_inMeasure (w : Weight) (hd : ∃ t, Ran s.o s.ds h t ∧ Distinguishes s.ds t w) :
    Near s.R (2 * s.ds.length + 4) (inMeasure best worst (last s.ds h) ts w) ((subSum s.R s.rng w es).average s.R) ∧
      0 ≤ inMeasure best worst (last s.ds h) ts w := by
  have hc : ∀ e ∈ es, counts s.R (s.rng e.1) w = decide (best e.1 w < worst e.1 w) := by
    rintro ⟨t, r⟩ he
    obtain ⟨⟨d, hl, rfl⟩, hi⟩ := (hes t r).1 he
    rw [Bool.eq_iff_iff, counts_limits s L hl w, decide_eq_true_iff]
  have key : ∀ e ∈ es, best e.1 w < worst e.1 w → Near s.R 3 (position best worst (last s.ds h) e.1 w) (scoreIn s.R (s.rng e.1) e.2 w) := by
    rintro ⟨t, r⟩ he hlt
    obtain ⟨⟨d, hl, rfl⟩, hi⟩ := (hes t r).1 he
    exact near_position s L hl w hlt
  have pos : ∀ e ∈ es, 0 ≤ position best worst (last s.ds h) e.1 w := by
    rintro ⟨t, r⟩ he
    obtain ⟨⟨d, hl, rfl⟩, hi⟩ := (hes t r).1 he
    exact position_nonneg s L hl w
  have hf : (es.filter fun e => counts s.R (s.rng e.1) w) = es.filter fun e => decide (best e.1 w < worst e.1 w) :=
    List.filter_congr fun e he => hc e he
  have e1 : subSum s.R s.rng w es =
      ((es.filter fun e => decide (best e.1 w < worst e.1 w)).map fun e => Op.one (scoreIn s.R (s.rng e.1) e.2 w).num).foldl (Op.run s.R) {} := by
    rw [← hf]
    refine fold_ops s.R (fun a (e : Bytes × Record Rat) => a.add s.R (scoreIn s.R (s.rng e.1) e.2 w)) (fun e => counts s.R (s.rng e.1) w)
      (fun e => Op.one (scoreIn s.R (s.rng e.1) e.2 w).num) es {} ?_
    intro e he hcc a
    rw [hc e he] at hcc
    obtain ⟨q, hq, _⟩ := key e he (of_decide_eq_true hcc)
    simp only [hq]; rfl
  have hfl : (es.filter fun e => decide (best e.1 w < worst e.1 w)).length ≤ es.length := List.length_filter_le _ _
  have hn := near_mean s.R (es.filter fun e => decide (best e.1 w < worst e.1 w)) (fun e => Op.one (position best worst (last s.ds h) e.1 w))
    (fun e => Op.one (scoreIn s.R (s.rng e.1) e.2 w).num) 3 (by
      intro e he
      obtain ⟨he, hlt⟩ := List.mem_filter.1 he
      obtain ⟨q, hq, a, b⟩ := key e he (of_decide_eq_true hlt)
      exact ⟨rfl, pos e he, q, by simp only [Op.score, hq, Val.num], a, b⟩) (by
      rw [weight_one]
      obtain ⟨t, ⟨⟨d, hl⟩, hi⟩, hd⟩ := hd
      refine List.length_pos_of_mem (a := (t, partRecord s.fl d)) (List.mem_filter.2 ⟨(hes t _).2 ⟨⟨d, hl, rfl⟩, hi⟩, ?_⟩)
      exact decide_eq_true ((counts_limits s L hl w).1 ((facts_of s hl w).1.2 hd))) (by
      rw [weight_one]; exact hfl.trans (hlen.trans s.few))
  have em : mean ((es.filter fun e => decide (best e.1 w < worst e.1 w)).map fun e => Op.one (position best worst (last s.ds h) e.1 w)) =
      inMeasure best worst (last s.ds h) ts w := by
    rw [mean_plain]
    unfold inMeasure plain
    have hq := (hp.filter fun t => decide (best t w < worst t w)).map fun t => position best worst (last s.ds h) t w
    rw [List.filter_map, List.map_map] at hq
    rw [← hq.sum_eq, ← hq.length_eq]; rfl
  have h0 : 0 ≤ inMeasure best worst (last s.ds h) ts w := by
    rw [← em]
    refine mean_nonneg _ ?_
    intro o ho
    obtain ⟨e, he, rfl⟩ := List.mem_map.1 ho
    exact pos e (List.mem_filter.1 he).1
  refine ⟨?_, h0⟩
  rw [em] at hn
  rw [e1]
  exact Near.weaken h0 hn (by omega)

theorem near_byMeasures (hM : EachMeasure s.o s.ds h) :
    Near s.R (2 * s.ds.length + 11) (byMeasures s.o.weights best worst (last s.ds h) ts) (scoreByData s.R s.o.weights s.rng es) ∧
      0 ≤ byMeasures s.o.weights best worst (last s.ds h) ts := by
  have key := fun w => near_inMeasure s L hes hlen hp w (hM.2 w)
  have e1 : overData s.R s.o.weights s.rng es =
      (weightOrder.map fun w => Op.many ((subSum s.R s.rng w es).average s.R).num (s.o.weights w)).foldl (Op.run s.R) {} := by
    have := fold_ops s.R (fun a w => a.addMultiple s.R ((subSum s.R s.rng w es).average s.R) (s.o.weights w)) (fun _ => true)
      (fun w => Op.many ((subSum s.R s.rng w es).average s.R).num (s.o.weights w)) weightOrder {} (by
        intro w _ _ a
        obtain ⟨q, hq, _⟩ := (key w).1
        simp only [hq]; rfl)
    simp only [if_true, filter_true] at this
    exact this
  have hW : weight (weightOrder.map fun w => Op.many (inMeasure best worst (last s.ds h) ts w) (s.o.weights w)) = allWeights s.o.weights := by
    simp [weight, weightOrder, allWeights, Op.times]
  have hn := near_mean s.R weightOrder (fun w => Op.many (inMeasure best worst (last s.ds h) ts w) (s.o.weights w))
    (fun w => Op.many ((subSum s.R s.rng w es).average s.R).num (s.o.weights w)) (2 * s.ds.length + 4) (by
      intro w _
      obtain ⟨⟨q, hq, a, b⟩, h0⟩ := key w
      exact ⟨rfl, h0, q, by simp only [Op.score, hq, Val.num], a, b⟩) (by
      rw [hW]; exact ((bridge s h es hes).covers.2 hM).1) (by rw [hW]; exact s.weights)
  have em := mean_weighted (fun _ => true) (fun w => inMeasure best worst (last s.ds h) ts w) s.o.weights
  rw [filter_true, filter_true] at em
  have h0 : 0 ≤ byMeasures s.o.weights best worst (last s.ds h) ts := by
    unfold byMeasures
    rw [← em]
    refine mean_nonneg _ ?_
    intro o ho
    obtain ⟨w, _, rfl⟩ := List.mem_map.1 ho
    exact (key w).2
  refine ⟨?_, h0⟩
  rw [em] at hn
  unfold scoreByData
  rw [e1]
  exact Near.weaken h0 hn (by simp [weightOrder])

end

theorem near_half (R : Rounding) {k : Nat} {x y : Rat} {a b : Val} (hx : 0 ≤ x) (hy : 0 ≤ y) (ha : Near R k x a) (hb : Near R k y b) :
    Near R (k + 2) ((x + y) / 2) (Val.div R (Val.add R b a) (.fin 2)) := by
  obtain ⟨p, rfl, a1, a2⟩ := ha
  obtain ⟨q, rfl, b1, b2⟩ := hb
  have hp := R.p_ge
  have hd := R.d_pos
  have p0 : 0 ≤ p := (mul_nonneg hx (low_nonneg R k)).trans a1
  have q0 : 0 ≤ q := (mul_nonneg hy (low_nonneg R k)).trans b1
  have hs : 0 ≤ q + p := by linarith
  have h1 := R.le_up hs
  have h2 := R.ge_down hs
  have h3 : 0 ≤ R.rnd (q + p) := R.nonneg hs
  have h4 : 0 ≤ R.rnd (q + p) / 2 := by linarith
  have h5 := R.le_up h4
  have h6 := R.ge_down h4
  refine ⟨R.rnd (R.rnd (q + p) / 2), by simp [Val.div, Val.add], ?_, ?_⟩
  · refine le_trans ?_ h6
    have e1 : (x + y) * (R.d ^ k / R.p) ≤ q + p := by linarith [add_mul x y (R.d ^ k / R.p)]
    have e2 := mul_le_mul_of_nonneg_right e1 hd.le
    calc _ = (x + y) * (R.d ^ k / R.p) * R.d / 2 * R.d := by rw [pow_add]; ring
      _ ≤ _ := mul_le_mul_of_nonneg_right (by linarith) hd.le
  · refine le_trans h5 ?_
    have e1 : q + p ≤ (x + y) * (R.p ^ k / R.d) := by linarith [add_mul x y (R.p ^ k / R.d)]
    have e2 := mul_le_mul_of_nonneg_right e1 (by linarith : 0 ≤ R.p)
    calc _ ≤ (x + y) * (R.p ^ k / R.d) * R.p / 2 * R.p := mul_le_mul_of_nonneg_right (by linarith) (by linarith)
      _ = _ := by rw [pow_add]; ring

/-- C91, however numbers are rounded: the score of a handler in a test is the mean, with
the weights, of its positions between the worst and the best of the last results, over the
measures by which they differ; the score by tests is the mean over the tests asked for
that it ran; the score by measures is the mean, with the weights, over measures of the
mean over the tests that differ by them; the default is the mean of both. All this up to a
number of roundings. Which of the scores are numbers is known (C42). -/
theorem C91_near (s : Setting) (best worst : Bytes → Weight → Rat) (L : Limits s.ds best worst) : ∃ m, s.result = some m ∧
    ∀ h hd ts, m.get h = some hd → ts.Nodup → (∀ t, t ∈ ts ↔ Ran s.o s.ds h t) →
      (∀ t ∈ ts, (∃ w, Distinguishes s.ds t w ∧ 0 < s.o.weights w) →
        Near s.R 10 (inTest s.o.weights best worst (last s.ds h) t) ((hd.test t).average s.R)) ∧
      (EachTest s.o s.ds h → Near s.R (2 * s.ds.length + 11) (byTests s.o.weights best worst (last s.ds h) ts) hd.scores.byTest) ∧
      (EachMeasure s.o s.ds h → Near s.R (2 * s.ds.length + 11) (byMeasures s.o.weights best worst (last s.ds h) ts) hd.scores.byData) ∧
      (EachTest s.o s.ds h → EachMeasure s.o s.ds h → Near s.R (2 * s.ds.length + 13)
        ((byTests s.o.weights best worst (last s.ds h) ts + byMeasures s.o.weights best worst (last s.ds h) ts) / 2) hd.scores.default) := by
  obtain ⟨m, em, _, hs⟩ := result_eq s
  refine ⟨m, em, ?_⟩
  intro h hd ts hh hn hts
  obtain ⟨es, hes, hlen, e1, e2, e3, _, e5, e6, _⟩ := hs h hd hh
  have hp : (es.map Prod.fst).Perm ts := by
    rw [List.perm_ext_iff_of_nodup ?_ hn]
    · intro t
      rw [hts t, List.mem_map]
      constructor
      · rintro ⟨⟨t', r⟩, he, rfl⟩
        obtain ⟨⟨d, hl, _⟩, hi⟩ := (hes t' r).1 he
        exact ⟨⟨d, hl⟩, hi⟩
      · rintro ⟨⟨d, hl⟩, hi⟩
        exact ⟨_, (hes t _).2 ⟨⟨d, hl, rfl⟩, hi⟩, rfl⟩
    · rw [e6]
      exact (entries_nodup s h).sublist (List.filter_sublist.map _)
  refine ⟨?_, ?_, ?_, ?_⟩
  · intro t ht hw
    obtain ⟨⟨d, hl⟩, hi⟩ := (hts t).1 ht
    rw [e5 _ ((hes t _).2 ⟨⟨d, hl, rfl⟩, hi⟩)]
    exact (near_inTest s L hl hw).1
  · intro hE
    rw [e1]
    exact (near_byTests s L hes hlen hp hE).1
  · intro hM
    rw [e2]
    exact (near_byMeasures s L hes hlen hp hM).1
  · intro hE hM
    rw [e3]
    obtain ⟨a1, a2⟩ := near_byTests s L hes hlen hp hE
    obtain ⟨b1, b2⟩ := near_byMeasures s L hes hlen hp hM
    exact near_half s.R a2 b2 a1 b1

/-- The best and the worst exist. -/
theorem C91_limits (ds : List (Data Rat)) : ∃ best worst, Limits ds best worst := by
  classical
  have least : ∀ l : List Rat, l ≠ [] → ∃ a ∈ l, ∀ b ∈ l, a ≤ b := by
    intro l
    induction l with
    | nil => intro h; exact absurd rfl h
    | cons x l ih =>
      intro _
      by_cases hl : l = []
      · subst hl; exact ⟨x, by simp, by simp⟩
      · obtain ⟨a, ha, hb⟩ := ih hl
        rcases le_total x a with h | h
        · refine ⟨x, by simp, fun b hb' => ?_⟩
          rcases List.mem_cons.1 hb' with rfl | hb'
          · exact le_refl _
          · exact h.trans (hb b hb')
        · refine ⟨a, by simp [ha], fun b hb' => ?_⟩
          rcases List.mem_cons.1 hb' with rfl | hb'
          · exact h
          · exact hb b hb'
  have key : ∀ f : Data Rat → Rat, ∀ t, ∃ a, ∀ h d, lastFor ds h t = some d → a ≤ f d ∧ ∃ h' d', lastFor ds h' t = some d' ∧ f d' = a := by
    intro f t
    have hmem : ∀ h d, lastFor ds h t = some d → d ∈ ds.filter fun d => decide (lastFor ds d.handler t = some d) := by
      intro h d hl
      obtain ⟨a, b, _⟩ := lastFor_mem hl
      rw [List.mem_filter]
      exact ⟨a, by rw [decide_eq_true_iff, b]; exact hl⟩
    by_cases hne : (ds.filter fun d => decide (lastFor ds d.handler t = some d)).map f = []
    · refine ⟨0, fun h d hl => ?_⟩
      have := hmem h d hl
      rw [List.map_eq_nil_iff] at hne
      rw [hne] at this
      cases this
    · obtain ⟨a, ha, hb⟩ := least _ hne
      refine ⟨a, fun h d hl => ⟨hb _ (List.mem_map_of_mem (hmem h d hl)), ?_⟩⟩
      obtain ⟨d', hd', e⟩ := List.mem_map.1 ha
      exact ⟨_, d', of_decide_eq_true (List.mem_filter.1 hd').2, e⟩
  choose b hb using fun t w => key (fun d => BenchScore.measure d w) t
  choose c hc using fun t w => key (fun d => -BenchScore.measure d w) t
  refine ⟨b, fun t w => -c t w, fun h t d w hl => ?_⟩
  obtain ⟨h1, h2⟩ := hb t w h d hl
  obtain ⟨h3, h', d', e1, e2⟩ := hc t w h d hl
  exact ⟨h1, by linarith, h2, h', d', e1, by linarith⟩

/-- C91 without rounding: the scores are what they should be. -/
theorem C91_exact (s : Setting) (hR : s.R = .exact) (best worst : Bytes → Weight → Rat) (L : Limits s.ds best worst) : ∃ m, s.result = some m ∧
    ∀ h hd ts, m.get h = some hd → ts.Nodup → (∀ t, t ∈ ts ↔ Ran s.o s.ds h t) →
      (∀ t ∈ ts, (∃ w, Distinguishes s.ds t w ∧ 0 < s.o.weights w) →
        (hd.test t).average s.R = .fin (inTest s.o.weights best worst (last s.ds h) t)) ∧
      (EachTest s.o s.ds h → hd.scores.byTest = .fin (byTests s.o.weights best worst (last s.ds h) ts)) ∧
      (EachMeasure s.o s.ds h → hd.scores.byData = .fin (byMeasures s.o.weights best worst (last s.ds h) ts)) ∧
      (EachTest s.o s.ds h → EachMeasure s.o s.ds h → hd.scores.default =
        .fin ((byTests s.o.weights best worst (last s.ds h) ts + byMeasures s.o.weights best worst (last s.ds h) ts) / 2)) := by
  obtain ⟨m, em, hs⟩ := C91_near s best worst L
  refine ⟨m, em, ?_⟩
  intro h hd ts hh hn hts
  obtain ⟨a, b, c, e⟩ := hs h hd ts hh hn hts
  rw [hR] at a b c e ⊢
  exact ⟨fun t ht hw => (a t ht hw).exact, fun hE => (b hE).exact, fun hM => (c hM).exact, fun hE hM => (e hE hM).exact⟩

/-- A value that differs from a number by at most a billionth of it. -/
def Close (x : Rat) (v : Val) : Prop := ∃ q, v = .fin q ∧ |q - x| ≤ x / 1000000000

/-- After up to two million roundings to 53 bits what is near is close. -/
theorem near_close {k : Nat} (hk : k ≤ 2000000) {x : Rat} {v : Val} (h : Near ieee k x v) : Close x v := by
  obtain ⟨q, e, a, b⟩ := h
  have hu : ieee.u = 1 / 2 ^ 53 := rfl
  have hp : ieee.p = 1 + 1 / 2 ^ 53 := by unfold Rounding.p; rw [hu]
  have hd : ieee.d = 1 - 1 / 2 ^ 53 := by unfold Rounding.d; rw [hu]
  have hk' : (k : Rat) ≤ 2000000 := by exact_mod_cast hk
  have p0 : 0 < ieee.p := by linarith [ieee.p_ge]
  have d0 := ieee.d_pos
  have bern : 1 - (k : Rat) * (1 / 2 ^ 53) ≤ ieee.d ^ k := by
    have := one_add_mul_le_pow (a := (-(1 / 2 ^ 53) : Rat)) (by norm_num) k
    rw [hd]
    calc _ = 1 + (k : Rat) * -(1 / 2 ^ 53) := by ring
      _ ≤ _ := this
      _ = _ := by ring
  have inv : ieee.p ^ k * ieee.d ^ k ≤ 1 := by
    rw [← mul_pow]
    refine pow_le_one₀ (mul_nonneg p0.le d0.le) ?_
    rw [hp, hd]; norm_num
  have low : 1 - (3 : Rat) / 10000000000 ≤ ieee.d ^ k := by
    refine le_trans ?_ bern
    have : (k : Rat) * (1 / 2 ^ 53) ≤ 2000000 * (1 / 2 ^ 53) := mul_le_mul_of_nonneg_right hk' (by norm_num)
    have h2 : (2000000 : Rat) * (1 / 2 ^ 53) ≤ 3 / 10000000000 := by norm_num
    linarith
  have dk : 0 < ieee.d ^ k := pow_pos d0 k
  have up : ieee.p ^ k ≤ 1 + (4 : Rat) / 10000000000 := by
    have h1 : ieee.p ^ k * (1 - (3 : Rat) / 10000000000) ≤ 1 := le_trans (mul_le_mul_of_nonneg_left low (pow_nonneg p0.le k)) inv
    have h2 : ieee.p ^ k ≤ 1 / (1 - (3 : Rat) / 10000000000) := by rw [le_div_iff₀ (by norm_num)]; exact h1
    exact h2.trans (by norm_num)
  have low2 : 1 - (1 : Rat) / 1000000000 ≤ ieee.d ^ k / ieee.p := by
    rw [le_div_iff₀ p0, hp]
    exact le_trans (by norm_num) low
  have up2 : ieee.p ^ k / ieee.d ≤ 1 + (1 : Rat) / 1000000000 := by
    rw [div_le_iff₀ d0, hd]
    exact up.trans (by norm_num)
  have hx : 0 ≤ x := by
    by_contra hn
    push Not at hn
    have h1 : ieee.d ^ k / ieee.p < 1 := by
      rw [div_lt_one p0]
      have : ieee.d ^ k ≤ 1 := pow_le_one₀ d0.le ieee.d_le
      rw [hp]; linarith [show (0 : Rat) < 1 / 2 ^ 53 by norm_num]
    have h2 : 1 ≤ ieee.p ^ k / ieee.d := by
      rw [le_div_iff₀ d0]
      linarith [one_le_pow₀ (n := k) ieee.p_ge, ieee.d_le]
    nlinarith
  have a' := mul_le_mul_of_nonneg_left low2 hx
  have b' := mul_le_mul_of_nonneg_left up2 hx
  refine ⟨q, e, abs_le.2 ⟨?_, ?_⟩⟩ <;> linarith

/-- C91 for the numbers of Go, and up to 900000 results: the scores differ from what they
should be by at most a billionth. -/
theorem C91_close (s : Setting) (hR : s.R = ieee) (hfew : s.ds.length ≤ 900000) (best worst : Bytes → Weight → Rat) (L : Limits s.ds best worst) :
    ∃ m, s.result = some m ∧ ∀ h hd ts, m.get h = some hd → ts.Nodup → (∀ t, t ∈ ts ↔ Ran s.o s.ds h t) →
      (∀ t ∈ ts, (∃ w, Distinguishes s.ds t w ∧ 0 < s.o.weights w) →
        Close (inTest s.o.weights best worst (last s.ds h) t) ((hd.test t).average s.R)) ∧
      (EachTest s.o s.ds h → Close (byTests s.o.weights best worst (last s.ds h) ts) hd.scores.byTest) ∧
      (EachMeasure s.o s.ds h → Close (byMeasures s.o.weights best worst (last s.ds h) ts) hd.scores.byData) ∧
      (EachTest s.o s.ds h → EachMeasure s.o s.ds h →
        Close ((byTests s.o.weights best worst (last s.ds h) ts + byMeasures s.o.weights best worst (last s.ds h) ts) / 2) hd.scores.default) := by
  obtain ⟨m, em, hs⟩ := C91_near s best worst L
  refine ⟨m, em, ?_⟩
  intro h hd ts hh hn hts
  obtain ⟨a, b, c, e⟩ := hs h hd ts hh hn hts
  rw [hR] at a b c e ⊢
  exact ⟨fun t ht hw => near_close (by norm_num) (a t ht hw), fun hE => near_close (by omega) (b hE), fun hM => near_close (by omega) (c hM),
    fun hE hM => near_close (by omega) (e hE hM)⟩

/-! ### An example -/

/-- The text of a benchmark of the handlers A, B, and C with the tests X and Y. -/
def threeText : Bytes :=
  exampleLine 0x41 0x58 b!"100" b!" 16 B/op 1 allocs/op" ++ b!"\n" ++ exampleLine 0x42 0x58 b!"200" b!" 32 B/op 2 allocs/op" ++ b!"\n" ++
  exampleLine 0x43 0x58 b!"400" b!" 32 B/op 4 allocs/op" ++ b!"\n" ++
  exampleLine 0x41 0x59 b!"300" b!" 16 B/op 1 allocs/op" ++ b!"\n" ++ exampleLine 0x42 0x59 b!"100" b!" 16 B/op 1 allocs/op" ++ b!"\n"

/-- Its results. -/
def threeData : List (Data Rat) :=
  [⟨b!"A", b!"X", 8, 7, 100, 1, 16, 0⟩, ⟨b!"B", b!"X", 8, 7, 200, 2, 32, 0⟩, ⟨b!"C", b!"X", 8, 7, 400, 4, 32, 0⟩,
    ⟨b!"A", b!"Y", 8, 7, 300, 1, 16, 0⟩, ⟨b!"B", b!"Y", 8, 7, 100, 1, 16, 0⟩]

theorem three_read : History whole [threeText] threeData := by
  have hs : scanLines threeText = [exampleLine 0x41 0x58 b!"100" b!" 16 B/op 1 allocs/op", exampleLine 0x42 0x58 b!"200" b!" 32 B/op 2 allocs/op",
      exampleLine 0x43 0x58 b!"400" b!" 32 B/op 4 allocs/op",
      exampleLine 0x41 0x59 b!"300" b!" 16 B/op 1 allocs/op", exampleLine 0x42 0x59 b!"100" b!" 16 B/op 1 allocs/op"] := by decide +kernel
  have dec : ∀ n, n ∈ [b!"100", b!"200", b!"300", b!"400"] → Decimal n := by
    intro n hn
    simp only [List.mem_cons, List.not_mem_nil, or_false] at hn
    rcases hn with rfl | rfl | rfl | rfl <;> exact .inl ⟨by simp, by decide⟩
  have h : Reads whole (scanLines threeText) threeData [] false := by
    rw [hs]
    refine .data (exampleLine_data 0x41 0x58 (by decide) (by decide) (dec _ (by simp)) (by decide)) (by decide +kernel) (by decide +kernel)
      (by decide +kernel) (by decide +kernel) (by decide +kernel) (by decide +kernel) ?_
    refine .data (exampleLine_data 0x42 0x58 (by decide) (by decide) (dec _ (by simp)) (by decide)) (by decide +kernel) (by decide +kernel)
      (by decide +kernel) (by decide +kernel) (by decide +kernel) (by decide +kernel) ?_
    refine .data (exampleLine_data 0x43 0x58 (by decide) (by decide) (dec _ (by simp)) (by decide)) (by decide +kernel) (by decide +kernel)
      (by decide +kernel) (by decide +kernel) (by decide +kernel) (by decide +kernel) ?_
    refine .data (exampleLine_data 0x41 0x59 (by decide) (by decide) (dec _ (by simp)) (by decide)) (by decide +kernel) (by decide +kernel)
      (by decide +kernel) (by decide +kernel) (by decide +kernel) (by decide +kernel) ?_
    refine .data (exampleLine_data 0x42 0x59 (by decide) (by decide) (dec _ (by simp)) (by decide)) (by decide +kernel) (by decide +kernel)
      (by decide +kernel) (by decide +kernel) (by decide +kernel) (by decide +kernel) .done
  exact .text h .none

/-- Scores for it. -/
def threeSetting (R : Rounding) : Setting := { exampleSetting someSorter [] with
  R := R, texts := [threeText], ds := threeData, read := three_read, nanos := by decide +kernel, allocs := by decide +kernel, bytes := by decide +kernel
  few := by decide, weights := by show 1 + (1 + 1) ≤ 2 ^ 53; decide }

/-- The best results. -/
def threeBest (_ : Bytes) : Weight → Rat
  | .nanoseconds => 100
  | .allocBytes => 16
  | .allocations => 1
/-- The worst results. -/
def threeWorst (t : Bytes) (w : Weight) : Rat :=
  if t = b!"Bench.X" then
    match w with
    | .nanoseconds => 400
    | .allocBytes => 32
    | .allocations => 4
  else
    match w with
    | .nanoseconds => 300
    | .allocBytes => 16
    | .allocations => 1

theorem three_limits : Limits threeData threeBest threeWorst := by
  have key : ∀ d ∈ threeData, ∀ w ∈ all, threeBest (tagOf d) w ≤ BenchScore.measure d w ∧ BenchScore.measure d w ≤ threeWorst (tagOf d) w ∧
      (∃ d' ∈ threeData, (lastFor threeData d'.handler (tagOf d)).map (fun x => BenchScore.measure x w) = some (threeBest (tagOf d) w)) ∧
      (∃ d' ∈ threeData, (lastFor threeData d'.handler (tagOf d)).map (fun x => BenchScore.measure x w) = some (threeWorst (tagOf d) w)) := by
    decide +kernel
  intro h t d w hl
  obtain ⟨h1, _, rfl⟩ := lastFor_mem hl
  obtain ⟨a, b, ⟨d1, _, e1⟩, ⟨d2, _, e2⟩⟩ := key d h1 w (by cases w <;> decide)
  rw [Option.map_eq_some_iff] at e1 e2
  obtain ⟨x1, f1, g1⟩ := e1
  obtain ⟨x2, f2, g2⟩ := e2
  exact ⟨a, b, ⟨_, x1, f1, g1⟩, ⟨_, x2, f2, g2⟩⟩

theorem three_ran (R : Rounding) (t : Bytes) : t ∈ [b!"Bench.X", b!"Bench.Y"] ↔ Ran (threeSetting R).o threeData b!"B" t := by
  constructor
  · intro h
    simp only [List.mem_cons, List.not_mem_nil, or_false] at h
    rcases h with rfl | rfl
    · exact ⟨⟨⟨b!"B", b!"X", 8, 7, 200, 2, 32, 0⟩, rfl⟩, by simp [Included, threeSetting, exampleSetting]⟩
    · exact ⟨⟨⟨b!"B", b!"Y", 8, 7, 100, 1, 16, 0⟩, rfl⟩, by simp [Included, threeSetting, exampleSetting]⟩
  · rintro ⟨⟨d, hl⟩, _⟩
    obtain ⟨h1, _, rfl⟩ := lastFor_mem hl
    have : ∀ d ∈ threeData, tagOf d ∈ [b!"Bench.X", b!"Bench.Y"] := by decide +kernel
    exact this d h1

theorem three_each (R : Rounding) : EachTest (threeSetting R).o threeData b!"B" ∧ EachMeasure (threeSetting R).o threeData b!"B" := by
  have hX : ∀ w, Distinguishes threeData b!"Bench.X" w := fun w =>
    ⟨b!"A", b!"B", ⟨b!"A", b!"X", 8, 7, 100, 1, 16, 0⟩, ⟨b!"B", b!"X", 8, 7, 200, 2, 32, 0⟩, rfl, rfl, by cases w <;> decide +kernel⟩
  have hY : Distinguishes threeData b!"Bench.Y" .nanoseconds :=
    ⟨b!"A", b!"B", ⟨b!"A", b!"Y", 8, 7, 300, 1, 16, 0⟩, ⟨b!"B", b!"Y", 8, 7, 100, 1, 16, 0⟩, rfl, rfl, by decide +kernel⟩
  have hr := (three_ran R b!"Bench.X").1 (by simp)
  refine ⟨⟨⟨_, hr⟩, ?_⟩, ⟨.nanoseconds, Nat.one_pos⟩, fun w => ⟨_, hr, hX w⟩⟩
  intro t ht
  have := (three_ran R t).2 ht
  simp only [List.mem_cons, List.not_mem_nil, or_false] at this
  rcases this with rfl | rfl
  · exact ⟨.nanoseconds, hX _, Nat.one_pos⟩
  · exact ⟨.nanoseconds, hY, Nat.one_pos⟩

theorem three_scores : byTests (fun _ => 1) threeBest threeWorst (last threeData b!"B") [b!"Bench.X", b!"Bench.Y"] = 650 / 9 ∧
    byMeasures (fun _ => 1) threeBest threeWorst (last threeData b!"B") [b!"Bench.X", b!"Bench.Y"] = 50 := by decide +kernel

/-- A case of `C91_exact`: without rounding, B has the scores 650/9, 50, and 550/9. -/
example : ∃ m hd, (threeSetting .exact).result = some m ∧ m.get b!"B" = some hd ∧
    hd.scores.byTest = .fin (650 / 9) ∧ hd.scores.byData = .fin 50 ∧ hd.scores.default = .fin (550 / 9) := by
  obtain ⟨m, em, hs⟩ := C91_exact (threeSetting .exact) rfl threeBest threeWorst three_limits
  obtain ⟨m', em', hk, _⟩ := C42_partial (threeSetting .exact)
  rw [em] at em'
  injection em' with em'
  subst em'
  obtain ⟨hd, hhd⟩ := Option.isSome_iff_exists.1 ((hk b!"B").2 ⟨⟨b!"B", b!"X", 8, 7, 200, 2, 32, 0⟩, by simp [threeSetting, threeData], rfl⟩)
  obtain ⟨_, b, c, e⟩ := hs b!"B" hd [b!"Bench.X", b!"Bench.Y"] hhd (by decide) (three_ran .exact)
  refine ⟨m, hd, em, hhd, ?_, ?_, ?_⟩
  · rw [b (three_each .exact).1]; exact congrArg Val.fin three_scores.1
  · rw [c (three_each .exact).2]; exact congrArg Val.fin three_scores.2
  · rw [e (three_each .exact).1 (three_each .exact).2]
    have h1 := three_scores.1
    have h2 := three_scores.2
    refine congrArg Val.fin ?_
    refine (congrArg₂ (fun a b : Rat => (a + b) / 2) h1 h2).trans ?_
    norm_num

/-- A case of `C91_close`: with the numbers of Go, the default of B is close to 550/9. -/
example : ∃ m hd, (threeSetting ieee).result = some m ∧ m.get b!"B" = some hd ∧ Close (550 / 9) hd.scores.default := by
  obtain ⟨m, em, hs⟩ := C91_close (threeSetting ieee) rfl (by decide) threeBest threeWorst three_limits
  obtain ⟨m', em', hk, _⟩ := C42_partial (threeSetting ieee)
  rw [em] at em'
  injection em' with em'
  subst em'
  obtain ⟨hd, hhd⟩ := Option.isSome_iff_exists.1 ((hk b!"B").2 ⟨⟨b!"B", b!"X", 8, 7, 200, 2, 32, 0⟩, by simp [threeSetting, threeData], rfl⟩)
  obtain ⟨_, _, _, e⟩ := hs b!"B" hd [b!"Bench.X", b!"Bench.Y"] hhd (by decide) (three_ran ieee)
  refine ⟨m, hd, em, hhd, ?_⟩
  have := e (three_each ieee).1 (three_each ieee).2
  have h3 := congrArg₂ (fun a b : Rat => (a + b) / 2) three_scores.1 three_scores.2
  have h4 : ((650 / 9 : Rat) + 50) / 2 = 550 / 9 := by norm_num
  have h5 := h3.trans h4
  exact h5 ▸ this

/-- A case of `C91_near`, whatever the rounding: the score by measures is near 50. -/
example (R : Rounding) : ∃ m hd, (threeSetting R).result = some m ∧ m.get b!"B" = some hd ∧ Near R 21 50 hd.scores.byData := by
  obtain ⟨m, em, hs⟩ := C91_near (threeSetting R) threeBest threeWorst three_limits
  obtain ⟨m', em', hk, _⟩ := C42_partial (threeSetting R)
  rw [em] at em'
  injection em' with em'
  subst em'
  obtain ⟨hd, hhd⟩ := Option.isSome_iff_exists.1 ((hk b!"B").2 ⟨⟨b!"B", b!"X", 8, 7, 200, 2, 32, 0⟩, by simp [threeSetting, threeData], rfl⟩)
  obtain ⟨_, _, e, _⟩ := hs b!"B" hd [b!"Bench.X", b!"Bench.Y"] hhd (by decide) (three_ran R)
  exact ⟨m, hd, em, hhd, three_scores.2 ▸ e (three_each R).2⟩

end Verif.Props.BenchFormula
