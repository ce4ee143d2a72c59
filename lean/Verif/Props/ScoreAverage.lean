import Verif.Score.Range
import Mathlib.Algebra.BigOperators.Group.List.Basic
import Mathlib.Algebra.Order.BigOperators.Group.List
import Mathlib.Tactic.Ring

/-
C41: averages of scores.
-/

set_option linter.unusedSimpArgs false

namespace Verif.Props.ScoreAverage
open Verif.Score

/-! ### Specification -/

/-- What is added: a score, or a score with a multiplicity. -/
inductive Op
  | one (v : Rat)
  | many (v : Rat) (n : Nat)
deriving DecidableEq

/-- The score. -/
def Op.score : Op → Rat
  | .one v => v
  | .many v _ => v
/-- How many times it is added. -/
def Op.times : Op → Nat
  | .one _ => 1
  | .many _ n => n

/-- The number of scores. -/
def weight (ops : List Op) : Nat := (ops.map Op.times).sum
/-- The sum of scores. -/
def total (ops : List Op) : Rat := (ops.map fun o => o.score * (o.times : Rat)).sum
/-- The mean. -/
def mean (ops : List Op) : Rat := total ops / weight ops

/-- The calls. -/
def Op.run (R : Rounding) (a : Average) : Op → Average
  | .one v => a.add R (.fin v)
  | .many v n => a.addMultiple R (.fin v) n
/-- An average. -/
def averageOf (R : Rounding) (ops : List Op) : Val := (ops.foldl (Op.run R) {}).average R

/-- All scores are numbers that are represented. -/
def Rep (R : Rounding) (ops : List Op) : Prop := ∀ o ∈ ops, R.rnd o.score = o.score

/-- C41 as stated, for a way of rounding. -/
def C41_statement (R : Rounding) : Prop :=
  (∀ ops, Rep R ops → 0 < weight ops → ∃ q, averageOf R ops = .fin q ∧
    ∀ lo hi, (∀ o ∈ ops, 0 < o.times → lo ≤ o.score ∧ o.score ≤ hi) → lo ≤ q ∧ q ≤ hi) ∧
  (∀ ops ops', Rep R ops → ops.Perm ops' → averageOf R ops = averageOf R ops') ∧
  (∀ ops v n, Rep R ops → R.rnd v = v → averageOf R (ops ++ [.many v n]) = averageOf R (ops ++ List.replicate n (.one v)))

/-! ### Without rounding -/

theorem exact_run (ops : List Op) : ∀ a : Average, ∀ s, a.value = .fin s →
    ops.foldl (Op.run .exact) a = ⟨.fin (s + total ops), a.count + weight ops⟩ := by
  induction ops with
  | nil => intro a s h; cases a; simp at h; simp [total, weight, h]
  | cons o ops ih =>
    intro a s h
    rw [List.foldl_cons, ih (o.run .exact a) (s + o.score * o.times) ?_]
    · congr 1
      · simp [total, add_assoc]
      · cases o <;> simp [Op.run, Average.add, Average.addMultiple, Op.times, weight, Nat.add_assoc]
    · cases o <;> simp [Op.run, Average.add, Average.addMultiple, Op.times, Op.score, h, Val.add, Val.mul, Val.ofNat, Rounding.exact]

/-- Without rounding the average is the mean. -/
theorem exact_mean (ops : List Op) (h : 0 < weight ops) : averageOf .exact ops = .fin (mean ops) := by
  have hw : (weight ops : Rat) ≠ 0 := by exact_mod_cast h.ne'
  unfold averageOf Average.average
  rw [exact_run ops {} 0 rfl]
  simp only [Nat.zero_add, zero_add]
  split_ifs with h1 h2
  · simp only [Val.div, Val.ofNat, Rounding.exact, if_neg hw]; rfl
  · simp [mean, h2]
  · omega

theorem exact_nan (ops : List Op) (h : weight ops = 0) : averageOf .exact ops = .nan := by
  unfold averageOf Average.average
  rw [exact_run ops {} 0 rfl]
  simp [h]

theorem weight_perm {ops ops' : List Op} (h : ops.Perm ops') : weight ops = weight ops' := (h.map _).sum_eq
theorem total_perm {ops ops' : List Op} (h : ops.Perm ops') : total ops = total ops' := (h.map _).sum_eq

theorem total_bounds (ops : List Op) (lo hi : Rat) (h : ∀ o ∈ ops, 0 < o.times → lo ≤ o.score ∧ o.score ≤ hi) :
    lo * weight ops ≤ total ops ∧ total ops ≤ hi * weight ops := by
  induction ops with
  | nil => simp [total, weight]
  | cons o ops ih =>
    obtain ⟨h1, h2⟩ := ih fun o ho => h o (by simp [ho])
    have e1 : total (o :: ops) = o.score * o.times + total ops := by simp [total]
    have e2 : (weight (o :: ops) : Rat) = o.times + weight ops := by simp [weight]
    rw [e1, e2]
    have ht : (0 : Rat) ≤ o.times := by positivity
    by_cases h0 : o.times = 0
    · rw [h0]; simp; exact ⟨h1, h2⟩
    · have ⟨a, b⟩ := h o (by simp) (by omega)
      have := mul_le_mul_of_nonneg_right a ht
      have := mul_le_mul_of_nonneg_right b ht
      constructor <;> linarith

theorem mean_bounds (ops : List Op) (hw : 0 < weight ops) (lo hi : Rat) (h : ∀ o ∈ ops, 0 < o.times → lo ≤ o.score ∧ o.score ≤ hi) :
    lo ≤ mean ops ∧ mean ops ≤ hi := by
  have hp : (0 : Rat) < weight ops := by exact_mod_cast hw
  obtain ⟨h1, h2⟩ := total_bounds ops lo hi h
  unfold mean
  rw [le_div_iff₀ hp, div_le_iff₀ hp]
  exact ⟨h1, h2⟩

theorem weight_append (a b : List Op) : weight (a ++ b) = weight a + weight b := by simp [weight]
theorem total_append (a b : List Op) : total (a ++ b) = total a + total b := by simp [total]
theorem weight_replicate (v : Rat) (n : Nat) : weight (List.replicate n (.one v)) = n := by simp [weight, Op.times]
theorem total_replicate (v : Rat) (n : Nat) : total (List.replicate n (.one v)) = v * n := by
  simp [total, Op.times, Op.score, mul_comm]

/-- Without rounding all of C41 holds. -/
theorem C41_exact : C41_statement .exact := by
  refine ⟨fun ops _ hw => ⟨mean ops, exact_mean ops hw, fun lo hi h => mean_bounds ops hw lo hi h⟩, ?_, ?_⟩
  · intro ops ops' _ h
    rcases Nat.eq_zero_or_pos (weight ops) with h0 | h0
    · rw [exact_nan ops h0, exact_nan ops' (weight_perm h ▸ h0)]
    · rw [exact_mean ops h0, exact_mean ops' (weight_perm h ▸ h0), mean, mean, weight_perm h, total_perm h]
  · intro ops v n _ _
    have e1 : weight (ops ++ [.many v n]) = weight (ops ++ List.replicate n (.one v)) := by
      rw [weight_append, weight_append, weight_replicate]; simp [weight, Op.times]
    have e2 : total (ops ++ [.many v n]) = total (ops ++ List.replicate n (.one v)) := by
      rw [total_append, total_append, total_replicate]; simp [total, Op.times, Op.score]
    rcases Nat.eq_zero_or_pos (weight (ops ++ [.many v n])) with h0 | h0
    · rw [exact_nan _ h0, exact_nan _ (e1 ▸ h0)]
    · rw [exact_mean _ h0, exact_mean _ (e1 ▸ h0), mean, mean, e1, e2]

/-! ### With rounding -/

/-- One more score. -/
theorem step_bounds (R : Rounding) {s A x : Rat} {j : Nat} (hA : 0 ≤ A) (hx : 0 ≤ x) (h1 : A * R.d ^ j ≤ s) (h2 : s ≤ A * R.p ^ j) {y : Rat}
    (hy1 : x * R.d ≤ y) (hy2 : y ≤ x * R.p) :
    (A + x) * R.d ^ (j + 2) ≤ R.rnd (s + y) ∧ R.rnd (s + y) ≤ (A + x) * R.p ^ (j + 2) := by
  have hp := R.p_ge
  have hd := R.d_pos
  have hd1 := R.d_le
  have hdj : (0 : Rat) < R.d ^ j := pow_pos hd j
  have hdj1 : R.d ^ j ≤ 1 := pow_le_one₀ hd.le hd1
  have hpj : (1 : Rat) ≤ R.p ^ j := one_le_pow₀ hp
  have hs0 : 0 ≤ s := le_trans (by positivity) h1
  have hy0 : 0 ≤ y := le_trans (by positivity) hy1
  have hup := R.le_up (x := s + y) (by linarith)
  have hdown := R.ge_down (x := s + y) (by linarith)
  constructor
  · have a1 : A * R.d ^ (j + 1) ≤ A * R.d ^ j := by
      apply mul_le_mul_of_nonneg_left _ hA
      rw [pow_succ]; nlinarith
    have a2 : x * R.d ^ (j + 1) ≤ x * R.d := by
      apply mul_le_mul_of_nonneg_left _ hx
      rw [pow_succ]; nlinarith
    have a3 : (A + x) * R.d ^ (j + 1) ≤ s + y := by linarith [add_mul A x (R.d ^ (j + 1))]
    have a4 := mul_le_mul_of_nonneg_right a3 hd.le
    calc (A + x) * R.d ^ (j + 2) = (A + x) * R.d ^ (j + 1) * R.d := by ring
      _ ≤ _ := a4
      _ ≤ _ := hdown
  · have a1 : A * R.p ^ j ≤ A * R.p ^ (j + 1) := by
      apply mul_le_mul_of_nonneg_left _ hA
      rw [pow_succ]; nlinarith
    have a2 : x * R.p ≤ x * R.p ^ (j + 1) := by
      apply mul_le_mul_of_nonneg_left _ hx
      rw [pow_succ]; nlinarith
    have a3 : s + y ≤ (A + x) * R.p ^ (j + 1) := by linarith [add_mul A x (R.p ^ (j + 1))]
    have a4 := mul_le_mul_of_nonneg_right a3 (by linarith : 0 ≤ R.p)
    calc _ ≤ _ := hup
      _ ≤ _ := a4
      _ = (A + x) * R.p ^ (j + 2) := by ring

theorem run_bounds (R : Rounding) (ops : List Op) (hn : ∀ o ∈ ops, 0 ≤ o.score) : ∀ (a : Average) (s A : Rat) (j : Nat),
    a.value = .fin s → 0 ≤ A → A * R.d ^ j ≤ s → s ≤ A * R.p ^ j → weight ops ≤ 2 ^ 53 →
    ∃ s', ops.foldl (Op.run R) a = ⟨.fin s', a.count + weight ops⟩ ∧
      (A + total ops) * R.d ^ (j + 2 * ops.length) ≤ s' ∧ s' ≤ (A + total ops) * R.p ^ (j + 2 * ops.length) := by
  induction ops with
  | nil => intro a s A j h _ h1 h2 _; cases a; simp at h; subst h; exact ⟨s, by simp [weight], by simpa [total] using h1, by simpa [total] using h2⟩
  | cons o ops ih =>
    intro a s A j h hA h1 h2 hw
    have ho := hn o (by simp)
    have hw' : o.times + weight ops ≤ 2 ^ 53 := by simpa [weight] using hw
    have ht : (0 : Rat) ≤ o.times := by positivity
    have hx : 0 ≤ o.score * o.times := mul_nonneg ho ht
    obtain ⟨y, hy, hy1, hy2⟩ : ∃ y, o.run R a = ⟨.fin (R.rnd (s + y)), a.count + o.times⟩ ∧ o.score * o.times * R.d ≤ y ∧ y ≤ o.score * o.times * R.p := by
      cases o with
      | one v =>
        simp only [Op.score, Op.times, Nat.cast_one, mul_one] at *
        refine ⟨v, by simp [Op.run, Average.add, h, Val.add], ?_, ?_⟩
        · exact mul_le_of_le_one_right ho R.d_le
        · exact le_mul_of_one_le_right ho R.p_ge
      | many v n =>
        simp only [Op.score, Op.times] at *
        refine ⟨R.rnd (v * n), ?_, R.ge_down hx, R.le_up hx⟩
        simp [Op.run, Average.addMultiple, h, Val.add, Val.mul, Val.ofNat, R.nat n (by omega)]
    obtain ⟨b1, b2⟩ := step_bounds R hA hx h1 h2 hy1 hy2
    obtain ⟨s', e, c1, c2⟩ := ih (fun o ho => hn o (by simp [ho])) (o.run R a) _ (A + o.score * o.times) (j + 2) (by rw [hy]) (by linarith)
      b1 b2 (by omega)
    refine ⟨s', ?_, ?_, ?_⟩
    · rw [List.foldl_cons, e, hy]
      simp [weight, Nat.add_assoc]
    · have : total (o :: ops) = o.score * o.times + total ops := by simp [total]
      rw [this, ← add_assoc]
      have e' : j + 2 * (o :: ops).length = j + 2 + 2 * ops.length := by simp; ring
      rw [e']; exact c1
    · have : total (o :: ops) = o.score * o.times + total ops := by simp [total]
      rw [this, ← add_assoc]
      have e' : j + 2 * (o :: ops).length = j + 2 + 2 * ops.length := by simp; ring
      rw [e']; exact c2

/-- What holds of C41, however numbers are rounded: scores that are not negative have an
average, and it is the mean up to two roundings for each of them and one more. -/
theorem C41_error_partial (R : Rounding) (ops : List Op) (hn : ∀ o ∈ ops, 0 ≤ o.score) (hw : 0 < weight ops) (hmax : weight ops ≤ 2 ^ 53) :
    ∃ q, averageOf R ops = .fin q ∧ mean ops * R.d ^ (2 * ops.length + 1) ≤ q ∧ q ≤ mean ops * R.p ^ (2 * ops.length + 1) := by
  obtain ⟨s, e, h1, h2⟩ := run_bounds R ops hn {} 0 0 0 rfl (le_refl _) (by simp) (by simp) hmax
  simp only [zero_add, Nat.zero_add] at e h1 h2
  have hp := R.p_ge
  have hd := R.d_pos
  have hd1 := R.d_le
  have hc : (0 : Rat) < weight ops := by exact_mod_cast hw
  have ht : 0 ≤ total ops := by
    have := (total_bounds (ops.map fun o => o) 0 (ops.map Op.score).sum (fun o ho _ => ⟨hn o (by simpa using ho), ?_⟩)).1
    · simpa using this
    · exact List.single_le_sum (by simpa using hn) _ (List.mem_map_of_mem (by simpa using ho))
  have hs0 : 0 ≤ s := le_trans (by positivity) h1
  have hdk : (0 : Rat) < R.d ^ (2 * ops.length) := pow_pos hd _
  have hpk : (1 : Rat) ≤ R.p ^ (2 * ops.length) := one_le_pow₀ hp
  unfold averageOf Average.average
  rw [e]
  simp only
  split_ifs with c1 c2
  · refine ⟨R.rnd (s / weight ops), ?_, ?_, ?_⟩
    · simp only [Val.div, Val.ofNat, R.nat _ hmax, if_neg hc.ne']
    · have h3 : mean ops * R.d ^ (2 * ops.length) ≤ s / weight ops := by
        unfold mean; rw [le_div_iff₀ hc]
        calc _ = total ops * R.d ^ (2 * ops.length) := by field_simp
          _ ≤ _ := h1
      calc _ = mean ops * R.d ^ (2 * ops.length) * R.d := by ring
        _ ≤ s / weight ops * R.d := mul_le_mul_of_nonneg_right h3 hd.le
        _ ≤ _ := R.ge_down (by positivity)
    · have h3 : s / weight ops ≤ mean ops * R.p ^ (2 * ops.length) := by
        unfold mean; rw [div_le_iff₀ hc]
        calc _ ≤ _ := h2
          _ = _ := by field_simp
      calc _ ≤ s / weight ops * R.p := R.le_up (by positivity)
        _ ≤ mean ops * R.p ^ (2 * ops.length) * R.p := mul_le_mul_of_nonneg_right h3 (by linarith)
        _ = _ := by ring
  · refine ⟨s, rfl, ?_, ?_⟩
    · have : mean ops = total ops := by simp [mean, c2]
      rw [this]
      refine le_trans ?_ h1
      apply mul_le_mul_of_nonneg_left _ ht
      rw [pow_succ]; nlinarith
    · have : mean ops = total ops := by simp [mean, c2]
      rw [this]
      refine le_trans h2 ?_
      apply mul_le_mul_of_nonneg_left _ ht
      rw [pow_succ]; nlinarith
  · omega

/-- Nothing to average: not a number, and only then. -/
theorem C41_nan (R : Rounding) (ops : List Op) (hn : ∀ o ∈ ops, 0 ≤ o.score) (hmax : weight ops ≤ 2 ^ 53) :
    averageOf R ops = .nan ↔ weight ops = 0 := by
  constructor
  · intro h
    by_contra h0
    obtain ⟨q, e, _⟩ := C41_error_partial R ops hn (by omega) hmax
    rw [e] at h; cases h
  · intro h
    obtain ⟨s, e, _⟩ := run_bounds R ops hn {} 0 0 0 rfl (le_refl _) (by simp) (by simp) hmax
    unfold averageOf Average.average
    rw [e]; simp [h]

/-- The bounds of C41, up to rounding. -/
theorem C41_bounds_partial (R : Rounding) (ops : List Op) (hw : 0 < weight ops) (hmax : weight ops ≤ 2 ^ 53) (lo hi : Rat) (h0 : 0 ≤ lo)
    (h : ∀ o ∈ ops, lo ≤ o.score ∧ o.score ≤ hi) :
    ∃ q, averageOf R ops = .fin q ∧ lo * R.d ^ (2 * ops.length + 1) ≤ q ∧ q ≤ hi * R.p ^ (2 * ops.length + 1) := by
  obtain ⟨q, e, h1, h2⟩ := C41_error_partial R ops (fun o ho => h0.trans (h o ho).1) hw hmax
  obtain ⟨b1, b2⟩ := mean_bounds ops hw lo hi fun o ho _ => h o ho
  have hp : (0 : Rat) ≤ R.p ^ (2 * ops.length + 1) := pow_nonneg (by linarith [R.p_ge]) _
  have hd : (0 : Rat) ≤ R.d ^ (2 * ops.length + 1) := pow_nonneg R.d_pos.le _
  exact ⟨q, e, (mul_le_mul_of_nonneg_right b1 hd).trans h1, h2.trans (mul_le_mul_of_nonneg_right b2 hp)⟩

/-- Two orders, up to rounding. -/
theorem C41_order_partial (R : Rounding) (ops ops' : List Op) (hn : ∀ o ∈ ops, 0 ≤ o.score) (hw : 0 < weight ops) (hmax : weight ops ≤ 2 ^ 53)
    (hp : ops.Perm ops') : ∃ q q', averageOf R ops = .fin q ∧ averageOf R ops' = .fin q' ∧
      q * R.d ^ (2 * ops.length + 1) ≤ q' * R.p ^ (2 * ops.length + 1) := by
  obtain ⟨q, e, h1, h2⟩ := C41_error_partial R ops hn hw hmax
  obtain ⟨q', e', h1', h2'⟩ := C41_error_partial R ops' (fun o ho => hn o (hp.mem_iff.2 ho)) (weight_perm hp ▸ hw) (weight_perm hp ▸ hmax)
  have hm : mean ops = mean ops' := by rw [mean, mean, weight_perm hp, total_perm hp]
  rw [← hm, ← hp.length_eq] at h1' h2'
  refine ⟨q, q', e, e', ?_⟩
  have hP : (0 : Rat) ≤ R.p ^ (2 * ops.length + 1) := pow_nonneg (by linarith [R.p_ge]) _
  have hD : (0 : Rat) ≤ R.d ^ (2 * ops.length + 1) := pow_nonneg R.d_pos.le _
  calc _ ≤ mean ops * R.p ^ (2 * ops.length + 1) * R.d ^ (2 * ops.length + 1) := mul_le_mul_of_nonneg_right h2 hD
    _ = mean ops * R.d ^ (2 * ops.length + 1) * R.p ^ (2 * ops.length + 1) := by ring
    _ ≤ _ := mul_le_mul_of_nonneg_right h1' hP

/-! ### Where C41 fails -/

/-- A tenth, as `float64`. -/
def tenth : Rat := round64 (1 / 10)

/-- With the arithmetic of `float64` C41 is false: the average of three tenths is more
than a tenth. -/
theorem C41_bounds_fail : averageOf ieee [.one tenth, .one tenth, .one tenth] ≠ .fin tenth ∧ ¬ C41_statement ieee := by
  have h : averageOf ieee [.one tenth, .one tenth, .one tenth] ≠ .fin tenth := by decide +kernel
  refine ⟨h, fun hs => ?_⟩
  obtain ⟨q, e, hq⟩ := hs.1 [.one tenth, .one tenth, .one tenth] (by
    intro o ho; simp at ho; subst ho; exact ieee.idem _) (by decide)
  have := hq tenth tenth (by intro o ho _; simp at ho; subst ho; exact ⟨le_refl _, le_refl _⟩)
  rw [e, le_antisymm this.2 this.1] at h
  exact h rfl

/-- The order of scores matters: 0.1, 0.2, 0.3 and 0.3, 0.2, 0.1. -/
theorem C41_order_fails : averageOf ieee [.one (round64 (1 / 10)), .one (round64 (2 / 10)), .one (round64 (3 / 10))] ≠
    averageOf ieee [.one (round64 (3 / 10)), .one (round64 (2 / 10)), .one (round64 (1 / 10))] := by decide +kernel

/-- A case of the theorems above. -/
example : ∃ q, averageOf ieee [.one 3, .many 7 2] = .fin q ∧ 3 * ieee.d ^ 5 ≤ q ∧ q ≤ 7 * ieee.p ^ 5 :=
  C41_bounds_partial ieee [.one 3, .many 7 2] (by decide) (by decide) 3 7 (by norm_num) (by
    intro o ho; simp at ho; rcases ho with rfl | rfl <;> norm_num [Op.score])

/-- A case of `C41_order_partial`. -/
example : ∃ q q', averageOf ieee [.one 3, .many 7 2, .one 1] = .fin q ∧ averageOf ieee [.many 7 2, .one 1, .one 3] = .fin q' ∧
    q * ieee.d ^ 7 ≤ q' * ieee.p ^ 7 :=
  C41_order_partial ieee [.one 3, .many 7 2, .one 1] [.many 7 2, .one 1, .one 3] (by
    intro o ho; simp at ho; rcases ho with rfl | rfl | rfl <;> norm_num [Op.score]) (by decide) (by decide) (by decide)

/-- Cases of `C41_nan`. -/
example : averageOf ieee [.many 7 0, .many 3 0] = .nan ∧ averageOf ieee [.many 7 0, .one 3] ≠ .nan :=
  ⟨(C41_nan ieee [.many 7 0, .many 3 0] (by
      intro o ho; simp at ho; rcases ho with rfl | rfl <;> norm_num [Op.score]) (by decide)).2 (by decide),
    fun h => absurd ((C41_nan ieee [.many 7 0, .one 3] (by
      intro o ho; simp at ho; rcases ho with rfl | rfl <;> norm_num [Op.score]) (by decide)).1 h) (by decide)⟩

end Verif.Props.ScoreAverage
