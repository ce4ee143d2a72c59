import Verif.Score.BenchHandler

/-
When the scores of a handler are numbers, and between which bounds.
-/

set_option linter.unusedSimpArgs false

namespace Verif.Score
open Go Verif.Warning Verif.Data Verif.Props.ScoreRange Verif.Props.ScoreAverage

variable (R : Rounding)

/-- A value as a number. -/
def Val.num : Val → Rat
  | .fin q => q
  | _ => 0

theorem fold_ops {α : Type} (step : Average → α → Average) (c : α → Bool) (op : α → Op) : ∀ (l : List α) (a : Average),
    (∀ x ∈ l, c x = true → ∀ a, step a x = (op x).run R a) →
    l.foldl (fun a x => if c x then step a x else a) a = ((l.filter c).map op).foldl (Op.run R) a := by
  intro l
  induction l with
  | nil => intro a _; rfl
  | cons x l ih =>
    intro a h
    have ih' := fun a => ih a fun y hy => h y (by simp [hy])
    rw [List.foldl_cons, List.filter_cons]
    by_cases hc : c x = true
    · simp only [hc, if_true, List.map_cons, List.foldl_cons]
      rw [ih', h x (by simp) hc]
    · simp only [hc, if_false, Bool.false_eq_true]
      rw [ih']

theorem pow_down {k n : Nat} (h : k ≤ n) : R.d ^ n ≤ R.d ^ k := pow_le_pow_of_le_one R.d_pos.le R.d_le h
theorem pow_up {k n : Nat} (h : k ≤ n) : R.p ^ k ≤ R.p ^ n := pow_le_pow_right₀ R.p_ge h

theorem ops_bounds {ops : List Op} {n : Nat} (hn : ops.length ≤ n) (hw : 0 < weight ops) (hmax : weight ops ≤ 2 ^ 53) {lo hi : Rat} (h0 : 0 ≤ lo)
    (hh : 0 ≤ hi) (h : ∀ o ∈ ops, lo ≤ o.score ∧ o.score ≤ hi) :
    ∃ q, averageOf R ops = .fin q ∧ lo * R.d ^ (2 * n + 1) ≤ q ∧ q ≤ hi * R.p ^ (2 * n + 1) := by
  obtain ⟨q, e, h1, h2⟩ := C41_bounds_partial R ops hw hmax lo hi h0 h
  exact ⟨q, e, (mul_le_mul_of_nonneg_left (pow_down R (by omega)) h0).trans h1, h2.trans (mul_le_mul_of_nonneg_left (pow_up R (by omega)) hh)⟩

/-! ### What is not a number stays so -/

theorem add_nan_left (v : Val) : Val.add R .nan v = .nan := by cases v <;> rfl
theorem add_nan_right (v : Val) : Val.add R v .nan = .nan := by cases v <;> rfl
theorem mul_nan_left (v : Val) : Val.mul R .nan v = .nan := by cases v <;> rfl
theorem div_nan_left (v : Val) : Val.div R .nan v = .nan := by cases v <;> rfl

theorem average_nan (n : Nat) : (Average.average R ⟨.nan, n⟩) = .nan := by
  unfold Average.average
  simp only [div_nan_left]
  split_ifs <;> rfl

theorem fold_nan_stays {α : Type} (step : Average → α → Average) (hs : ∀ a x, a.value = .nan → (step a x).value = .nan) :
    ∀ (l : List α) (a : Average), a.value = .nan → (l.foldl step a).value = .nan := by
  intro l
  induction l with
  | nil => intro a h; exact h
  | cons x l ih => intro a h; exact ih _ (hs a x h)

theorem fold_nan {α : Type} (step : Average → α → Average) (hs : ∀ a x, a.value = .nan → (step a x).value = .nan)
    (x : α) (hx : ∀ a, (step a x).value = .nan) : ∀ (l : List α) (a : Average), x ∈ l → (l.foldl step a).value = .nan := by
  intro l
  induction l with
  | nil => intro a h; cases h
  | cons y l ih =>
    intro a h
    rw [List.foldl_cons]
    rcases List.mem_cons.1 h with rfl | h
    · exact fold_nan_stays step hs l _ (hx a)
    · exact ih _ h

theorem of_value_nan (a : Average) (h : a.value = .nan) : a.average R = .nan := by
  obtain ⟨v, n⟩ := a
  simp at h; subst h; exact average_nan R n

/-! ### A handler -/

variable (weights : Weight → Nat) (rng : Bytes → Ranges)

/-- The weights together. -/
def allWeights : Nat := weights .nanoseconds + (weights .allocBytes + weights .allocations)

theorem order_sum (f : Weight → Nat) (c : Weight → Bool) : ((weightOrder.filter c).map f).sum ≤ allWeights f := by
  unfold weightOrder allWeights
  cases h1 : c .nanoseconds <;> cases h2 : c .allocBytes <;> cases h3 : c .allocations <;> simp [h1, h2, h3] <;> omega

theorem order_pos (f : Weight → Nat) (c : Weight → Bool) : 0 < ((weightOrder.filter c).map f).sum ↔ ∃ w, c w = true ∧ 0 < f w := by
  rw [← Nat.ne_zero_iff_zero_lt, Ne, List.sum_eq_zero_iff, not_forall]
  simp only [List.mem_map, List.mem_filter, mem_order, true_and]
  constructor
  · rintro ⟨x, hx⟩
    push Not at hx
    obtain ⟨⟨w, hc, rfl⟩, h0⟩ := hx
    exact ⟨w, hc, by omega⟩
  · rintro ⟨w, hc, h0⟩
    exact ⟨f w, fun h => by have := h ⟨w, hc, rfl⟩; omega⟩

/-- Scores that are numbers within bounds. -/
def Within (lo hi : Rat) (e : Bytes × Record Rat) : Prop :=
  ∀ w, counts R (rng e.1) w = true → ∃ x, scoreIn R (rng e.1) e.2 w = .fin x ∧ lo ≤ x ∧ x ≤ hi

/-- A test that says something: a measure that has weight counts. -/
def Says (e : Bytes × Record Rat) : Prop := ∃ w, counts R (rng e.1) w = true ∧ 0 < weights w

theorem testSum_ops {lo hi : Rat} {e : Bytes × Record Rat} (h : Within R rng lo hi e) :
    testSum R weights (rng e.1) e.2 =
      ((weightOrder.filter (counts R (rng e.1))).map fun w => Op.many (scoreIn R (rng e.1) e.2 w).num (weights w)).foldl (Op.run R) {} := by
  unfold testSum
  rw [fold_ops R _ (counts R (rng e.1)) (fun w => Op.many (scoreIn R (rng e.1) e.2 w).num (weights w))]
  intro w _ hc a
  obtain ⟨x, hx, _⟩ := h w hc
  rw [hx]; rfl

theorem test_weight (e : Bytes × Record Rat) :
    weight ((weightOrder.filter (counts R (rng e.1))).map fun w => Op.many (scoreIn R (rng e.1) e.2 w).num (weights w)) =
      ((weightOrder.filter (counts R (rng e.1))).map weights).sum := by
  unfold weight
  rw [List.map_map]; rfl

theorem test_nan {lo hi : Rat} (h0 : 0 ≤ lo) (hw : allWeights weights ≤ 2 ^ 53) {e : Bytes × Record Rat} (h : Within R rng lo hi e)
    (hs : ¬ Says R weights rng e) : (testSum R weights (rng e.1) e.2).average R = .nan := by
  rw [testSum_ops R weights rng h]
  refine (C41_nan R _ ?_ ?_).2 ?_
  · intro o ho
    obtain ⟨w, hw, rfl⟩ := List.mem_map.1 ho
    obtain ⟨x, hx, hl, _⟩ := h w (List.mem_filter.1 hw).2
    simp only [Op.score, hx, Val.num]; linarith
  · rw [test_weight]; exact (order_sum _ _).trans hw
  · rw [test_weight]
    have := mt (order_pos weights (counts R (rng e.1))).1 hs
    omega

theorem test_bounds {lo hi : Rat} (h0 : 0 ≤ lo) (hh : 0 ≤ hi) (hw : allWeights weights ≤ 2 ^ 53) {e : Bytes × Record Rat}
    (h : Within R rng lo hi e) (hs : Says R weights rng e) :
    ∃ q, (testSum R weights (rng e.1) e.2).average R = .fin q ∧ lo * R.d ^ 7 ≤ q ∧ q ≤ hi * R.p ^ 7 := by
  rw [testSum_ops R weights rng h]
  refine ops_bounds R (n := 3) ?_ ?_ ?_ h0 hh ?_
  · rw [List.length_map]; exact List.length_filter_le _ _
  · rw [test_weight]; exact (order_pos _ _).2 hs
  · rw [test_weight]; exact (order_sum _ _).trans hw
  · intro o ho
    obtain ⟨w, hw, rfl⟩ := List.mem_map.1 ho
    obtain ⟨x, hx, hl, hu⟩ := h w (List.mem_filter.1 hw).2
    simp only [Op.score, hx, Val.num]; exact ⟨hl, hu⟩

theorem tests_empty : (overTests R weights rng []).average R = .nan := by
  unfold overTests Average.average; simp

theorem tests_nan {es : List (Bytes × Record Rat)} {e : Bytes × Record Rat} (he : e ∈ es)
    (h : (testSum R weights (rng e.1) e.2).average R = .nan) : (overTests R weights rng es).average R = .nan := by
  refine of_value_nan R _ ?_
  rw [overTests]
  have hs : ∀ (a : Average) (x : Bytes × Record Rat), a.value = .nan →
      (a.add R ((testSum R weights (rng x.1) x.2).average R)).value = .nan := by
    intro a x hx
    simp only [Average.add, hx, add_nan_left]
  have hx : ∀ a : Average, (a.add R ((testSum R weights (rng e.1) e.2).average R)).value = .nan := by
    intro a
    rw [h]
    simp only [Average.add, add_nan_right]
  exact fold_nan (α := Bytes × Record Rat) (fun a x => a.add R ((testSum R weights (rng x.1) x.2).average R)) hs e hx es {} he

theorem filter_true {α : Type} (l : List α) : l.filter (fun _ => true) = l := by simp

theorem tests_bounds {es : List (Bytes × Record Rat)} (hne : es ≠ []) (hl : es.length ≤ 2 ^ 53) {lo hi : Rat} (h0 : 0 ≤ lo) (hh : 0 ≤ hi)
    (h : ∀ e ∈ es, ∃ q, (testSum R weights (rng e.1) e.2).average R = .fin q ∧ lo ≤ q ∧ q ≤ hi) :
    ∃ q, (overTests R weights rng es).average R = .fin q ∧ lo * R.d ^ (2 * es.length + 1) ≤ q ∧ q ≤ hi * R.p ^ (2 * es.length + 1) := by
  have e1 : overTests R weights rng es = (es.map fun e => Op.one ((testSum R weights (rng e.1) e.2).average R).num).foldl (Op.run R) {} := by
    have := fold_ops R (fun a (e : Bytes × Record Rat) => a.add R ((testSum R weights (rng e.1) e.2).average R)) (fun _ => true)
      (fun e => Op.one ((testSum R weights (rng e.1) e.2).average R).num) es {} (by
        intro e he _ a
        obtain ⟨q, hq, _⟩ := h e he
        simp only [hq]; rfl)
    simp only [if_true, filter_true] at this
    exact this
  have e2 : weight (es.map fun e => Op.one ((testSum R weights (rng e.1) e.2).average R).num) = es.length := by
    unfold weight; rw [List.map_map]
    show (es.map fun _ => 1).sum = _
    simp
  rw [e1]
  refine ops_bounds R (n := es.length) (by simp) ?_ (by rw [e2]; exact hl) h0 hh ?_
  · rw [e2]; exact List.length_pos_of_ne_nil hne
  · intro o ho
    obtain ⟨e, he, rfl⟩ := List.mem_map.1 ho
    obtain ⟨q, hq, a, b⟩ := h e he
    simp only [Op.score, hq, Val.num]; exact ⟨a, b⟩

theorem sub_nan {es : List (Bytes × Record Rat)} {w : Weight} (h : ∀ e ∈ es, counts R (rng e.1) w = false) :
    (subSum R rng w es).average R = .nan := by
  have : subSum R rng w es = {} := by
    unfold subSum
    revert h
    generalize ({} : Average) = a
    induction es generalizing a with
    | nil => intro _; rfl
    | cons e es ih =>
      intro h
      rw [List.foldl_cons, h e (by simp)]
      exact ih a fun e he => h e (by simp [he])
  rw [this]
  unfold Average.average; simp

theorem sub_bounds {es : List (Bytes × Record Rat)} {w : Weight} (hl : es.length ≤ 2 ^ 53) {lo hi : Rat} (h0 : 0 ≤ lo) (hh : 0 ≤ hi)
    (h : ∀ e ∈ es, Within R rng lo hi e) (hc : ∃ e ∈ es, counts R (rng e.1) w = true) :
    ∃ q, (subSum R rng w es).average R = .fin q ∧ lo * R.d ^ (2 * es.length + 1) ≤ q ∧ q ≤ hi * R.p ^ (2 * es.length + 1) := by
  have e1 : subSum R rng w es =
      ((es.filter fun e => counts R (rng e.1) w).map fun e => Op.one (scoreIn R (rng e.1) e.2 w).num).foldl (Op.run R) {} := by
    refine fold_ops R (fun a (e : Bytes × Record Rat) => a.add R (scoreIn R (rng e.1) e.2 w)) (fun e => counts R (rng e.1) w)
      (fun e => Op.one (scoreIn R (rng e.1) e.2 w).num) es {} ?_
    intro e he hc a
    obtain ⟨q, hq, _⟩ := h e he w hc
    simp only [hq]; rfl
  have e2 : weight ((es.filter fun e => counts R (rng e.1) w).map fun e => Op.one (scoreIn R (rng e.1) e.2 w).num) =
      (es.filter fun e => counts R (rng e.1) w).length := by
    unfold weight; rw [List.map_map]
    show (List.map (fun _ => 1) _).sum = _
    simp
  have hf : (es.filter fun e => counts R (rng e.1) w).length ≤ es.length := List.length_filter_le _ _
  rw [e1]
  refine ops_bounds R (n := es.length) (by rw [List.length_map]; exact hf) ?_ (by rw [e2]; omega) h0 hh ?_
  · rw [e2]
    obtain ⟨e, he, hc⟩ := hc
    exact List.length_pos_of_mem (List.mem_filter.2 ⟨he, hc⟩)
  · intro o ho
    obtain ⟨e, he, rfl⟩ := List.mem_map.1 ho
    obtain ⟨he, hc⟩ := List.mem_filter.1 he
    obtain ⟨q, hq, a, b⟩ := h e he w hc
    simp only [Op.score, hq, Val.num]; exact ⟨a, b⟩

theorem data_nan {es : List (Bytes × Record Rat)} {w : Weight} (h : (subSum R rng w es).average R = .nan) :
    (overData R weights rng es).average R = .nan := by
  refine of_value_nan R _ ?_
  unfold overData
  refine fold_nan (fun a w => a.addMultiple R ((subSum R rng w es).average R) (weights w)) ?_ w ?_ weightOrder {} (mem_order w)
  · intro a x hx
    simp only [Average.addMultiple, hx, add_nan_left]
  · intro a
    simp only [Average.addMultiple, h, mul_nan_left, add_nan_right]

theorem data_ops {es : List (Bytes × Record Rat)} {lo hi : Rat} (h : ∀ w, ∃ q, (subSum R rng w es).average R = .fin q ∧ lo ≤ q ∧ q ≤ hi) :
    overData R weights rng es = (weightOrder.map fun w => Op.many ((subSum R rng w es).average R).num (weights w)).foldl (Op.run R) {} := by
  have := fold_ops R (fun a w => a.addMultiple R ((subSum R rng w es).average R) (weights w)) (fun _ => true)
    (fun w => Op.many ((subSum R rng w es).average R).num (weights w)) weightOrder {} (by
      intro w _ _ a
      obtain ⟨q, hq, _⟩ := h w
      simp only [hq]; rfl)
  simp only [if_true, filter_true] at this
  exact this

theorem data_weight (es : List (Bytes × Record Rat)) :
    weight (weightOrder.map fun w => Op.many ((subSum R rng w es).average R).num (weights w)) = allWeights weights := by
  simp [weight, weightOrder, allWeights, Op.times]

theorem data_bounds {es : List (Bytes × Record Rat)} (hp : 0 < allWeights weights) (hw : allWeights weights ≤ 2 ^ 53) {lo hi : Rat}
    (h0 : 0 ≤ lo) (hh : 0 ≤ hi) (h : ∀ w, ∃ q, (subSum R rng w es).average R = .fin q ∧ lo ≤ q ∧ q ≤ hi) :
    ∃ q, (overData R weights rng es).average R = .fin q ∧ lo * R.d ^ 7 ≤ q ∧ q ≤ hi * R.p ^ 7 := by
  rw [data_ops R weights rng h]
  refine ops_bounds R (n := 3) (by simp [weightOrder]) (by rwa [data_weight]) (by rwa [data_weight]) h0 hh ?_
  intro o ho
  obtain ⟨w, _, rfl⟩ := List.mem_map.1 ho
  obtain ⟨q, hq, a, b⟩ := h w
  simp only [Op.score, hq, Val.num]; exact ⟨a, b⟩

theorem data_weightless {es : List (Bytes × Record Rat)} (hp : allWeights weights = 0) {lo hi : Rat} (h0 : 0 ≤ lo)
    (h : ∀ w, ∃ q, (subSum R rng w es).average R = .fin q ∧ lo ≤ q ∧ q ≤ hi) : (overData R weights rng es).average R = .nan := by
  rw [data_ops R weights rng h]
  refine (C41_nan R _ ?_ (by rw [data_weight]; omega)).2 (by rw [data_weight]; exact hp)
  intro o ho
  obtain ⟨w, _, rfl⟩ := List.mem_map.1 ho
  obtain ⟨q, hq, a, b⟩ := h w
  simp only [Op.score, hq, Val.num]; linarith

theorem half_bounds {a b lo hi : Rat} (h0 : 0 ≤ lo) (ha : lo ≤ a ∧ a ≤ hi) (hb : lo ≤ b ∧ b ≤ hi) :
    ∃ q, Val.div R (Val.add R (.fin a) (.fin b)) (.fin 2) = .fin q ∧ lo * R.d ^ 2 ≤ q ∧ q ≤ hi * R.p ^ 2 := by
  have hp := R.p_ge
  have hd := R.d_pos
  have hs : 0 ≤ a + b := by linarith
  have h1 := R.le_up hs
  have h2 := R.ge_down hs
  have h3 : 0 ≤ R.rnd (a + b) := R.nonneg hs
  have h4 : 0 ≤ R.rnd (a + b) / 2 := by linarith
  have h5 := R.le_up h4
  have h6 := R.ge_down h4
  refine ⟨R.rnd (R.rnd (a + b) / 2), ?_, ?_, ?_⟩
  · simp [Val.div, Val.add]
  · refine le_trans ?_ h6
    have : lo * R.d ≤ R.rnd (a + b) / 2 := by nlinarith
    calc lo * R.d ^ 2 = lo * R.d * R.d := by ring
      _ ≤ _ := mul_le_mul_of_nonneg_right this hd.le
  · refine le_trans h5 ?_
    have : R.rnd (a + b) / 2 ≤ hi * R.p := by nlinarith
    calc _ ≤ hi * R.p * R.p := mul_le_mul_of_nonneg_right this (by linarith)
      _ = _ := by ring

/-! ### Together -/

/-- Every measure counts in some test. -/
def Covers (es : List (Bytes × Record Rat)) : Prop := ∀ w, ∃ e ∈ es, counts R (rng e.1) w = true

/-- The three scores. -/
def scoreByTest (es : List (Bytes × Record Rat)) : Val := (overTests R weights rng es).average R
/-- The score over measures. -/
def scoreByData (es : List (Bytes × Record Rat)) : Val := (overData R weights rng es).average R
/-- The default. -/
def scoreDefault (es : List (Bytes × Record Rat)) : Val := Val.div R (Val.add R (scoreByData R weights rng es) (scoreByTest R weights rng es)) (.fin 2)

section
variable {es : List (Bytes × Record Rat)} (hl : es.length ≤ 2 ^ 53) (hw : allWeights weights ≤ 2 ^ 53) {lo hi : Rat} (h0 : 0 ≤ lo) (hh : 0 ≤ hi)
  (h : ∀ e ∈ es, Within R rng lo hi e)
include hl hw h0 hh h

theorem byTest_bounds (hne : es ≠ []) (hs : ∀ e ∈ es, Says R weights rng e) :
    ∃ q, scoreByTest R weights rng es = .fin q ∧ lo * R.d ^ (2 * es.length + 8) ≤ q ∧ q ≤ hi * R.p ^ (2 * es.length + 8) := by
  have hd : 0 ≤ lo * R.d ^ 7 := mul_nonneg h0 (pow_nonneg R.d_pos.le _)
  have hp : 0 ≤ hi * R.p ^ 7 := mul_nonneg hh (pow_nonneg (by linarith [R.p_ge]) _)
  obtain ⟨q, e, a, b⟩ := tests_bounds R weights rng hne hl hd hp (fun e he => test_bounds R weights rng h0 hh hw (h e he) (hs e he))
  refine ⟨q, e, ?_, ?_⟩
  · calc _ = lo * R.d ^ 7 * R.d ^ (2 * es.length + 1) := by ring
      _ ≤ _ := a
  · calc _ ≤ _ := b
      _ = _ := by ring

theorem byTest_nan : scoreByTest R weights rng es = .nan ↔ ¬ (es ≠ [] ∧ ∀ e ∈ es, Says R weights rng e) := by
  constructor
  · rintro hn ⟨hne, hs⟩
    obtain ⟨q, e, _⟩ := byTest_bounds R weights rng hl hw h0 hh h hne hs
    rw [e] at hn; cases hn
  · intro hn
    by_cases hne : es = []
    · subst hne; exact tests_empty R weights rng
    · have : ∃ e ∈ es, ¬ Says R weights rng e := by
        by_contra hc; push Not at hc; exact hn ⟨hne, hc⟩
      obtain ⟨e, he, hs⟩ := this
      exact tests_nan R weights rng he (test_nan R weights rng h0 hw (h e he) hs)

theorem byData_bounds (hp : 0 < allWeights weights) (hc : Covers R rng es) :
    ∃ q, scoreByData R weights rng es = .fin q ∧ lo * R.d ^ (2 * es.length + 8) ≤ q ∧ q ≤ hi * R.p ^ (2 * es.length + 8) := by
  have hd : 0 ≤ lo * R.d ^ (2 * es.length + 1) := mul_nonneg h0 (pow_nonneg R.d_pos.le _)
  have hp' : 0 ≤ hi * R.p ^ (2 * es.length + 1) := mul_nonneg hh (pow_nonneg (by linarith [R.p_ge]) _)
  obtain ⟨q, e, a, b⟩ := data_bounds R weights rng hp hw hd hp' (fun w => sub_bounds R rng hl h0 hh h (hc w))
  refine ⟨q, e, ?_, ?_⟩
  · calc _ = lo * R.d ^ (2 * es.length + 1) * R.d ^ 7 := by ring
      _ ≤ _ := a
  · calc _ ≤ _ := b
      _ = _ := by ring

theorem byData_nan : scoreByData R weights rng es = .nan ↔ ¬ (0 < allWeights weights ∧ Covers R rng es) := by
  constructor
  · rintro hn ⟨hp, hc⟩
    obtain ⟨q, e, _⟩ := byData_bounds R weights rng hl hw h0 hh h hp hc
    rw [e] at hn; cases hn
  · intro hn
    by_cases hc : Covers R rng es
    · have hz : allWeights weights = 0 := by
        by_contra hz; exact hn ⟨by omega, hc⟩
      exact data_weightless R weights rng hz (mul_nonneg h0 (pow_nonneg R.d_pos.le _)) (fun w => sub_bounds R rng hl h0 hh h (hc w))
    · unfold Covers at hc
      push Not at hc
      obtain ⟨w, hw'⟩ := hc
      exact data_nan R weights rng (sub_nan R rng fun e he => by simpa using hw' e he)

theorem default_bounds (hp : 0 < allWeights weights) (hc : Covers R rng es) (hne : es ≠ []) (hs : ∀ e ∈ es, Says R weights rng e) :
    ∃ q, scoreDefault R weights rng es = .fin q ∧ lo * R.d ^ (2 * es.length + 10) ≤ q ∧ q ≤ hi * R.p ^ (2 * es.length + 10) := by
  obtain ⟨a, ea, a1, a2⟩ := byData_bounds R weights rng hl hw h0 hh h hp hc
  obtain ⟨b, eb, b1, b2⟩ := byTest_bounds R weights rng hl hw h0 hh h hne hs
  have hd : 0 ≤ lo * R.d ^ (2 * es.length + 8) := mul_nonneg h0 (pow_nonneg R.d_pos.le _)
  obtain ⟨q, e, c, d⟩ := half_bounds R hd ⟨a1, a2⟩ ⟨b1, b2⟩
  refine ⟨q, ?_, ?_, ?_⟩
  · unfold scoreDefault; rw [ea, eb]; exact e
  · calc _ = lo * R.d ^ (2 * es.length + 8) * R.d ^ 2 := by ring
      _ ≤ _ := c
  · calc _ ≤ _ := d
      _ = _ := by ring

theorem default_nan : scoreDefault R weights rng es = .nan ↔
    scoreByTest R weights rng es = .nan ∨ scoreByData R weights rng es = .nan := by
  constructor
  · intro hn
    by_contra hc
    push Not at hc
    have h1 := mt (byTest_nan R weights rng hl hw h0 hh h).2 hc.1
    have h2 := mt (byData_nan R weights rng hl hw h0 hh h).2 hc.2
    rw [not_not] at h1 h2
    obtain ⟨q, e, _⟩ := default_bounds R weights rng hl hw h0 hh h h2.1 h2.2 h1.1 h1.2
    rw [e] at hn; cases hn
  · rintro (hn | hn)
    · unfold scoreDefault; rw [hn, add_nan_right, div_nan_left]
    · unfold scoreDefault; rw [hn, add_nan_left, div_nan_left]

end

end Verif.Score
