import Verif.Score.BenchCheck
import Verif.Props.BenchFormula
import Verif.Props.WarnCheck

/-
C97: the two calculations of scores of benchmarks agree.
-/

namespace Verif.Props.BenchCheck
open Go Verif.Warning Verif.Data Verif.Score Verif.Props.BenchScore Verif.Props.BenchFormula Verif.Props.BenchData Verif.Props.ScoreRange
  Verif.Props.ScoreAverage

/-! ### Sums -/

theorem Near.add {R : Rounding} {j k : Nat} {x y : Rat} {a b : Val} (hx : 0 ≤ x) (hy : 0 ≤ y) (ha : Near R j x a) (hb : Near R k y b) (hk : k ≤ j) :
    Near R (j + 1) (x + y) (Val.add R a b) := by
  obtain ⟨p, rfl, a1, a2⟩ := ha
  obtain ⟨q, rfl, b1, b2⟩ := Near.weaken hy hb hk
  have hd := R.d_pos
  have hp := R.p_ge
  have p0 : 0 ≤ p := (mul_nonneg hx (low_nonneg R j)).trans a1
  have q0 : 0 ≤ q := (mul_nonneg hy (low_nonneg R j)).trans b1
  refine ⟨R.rnd (p + q), rfl, ?_, ?_⟩
  · refine le_trans ?_ (R.ge_down (by linarith))
    calc _ = (x * (R.d ^ j / R.p) + y * (R.d ^ j / R.p)) * R.d := by ring
      _ ≤ _ := mul_le_mul_of_nonneg_right (by linarith) hd.le
  · refine le_trans (R.le_up (by linarith)) ?_
    calc _ ≤ (x * (R.p ^ j / R.d) + y * (R.p ^ j / R.d)) * R.p := mul_le_mul_of_nonneg_right (by linarith) (by linarith)
      _ = _ := by ring

theorem near_zero (R : Rounding) (k : Nat) : Near R k 0 (.fin 0) := ⟨0, rfl, by simp, by simp⟩

theorem near_div {R : Rounding} {k n : Nat} {x : Rat} {v : Val} (hx : 0 ≤ x) (h : Near R k x v) (hn : 0 < n) (hm : n ≤ 2 ^ 53) :
    Near R (k + 1) (x / n) (Val.div R v (Val.ofNat R n)) := by
  obtain ⟨q, rfl, a, b⟩ := h
  have hc : (0 : Rat) < n := by exact_mod_cast hn
  have q0 : 0 ≤ q := (mul_nonneg hx (low_nonneg R k)).trans a
  have h0 : 0 ≤ q / n := div_nonneg q0 hc.le
  refine ⟨R.rnd (q / n), by simp only [Val.div, Val.ofNat, R.nat _ hm, if_neg hc.ne'], ?_, ?_⟩
  · refine le_trans ?_ (R.ge_down h0)
    calc _ = x * (R.d ^ k / R.p) / n * R.d := by ring
      _ ≤ _ := mul_le_mul_of_nonneg_right (div_le_div_of_nonneg_right a hc.le) R.d_pos.le
  · refine le_trans (R.le_up h0) ?_
    calc _ ≤ x * (R.p ^ k / R.d) / n * R.p := mul_le_mul_of_nonneg_right (div_le_div_of_nonneg_right b hc.le) (by linarith [R.p_ge])
      _ = _ := by ring

theorem near_sum {R : Rounding} {α : Type} (f : α → Rat) (v : α → Val) {k : Nat} : ∀ (l : List α) (j : Nat) (A : Rat) (t : Val),
    (∀ a ∈ l, 0 ≤ f a ∧ Near R k (f a) (v a)) → k ≤ j → 0 ≤ A → Near R j A t →
    Near R (j + l.length) (A + (l.map f).sum) (l.foldl (fun t a => Val.add R t (v a)) t)
  | [], j, A, t, _, _, _, h => by simpa using h
  | a :: l, j, A, t, hl, hk, hA, h => by
    obtain ⟨h0, h1⟩ := hl a (by simp)
    have := near_sum f v l (j + 1) (A + f a) (Val.add R t (v a)) (fun b hb => hl b (by simp [hb])) (by omega) (by linarith)
      (Near.add hA h0 h h1 hk)
    simp only [List.map_cons, List.sum_cons, List.foldl_cons, List.length_cons]
    rw [show j + (l.length + 1) = j + 1 + l.length by omega, ← add_assoc]
    exact this

/-! ### The original calculation of a test -/

theorem near_term (R : Rounding) {W : Nat} (hW : W ≤ 2 ^ 53) {lo hi m diff len : Rat} (hlt : lo < hi) (hm : m ≤ hi) (d1 : (hi - m) * R.d ≤ diff)
    (d2 : diff ≤ (hi - m) * R.p) (l1 : (hi - lo) * R.d ≤ len) (l2 : len ≤ (hi - lo) * R.p) :
    Near R 4 (W * (100 * (hi - m) / (hi - lo))) (Val.div R (Val.mul R (Val.mul R (Val.ofNat R W) (.fin 100)) (.fin diff)) (.fin len)) := by
  have hp := R.p_ge
  have hd := R.d_pos
  have hD : 0 < hi - lo := by linarith
  have hl : 0 < len := lt_of_lt_of_le (mul_pos hD hd) l1
  have x0 : 0 ≤ hi - m := by linarith
  have f0 : 0 ≤ diff := (mul_nonneg x0 hd.le).trans d1
  have w0 : (0 : Rat) ≤ W * 100 := by positivity
  have a1 := R.le_up w0
  have a2 := R.ge_down w0
  have a3 := R.nonneg w0
  have b0 : 0 ≤ R.rnd (W * 100) * diff := mul_nonneg a3 f0
  have b1 := R.le_up b0
  have b2 := R.ge_down b0
  have b3 := R.nonneg b0
  have c0 : 0 ≤ R.rnd (R.rnd (W * 100) * diff) / len := div_nonneg b3 hl.le
  have c1 := R.le_up c0
  have c2 := R.ge_down c0
  refine ⟨R.rnd (R.rnd (R.rnd (W * 100) * diff) / len), ?_, ?_, ?_⟩
  · simp only [Val.mul, Val.div, Val.ofNat, R.nat W hW, if_neg hl.ne']
  · refine le_trans ?_ c2
    have h3 : W * 100 * R.d * ((hi - m) * R.d) * R.d ≤ R.rnd (R.rnd (W * 100) * diff) :=
      (mul_le_mul_of_nonneg_right (mul_le_mul a2 d1 (mul_nonneg x0 hd.le) a3) hd.le).trans b2
    have h4 : W * 100 * R.d * ((hi - m) * R.d) * R.d / ((hi - lo) * R.p) ≤ R.rnd (R.rnd (W * 100) * diff) / len := div_le_div₀ b3 h3 hl l2
    calc _ = W * 100 * R.d * ((hi - m) * R.d) * R.d / ((hi - lo) * R.p) * R.d := by
          have : R.p ≠ 0 := by linarith
          field_simp
      _ ≤ _ := mul_le_mul_of_nonneg_right h4 hd.le
  · refine le_trans c1 ?_
    have h3 : R.rnd (R.rnd (W * 100) * diff) ≤ W * 100 * R.p * ((hi - m) * R.p) * R.p :=
      b1.trans (mul_le_mul_of_nonneg_right (mul_le_mul a1 d2 f0 (by positivity)) (by linarith))
    have h4 : R.rnd (R.rnd (W * 100) * diff) / len ≤ W * 100 * R.p * ((hi - m) * R.p) * R.p / ((hi - lo) * R.d) :=
      div_le_div₀ (by positivity) h3 (mul_pos hD hd) l1
    calc _ ≤ W * 100 * R.p * ((hi - m) * R.p) * R.p / ((hi - lo) * R.d) * R.p := mul_le_mul_of_nonneg_right h4 (by linarith)
      _ = _ := by field_simp

/-- The parts of the calculation for a test. -/
def parts (R : Rounding) (weights : Weight → Nat) (g : Ranges) (r : Record Rat) (o : Original) : Original :=
  ((o.part R (weights .allocations) (g.length R .allocations) (origDiff R g r .allocations)).part R (weights .allocBytes) (g.length R .allocBytes)
    (origDiff R g r .allocBytes)).part R (weights .nanoseconds) (g.length R .nanoseconds) (origDiff R g r .nanoseconds)

theorem handlerTest_parts (R : Rounding) (weights : Weight → Nat) (g : Ranges) (r : Record Rat) (o : Original) :
    o.handlerTest R weights g r =
      { parts R weights g r { o with collect := .fin 0, count := 0 } with
        total := Val.add R (parts R weights g r { o with collect := .fin 0, count := 0 }).total
          (Val.div R (parts R weights g r { o with collect := .fin 0, count := 0 }).collect
            (Val.ofNat R (parts R weights g r { o with collect := .fin 0, count := 0 }).count))
        tests := (parts R weights g r { o with collect := .fin 0, count := 0 }).tests + 1 } := rfl

theorem part_eq (R : Rounding) (W : Nat) (len diff : Val) (o : Original) : o.part R W len diff =
    { o with collect := if len.isPos then Val.add R o.collect (Val.div R (Val.mul R (Val.mul R (Val.ofNat R W) (.fin 100)) diff) len) else o.collect
             count := o.count + if len.isPos then W else 0 } := by
  unfold Original.part
  split_ifs <;> rfl

/-- What is collected for a test. -/
def collected (R : Rounding) (weights : Weight → Nat) (g : Ranges) (r : Record Rat) : Val :=
  all.foldl (fun c w => if counts R g w then Val.add R c (origTerm R g r w (weights w)) else c) (.fin 0)

theorem parts_eq (R : Rounding) (weights : Weight → Nat) (g : Ranges) (r : Record Rat) (o : Original) :
    parts R weights g r { o with collect := .fin 0, count := 0 } =
      { o with collect := collected R weights g r, count := countedWeights R weights g } := by
  unfold parts
  rw [part_eq, part_eq, part_eq]
  simp only [collected, countedWeights, all, List.foldl_cons, List.foldl_nil, Nat.zero_add]
  rfl

/-- The score in a test, by the original calculation. -/
def inTestO (R : Rounding) (weights : Weight → Nat) (g : Ranges) (r : Record Rat) : Val :=
  Val.div R (collected R weights g r) (Val.ofNat R (countedWeights R weights g))

theorem handlerTest_eq (R : Rounding) (weights : Weight → Nat) (g : Ranges) (r : Record Rat) (o : Original) :
    o.handlerTest R weights g r =
      { collect := collected R weights g r, count := countedWeights R weights g, total := Val.add R o.total (inTestO R weights g r), tests := o.tests + 1 } := by
  rw [handlerTest_parts, parts_eq]
  rfl

theorem handlerTests_eq (R : Rounding) (weights : Weight → Nat) (rng : Bytes → Ranges) : ∀ (es : List (Bytes × Record Rat)) (o : Original),
    (es.foldl (fun o e => o.handlerTest R weights (rng e.1) e.2) o).total = es.foldl (fun t e => Val.add R t (inTestO R weights (rng e.1) e.2)) o.total ∧
    (es.foldl (fun o e => o.handlerTest R weights (rng e.1) e.2) o).tests = o.tests + es.length
  | [], _ => ⟨rfl, rfl⟩
  | e :: es, o => by
    obtain ⟨a, b⟩ := handlerTests_eq R weights rng es (o.handlerTest R weights (rng e.1) e.2)
    simp only [List.foldl_cons, a, b, List.length_cons]
    rw [handlerTest_eq]
    exact ⟨rfl, by simp only; omega⟩

theorem testSum_count (R : Rounding) (weights : Weight → Nat) (g : Ranges) (r : Record Rat) :
    (testSum R weights g r).count = countedWeights R weights g := by
  unfold testSum countedWeights
  simp only [weightOrder, List.foldl_cons, List.foldl_nil]
  split_ifs <;> simp [Average.addMultiple] <;> omega

section
variable (s : Setting) {best worst : Bytes → Weight → Rat} (L : Limits s.ds best worst)
include L

theorem near_origTerm {h t : Bytes} {d : Data Rat} (hl : lastFor s.ds h t = some d) (w : Weight) (hlt : best t w < worst t w) (W : Nat) (hW : W ≤ 2 ^ 53) :
    Near s.R 4 (W * position best worst (last s.ds h) t w) (origTerm s.R (s.rng t) (partRecord s.fl d) w W) := by
  have ex : last s.ds h t w = BenchScore.measure d w := by unfold last; rw [hl]
  obtain ⟨hb, hw, _⟩ := L h t d w hl
  have hmem : ∀ r ∈ s.records t, ∃ d' ∈ s.ds, r = fullRecord s.fl d' := by
    intro r hr
    obtain ⟨h', d', e', rfl⟩ := (mem_records s t r).1 hr
    exact ⟨d', (lastFor_mem e').1, rfl⟩
  have hU : ∀ {lo hi m : Nat}, lo < hi → m ≤ hi → hi ≤ 2 ^ 53 → Near s.R 4 (W * (100 * ((hi : Rat) - m) / (hi - lo)))
      (Val.div s.R (Val.mul s.R (Val.mul s.R (Val.ofNat s.R W) (.fin 100)) (Val.ofNat s.R (usub hi m))) (RangeU.length s.R ⟨lo, hi⟩)) := by
    intro lo hi m h1 h2 h3
    have e1 : usub hi m = hi - m := by unfold usub; omega
    have e2 : (hi + 2 ^ 64 - lo) % 2 ^ 64 = hi - lo := by omega
    have e3 : Val.ofNat s.R (usub hi m) = .fin ((hi : Rat) - m) := by
      rw [e1]; simp only [Val.ofNat, s.R.nat _ (show hi - m ≤ 2 ^ 53 by omega)]; rw [Nat.cast_sub h2]
    have e4 : RangeU.length s.R ⟨lo, hi⟩ = .fin ((hi : Rat) - lo) := by
      simp only [RangeU.length, e2, Val.ofNat, s.R.nat _ (show hi - lo ≤ 2 ^ 53 by omega)]; rw [Nat.cast_sub h1.le]
    rw [e3, e4]
    have q1 : (lo : Rat) < hi := by exact_mod_cast h1
    have q2 : (m : Rat) ≤ hi := by exact_mod_cast h2
    exact near_term s.R hW q1 q2 (mul_le_of_le_one_right (by linarith) s.R.d_le) (le_mul_of_one_le_right (by linarith) s.R.p_ge)
      (mul_le_of_le_one_right (by linarith) s.R.d_le) (le_mul_of_one_le_right (by linarith) s.R.p_ge)
  unfold position
  rw [ex]
  unfold origTerm Setting.rng
  rw [ranges_eq]
  cases w with
  | nanoseconds =>
    obtain ⟨lo, hi, hs, h1, h2⟩ := spread_of s L Record.nanosPerOp id (fun _ _ => Iff.rfl) .nanoseconds (fun _ => rfl) hl hlt
    have hm : ∀ m ∈ (s.records t).map Record.nanosPerOp, 0 ≤ m ∧ m ≤ maxFloat := by
      intro m hm
      obtain ⟨r, hr, rfl⟩ := List.mem_map.1 hm
      obtain ⟨d', hd', rfl⟩ := hmem r hr
      exact s.nanos d' hd'
    rw [← h2] at hw
    rw [← h1, ← h2]
    have hlen : 0 ≤ hi - lo := by linarith [hs.lt]
    have hdif : 0 ≤ hi - d.nsOps := sub_nonneg.2 hw
    rw [rangeF_spread hm hs]
    have h3 : origDiff s.R ⟨⟨lo, hi⟩, rangeU ((s.records t).map Record.memAllocsPerOp), rangeU ((s.records t).map Record.memBytesPerOp)⟩
        (partRecord s.fl d) .nanoseconds = .fin (s.R.rnd (hi - d.nsOps)) := by
      simp [origDiff, Val.sub, Val.add, Val.neg, sub_eq_add_neg, partRecord]
    have h4 : Ranges.length s.R ⟨⟨lo, hi⟩, rangeU ((s.records t).map Record.memAllocsPerOp), rangeU ((s.records t).map Record.memBytesPerOp)⟩
        .nanoseconds = .fin (s.R.rnd (hi - lo)) := by
      simp [Ranges.length, RangeF.length, Val.sub, Val.add, Val.neg, sub_eq_add_neg]
    rw [h3, h4]
    exact near_term s.R hW hs.lt hw (s.R.ge_down hdif) (s.R.le_up hdif) (s.R.ge_down hlen) (s.R.le_up hlen)
  | allocBytes =>
    obtain ⟨lo, hi, hs, h1, h2⟩ := spread_of s L Record.memBytesPerOp (fun n => (n : Rat)) (fun _ _ => Nat.cast_le) .allocBytes (fun _ => rfl) hl hlt
    have hm : ∀ m ∈ (s.records t).map Record.memBytesPerOp, m ≤ 2 ^ 53 := by
      intro m hm
      obtain ⟨r, hr, rfl⟩ := List.mem_map.1 hm
      obtain ⟨d', hd', rfl⟩ := hmem r hr
      exact s.bytes d' hd'
    rw [← h2] at hw
    rw [← h1, ← h2]
    rw [rangeU_spread (fun m h => (hm m h).trans_lt (by norm_num)) hs]
    exact hU hs.lt (by simpa [BenchScore.measure] using hw) (hm _ hs.hi_mem)
  | allocations =>
    obtain ⟨lo, hi, hs, h1, h2⟩ := spread_of s L Record.memAllocsPerOp (fun n => (n : Rat)) (fun _ _ => Nat.cast_le) .allocations (fun _ => rfl) hl hlt
    have hm : ∀ m ∈ (s.records t).map Record.memAllocsPerOp, m ≤ 2 ^ 53 := by
      intro m hm
      obtain ⟨r, hr, rfl⟩ := List.mem_map.1 hm
      obtain ⟨d', hd', rfl⟩ := hmem r hr
      exact s.allocs d' hd'
    rw [← h2] at hw
    rw [← h1, ← h2]
    rw [rangeU_spread (fun m h => (hm m h).trans_lt (by norm_num)) hs]
    exact hU hs.lt (by simpa [BenchScore.measure] using hw) (hm _ hs.hi_mem)

theorem near_collected {h t : Bytes} {d : Data Rat} (hl : lastFor s.ds h t = some d) :
    Near s.R 7 ((all.filter fun w => decide (best t w < worst t w)).map fun w => (s.o.weights w : Rat) * position best worst (last s.ds h) t w).sum
      (collected s.R s.o.weights (s.rng t) (partRecord s.fl d)) ∧
    countedWeights s.R s.o.weights (s.rng t) = ((all.filter fun w => decide (best t w < worst t w)).map s.o.weights).sum := by
  have hc : ∀ w, counts s.R (s.rng t) w = decide (best t w < worst t w) := fun w => by
    rw [Bool.eq_iff_iff, counts_limits s L hl w, decide_eq_true_iff]
  have e : collected s.R s.o.weights (s.rng t) (partRecord s.fl d) =
      (all.filter fun w => decide (best t w < worst t w)).foldl (fun c w => Val.add s.R c (origTerm s.R (s.rng t) (partRecord s.fl d) w (s.o.weights w))) (.fin 0) := by
    unfold collected
    rw [List.foldl_filter]
    simp only [hc, decide_eq_true_eq]
  have h0 : ∀ l : List Weight, 0 ≤ (l.map fun w => (s.o.weights w : Rat) * position best worst (last s.ds h) t w).sum := by
    intro l
    refine List.sum_nonneg fun x hx => ?_
    obtain ⟨w, _, rfl⟩ := List.mem_map.1 hx
    exact mul_nonneg (by positivity) (position_nonneg s L hl w)
  constructor
  · rw [e]
    have hn := near_sum (R := s.R) (fun w => (s.o.weights w : Rat) * position best worst (last s.ds h) t w)
      (fun w => origTerm s.R (s.rng t) (partRecord s.fl d) w (s.o.weights w)) (k := 4) (all.filter fun w => decide (best t w < worst t w)) 4 0 (.fin 0) (by
        intro w hw
        exact ⟨mul_nonneg (by positivity) (position_nonneg s L hl w), near_origTerm s L hl w (of_decide_eq_true (List.mem_filter.1 hw).2) _ (by have := s.weights; cases w <;> omega)⟩) (le_refl _) (le_refl _) (near_zero _ _)
    rw [zero_add] at hn
    refine Near.weaken (h0 _) hn ?_
    have : (all.filter fun w => decide (best t w < worst t w)).length ≤ 3 := List.length_filter_le _ _
    omega
  · unfold countedWeights
    simp only [hc, all, List.filter_cons, List.filter_nil]
    split_ifs <;> (simp; try omega)

/-- The original score in a test is near the formula, or no number. -/
theorem near_inTestO {h t : Bytes} {d : Data Rat} (hl : lastFor s.ds h t = some d) :
    ((∃ w, Distinguishes s.ds t w ∧ 0 < s.o.weights w) →
      Near s.R 8 (inTest s.o.weights best worst (last s.ds h) t) (inTestO s.R s.o.weights (s.rng t) (partRecord s.fl d))) ∧
    ((¬ ∃ w, Distinguishes s.ds t w ∧ 0 < s.o.weights w) → inTestO s.R s.o.weights (s.rng t) (partRecord s.fl d) = .nan) := by
  obtain ⟨hn, hcw⟩ := near_collected s L hl
  have h0 : 0 ≤ ((all.filter fun w => decide (best t w < worst t w)).map fun w => (s.o.weights w : Rat) * position best worst (last s.ds h) t w).sum := by
    refine List.sum_nonneg fun x hx => ?_
    obtain ⟨w, _, rfl⟩ := List.mem_map.1 hx
    exact mul_nonneg (by positivity) (position_nonneg s L hl w)
  have hpos := countedWeights_pos s.R s.o.weights s.rng (t, partRecord s.fl d)
  have hsays : Says s.R s.o.weights s.rng (t, partRecord s.fl d) ↔ ∃ w, Distinguishes s.ds t w ∧ 0 < s.o.weights w := by
    unfold Says
    exact exists_congr fun w => and_congr_left fun _ => (facts_of s hl w).1
  rw [hsays] at hpos
  constructor
  · intro hs
    have := near_div h0 hn (hpos.2 hs) ((countedWeights_le _ _ _).trans s.weights)
    unfold inTestO inTest weighted
    rw [List.map_map, List.map_map]
    refine (congrArg (fun x => Near s.R 8 x _) ?_).mp this
    rw [hcw, cast_sum, List.map_map]
    rfl
  · intro hs
    have hz : countedWeights s.R s.o.weights (s.rng t) = 0 := by
      have := mt hpos.1 hs
      simp only at this
      omega
    have hsum : ((all.filter fun w => decide (best t w < worst t w)).map fun w => (s.o.weights w : Rat) * position best worst (last s.ds h) t w).sum = 0 := by
      refine List.sum_eq_zero fun x hx => ?_
      obtain ⟨w, hw, rfl⟩ := List.mem_map.1 hx
      rw [hcw, List.sum_eq_zero_iff] at hz
      rw [hz _ (List.mem_map_of_mem hw)]
      simp
    rw [hsum] at hn
    obtain ⟨q, eq, a, b⟩ := hn
    simp only [zero_mul] at a b
    have : q = 0 := le_antisymm b a
    subst this
    unfold inTestO
    rw [eq, hz]
    simp [Val.div, Val.ofNat, s.R.zero]

end

/-! ### Comparisons of numbers -/

theorem ieee_u : ieee.u ≤ 1 / 2 ^ 40 := by
  show (1 : Rat) / 2 ^ 53 ≤ 1 / 2 ^ 40
  norm_num

theorem percent_nan (R : Rounding) (v : Val) : percentEqual R .nan v = false ∧ percentEqual R v .nan = false := by
  cases v <;> exact ⟨rfl, rfl⟩

theorem close_nonneg {x : Rat} {v : Val} (h : Close x v) : 0 ≤ x := by
  obtain ⟨q, _, a⟩ := h
  have := abs_nonneg (q - x)
  linarith

theorem close_near {x q : Rat} (h : |q - x| ≤ x / 1000000000) : WarnCheck.Near x q := by
  have := abs_le.1 h
  constructor <;> linarith

/-- Two values close to a number are equal, as far as is checked. -/
theorem percent_close {x : Rat} {v w : Val} (hv : Close x v) (hw : Close x w) : percentEqual ieee v w = true := by
  have h0 := close_nonneg hv
  obtain ⟨a, rfl, ha⟩ := hv
  obtain ⟨b, rfl, hb⟩ := hw
  refine (WarnCheck.percent_near ieee_u (close_near ha) (close_near hb) h0 h0).1 ?_
  rw [sub_self, abs_zero]
  linarith

/-- What is made of a value by rounding it to nine digits. -/
theorem round_near {x : Rat} {v : Val} (hv : Close x v) :
    ∃ r, v.round ieee = .fin r ∧ 0 ≤ r ∧ |r - x| ≤ x / 200000000 + 51 / 100000000000 := by
  have h0 := close_nonneg hv
  obtain ⟨T, rfl, hT⟩ := hv
  obtain ⟨t1, t2⟩ := abs_le.1 hT
  have hT0 : 0 ≤ T := by linarith
  obtain ⟨a1, a2⟩ := WarnCheck.rnd_near ieee_u (x := T * 1000000000) (by positivity)
  obtain ⟨q, hq⟩ : ∃ q, q = ieee.rnd (T * 1000000000) := ⟨_, rfl⟩
  rw [← hq] at a1 a2
  have q0 : 0 ≤ q := le_trans (by positivity) a1
  have b1 := roundAway_le q0
  have b2 := roundAway_ge q0
  have b0 : (0 : Rat) ≤ roundAway q := by exact_mod_cast roundAway_nonneg q0
  obtain ⟨c1, c2⟩ := WarnCheck.rnd_near ieee_u b0
  obtain ⟨y, hy⟩ : ∃ y, y = ieee.rnd (roundAway q) := ⟨_, rfl⟩
  rw [← hy] at c1 c2
  have y0 : 0 ≤ y := le_trans (by positivity) c1
  obtain ⟨d1, d2⟩ := WarnCheck.rnd_near ieee_u (x := y / 1000000000) (by positivity)
  refine ⟨ieee.rnd (y / 1000000000), ?_, ieee.nonneg (by positivity), ?_⟩
  · simp only [Val.round, Val.mul, Val.div, ← hq, ← hy]
    rw [if_neg (by norm_num)]
  · generalize ieee.rnd (y / 1000000000) = r at d1 d2 ⊢
    generalize (roundAway q : Rat) = n at *
    rw [abs_le]
    constructor <;> linarith

/-- Rounding to nine digits is not seen in what is checked, but for numbers that are very small. -/
theorem percent_round {x : Rat} {v w : Val} (hv : Close x v) (hw : Close x w) (hx : x = 0 ∨ 1 / 40000000 ≤ x) :
    percentEqual ieee (v.round ieee) w = true := by
  have h0 := close_nonneg hv
  obtain ⟨r, er, r0, hr⟩ := round_near hv
  rcases hx with rfl | hx
  · obtain ⟨a, rfl, ha⟩ := hv
    obtain ⟨b, rfl, hb⟩ := hw
    have a0 : a = 0 := by simpa using ha
    have b0 : b = 0 := by simpa using hb
    subst a0 b0
    have e : roundAway 0 = 0 := by decide +kernel
    have : Val.round ieee (.fin 0) = .fin 0 := by
      simp only [Val.round, Val.mul, Val.div, zero_mul, ieee.zero, e, Int.cast_zero, zero_div]
      rw [if_neg (by norm_num)]
    rw [this]
    exact (WarnCheck.percent_near ieee_u (P := 0) (M := 0) ⟨by simp, by simp⟩ ⟨by simp, by simp⟩ le_rfl le_rfl).1 (by simp)
  · obtain ⟨b, rfl, hb⟩ := hw
    rw [er]
    refine (WarnCheck.percent_near ieee_u (P := r) (M := x) ⟨by linarith, by linarith⟩ (close_near hb) r0 h0).1 ?_
    have h1 := abs_le.1 hr
    have h2 : |r - x| ≤ x * (3 / 125) := hr.trans (by linarith)
    have h3 := abs_le.1 h2
    linarith

/-- Numbers that are very small are 0 after rounding, which is seen. -/
theorem percent_small {x : Rat} {v w : Val} (hv : Close x v) (hw : Close x w) (h1 : 0 < x) (h2 : x ≤ 4 / 10000000000) :
    v.round ieee = .fin 0 ∧ percentEqual ieee (v.round ieee) w = false := by
  have er : v.round ieee = .fin 0 := by
    obtain ⟨T, rfl, hT⟩ := hv
    obtain ⟨t1, t2⟩ := abs_le.1 hT
    have hT0 : 0 ≤ T := by linarith
    obtain ⟨a1, a2⟩ := WarnCheck.rnd_near ieee_u (x := T * 1000000000) (by positivity)
    have q0 : 0 ≤ ieee.rnd (T * 1000000000) := le_trans (by positivity) a1
    have hq : ieee.rnd (T * 1000000000) < 1 / 2 := by linarith
    have e : roundAway (ieee.rnd (T * 1000000000)) = 0 := by
      unfold roundAway
      rw [if_pos q0, Int.floor_eq_iff]
      constructor
      · simp only [Int.cast_zero]; linarith
      · simp only [Int.cast_zero]; linarith
    simp only [Val.round, Val.mul, Val.div, e, Int.cast_zero, ieee.zero, zero_div]
    rw [if_neg (by norm_num)]
  refine ⟨er, ?_⟩
  obtain ⟨b, rfl, hb⟩ := hw
  rw [er]
  refine (WarnCheck.percent_near ieee_u (P := 0) (M := x) ⟨by simp, by simp⟩ (close_near hb) le_rfl h1.le).2 h1.ne ?_
  rw [zero_sub, abs_neg, abs_of_pos h1]
  linarith

/-! ### What is logged for a handler -/

/-- What is logged changes nothing in what is calculated. -/
theorem testLogs_state (R : Rounding) (weights : Weight → Nat) (tags : Map Bytes Bool) (ranges original : Map Bytes Ranges) :
    ∀ (es : List (Bytes × Record Rat)) (hd : HandlerData) (o : Original),
    (testLogs R weights tags ranges original es hd o).map Prod.snd = es.foldl (oneTest R weights tags ranges original) (some (hd, o))
  | [], _, _ => rfl
  | e :: es, hd, o => by
    rw [List.foldl_cons, testLogs]
    cases h : oneTest R weights tags ranges original (some (hd, o)) e with
    | none =>
      have : ∀ l : List (Bytes × Record Rat), l.foldl (oneTest R weights tags ranges original) none = none := by
        intro l
        induction l with
        | nil => rfl
        | cons a l ih => exact ih
      rw [this]; rfl
    | some x =>
      obtain ⟨hd1, o1⟩ := x
      rw [← testLogs_state R weights tags ranges original es hd1 o1]
      simp only
      cases testLogs R weights tags ranges original es hd1 o1 <;> rfl

/-- What is logged for a test. -/
def testCheck (R : Rounding) (weights : Weight → Nat) (g : Ranges) (r : Record Rat) : List BenchLog :=
  checkTest R { collect := collected R weights g r, count := countedWeights R weights g } (testSum R weights g r)

theorem testLogs_eq (R : Rounding) (weights : Weight → Nat) (tags : Map Bytes Bool) (ranges original : Map Bytes Ranges) (rng : Bytes → Ranges) :
    ∀ (es : List (Bytes × Record Rat)) (hd : HandlerData) (o : Original), (es.map Prod.fst).Nodup →
    (∀ e ∈ es, isTrue tags e.1 = true → ranges.get e.1 = some (rng e.1) ∧ original.get e.1 = some (rng e.1)) → (∀ e ∈ es, hd.test e.1 = {}) →
    ∃ hd', testLogs R weights tags ranges original es hd o =
        some ((es.filter fun e => isTrue tags e.1).flatMap (fun e => testCheck R weights (rng e.1) e.2), hd',
          (es.filter fun e => isTrue tags e.1).foldl (fun o e => o.handlerTest R weights (rng e.1) e.2) o) ∧
      hd'.overTests = (es.filter fun e => isTrue tags e.1).foldl (fun a e => a.add R ((testSum R weights (rng e.1) e.2).average R)) hd.overTests := by
  intro es
  induction es with
  | nil => intro hd o _ _ _; exact ⟨hd, rfl, rfl⟩
  | cons e es ih =>
    intro hd o hn hr hf
    rw [List.map_cons, List.nodup_cons] at hn
    have hne : ∀ e' ∈ es, e'.1 ≠ e.1 := fun e' he' h => hn.1 (h ▸ List.mem_map_of_mem he')
    obtain ⟨hd1, q1, q2, _, _, q5, q6⟩ := tests_fold R weights tags ranges original rng [e] hd o (by simp)
      (fun e' he' => hr e' (by simp only [List.mem_singleton] at he'; simp [he'])) (fun e' he' => hf e' (by simp only [List.mem_singleton] at he'; simp [he']))
    rw [List.foldl_cons, List.foldl_nil] at q1
    obtain ⟨hd', r1, r2⟩ := ih hd1 (([e].filter fun e => isTrue tags e.1).foldl (fun o e => o.handlerTest R weights (rng e.1) e.2) o) hn.2
      (fun e' he' h => hr e' (by simp [he']) h) (fun e' he' => by
        rw [q5 e'.1 (by intro x hx; simp only [List.mem_singleton] at hx; subst hx; exact (hne e' he').symm)]
        exact hf e' (by simp [he']))
    refine ⟨hd', ?_, ?_⟩
    · simp only [testLogs, q1, r1]
      by_cases ht : isTrue tags e.1 = true
      · have h6 := q6 e (by simp) ht
        simp only [List.filter_cons, ht, if_true, List.filter_nil, List.foldl_cons, List.foldl_nil, List.flatMap_cons, h6]
        refine congrArg some (congrArg₂ Prod.mk (congrArg (· ++ _) ?_) rfl)
        rw [handlerTest_eq]
        rfl
      · simp only [List.filter_cons, ht, if_false, List.filter_nil, List.foldl_nil, List.nil_append, Bool.false_eq_true]
    · rw [r2, q2]
      by_cases ht : isTrue tags e.1 = true
      · simp only [List.filter_cons, ht, if_true, List.filter_nil, List.foldl_cons, List.foldl_nil]
      · simp only [List.filter_cons, ht, if_false, List.filter_nil, List.foldl_nil, Bool.false_eq_true]

theorem overTests_value (R : Rounding) (f : Bytes × Record Rat → Val) : ∀ (es : List (Bytes × Record Rat)) (a : Average),
    es.foldl (fun a e => a.add R (f e)) a = ⟨es.foldl (fun t e => Val.add R t (f e)) a.value, a.count + es.length⟩
  | [], _ => rfl
  | e :: es, a => by
    rw [List.foldl_cons, overTests_value R f es]
    simp only [Average.add, List.foldl_cons, List.length_cons]
    rw [show a.count + 1 + es.length = a.count + (es.length + 1) by omega]

theorem fold_nan (R : Rounding) {α : Type} (f : α → Val) : ∀ (es : List α) (t : Val), (t = .nan ∨ ∃ e ∈ es, f e = .nan) →
    es.foldl (fun t e => Val.add R t (f e)) t = .nan
  | [], t, h => by simpa using h
  | e :: es, t, h => by
    rw [List.foldl_cons]
    refine fold_nan R f es _ ?_
    rcases h with rfl | ⟨x, hx, h⟩
    · exact .inl (add_nan_left R _)
    · rcases List.mem_cons.1 hx with rfl | hx
      · exact .inl (by rw [h]; exact add_nan_right R _)
      · exact .inr ⟨x, hx, h⟩

/-- What `Setup` logs. -/
def Setting.logs (s : Setting) (pickR : List Bytes → List Bytes) (int : Nat → Bytes) (float : Rat → Bytes) :
    Option (List (Bytes × Weight)) × List (Bytes × Option (List BenchLog)) :=
  benchLogs s.R s.S s.pick pickR int float s.o s.ordT s.ordT' s.ordH (readAll s.E s.fl s.texts)

theorem checkRanges_none (int : Nat → Bytes) (float : Rat → Bytes) (tags : Map Bytes Bool) (ranges original : Map Bytes Ranges) :
    ∀ ts : List Bytes, (∀ t ∈ ts, isTrue tags t = true → ∃ g, ranges.get t = some g ∧ original.get t = some g) →
    checkRanges int float tags ranges original ts = some []
  | [], _ => rfl
  | t :: ts, h => by
    rw [checkRanges, checkRanges_none int float tags ranges original ts fun x hx => h x (by simp [hx])]
    by_cases ht : isTrue tags t = true
    · obtain ⟨g, a, b⟩ := h t (by simp) ht
      simp only [ht, if_true, a, b, ne_eq, not_true_eq_false, decide_false, List.filter_false, List.map_nil, List.nil_append]
    · simp only [ht, if_false, Bool.false_eq_true]

/-- What is logged, in terms of the tests of handlers. -/
theorem logs_eq (s : Setting) {pickR : List Bytes → List Bytes} (hp : ∀ l, (pickR l).Perm l) (int : Nat → Bytes) (float : Rat → Bytes) :
    (Setting.logs s pickR int float).1 = some [] ∧
    (∀ h, (∃ l, (h, l) ∈ (Setting.logs s pickR int float).2) ↔ ∃ d ∈ s.ds, d.handler = h) ∧
    ∀ h l, (h, l) ∈ (Setting.logs s pickR int float).2 → ∃ es : List (Bytes × Record Rat),
      (∀ t r, (t, r) ∈ es ↔ (∃ d, lastFor s.ds h t = some d ∧ r = partRecord s.fl d) ∧ Included s.o t) ∧
      es.length ≤ s.ds.length ∧ (es.map Prod.fst).Nodup ∧
      l = some (es.flatMap (fun e => testCheck s.R s.o.weights (s.rng e.1) e.2) ++
        checkTotal s.R { total := es.foldl (fun t e => Val.add s.R t (inTestO s.R s.o.weights (s.rng e.1) e.2)) (.fin 0), tests := es.length }
          ⟨es.foldl (fun t e => Val.add s.R t ((testSum s.R s.o.weights (s.rng e.1) e.2).average s.R)) (.fin 0), es.length⟩) := by
  obtain ⟨⟨hH, hHn, _⟩, ⟨hT, _, _⟩⟩ := C37_tags s.E s.fl s.S s.pick s.pick_perm s.texts s.ds s.read _ rfl
  obtain ⟨tests, eT⟩ : ∃ l, l = ((readAll s.E s.fl s.texts).testTags s.S s.pick).2 := ⟨_, rfl⟩
  obtain ⟨handlers, eH⟩ : ∃ l, l = ((readAll s.E s.fl s.texts).handlerTags s.S s.pick).2 := ⟨_, rfl⟩
  obtain ⟨tags, eG⟩ : ∃ g, g = testTagMap s.o.includes s.o.excludes tests := ⟨_, rfl⟩
  rw [← eT] at hT
  rw [← eH] at hH hHn
  have hInc : ∀ h t d, lastFor s.ds h t = some d → (isTrue tags t = true ↔ Included s.o t) := by
    intro h t d hl
    have hd := lastFor_mem hl
    rw [eG, isTrue_tags]
    unfold Included
    refine and_congr_left fun _ => ?_
    cases hi : s.o.includes with
    | none => simp; exact (hT t).2 ⟨d, hd.1, hd.2.2⟩
    | some l => simp
  have hG : ∀ t, isTrue tags t = true →
      (makeRanges Ranges.add s.ordT (readAll s.E s.fl s.texts) tags tests).get t = (if t ∈ tests then some (s.rng t) else none) ∧
      (makeRanges Ranges.addOriginal s.ordT' (readAll s.E s.fl s.texts) tags tests).get t = (if t ∈ tests then some (s.rng t) else none) := by
    intro t ht
    have hr : s.rng t = (s.ordT t ((readAll s.E s.fl s.texts).handlerRecordsFor t)).foldl (fun r e => Ranges.add r e.2) {} := by
      unfold Setting.rng Setting.records
      rw [List.foldl_map]
    constructor
    · unfold makeRanges
      rw [makeRanges_get _ _ _ _ _ ht, hr]; rfl
    · unfold makeRanges
      rw [makeRanges_get _ _ _ _ _ ht, hr]
      have : (fun (r : Ranges) (e : Bytes × Record Rat) => Ranges.addOriginal r e.2) = fun r e => Ranges.add r e.2 := by
        funext r e; exact addOriginal_eq r e.2
      rw [this]
      have h2 := ranges_perm ((s.ordT'_perm t ((readAll s.E s.fl s.texts).handlerRecordsFor t)).trans (s.ordT_perm t _).symm) {}
      by_cases hm : t ∈ tests
      · rw [if_pos hm, if_pos hm]; exact congrArg some h2
      · rw [if_neg hm, if_neg hm]; rfl
  have eL : Setting.logs s pickR int float =
      (checkRanges int float tags (makeRanges Ranges.add s.ordT (readAll s.E s.fl s.texts) tags tests)
        (makeRanges Ranges.addOriginal s.ordT' (readAll s.E s.fl s.texts) tags tests)
        (pickR (makeRanges Ranges.add s.ordT (readAll s.E s.fl s.texts) tags tests).keys),
      handlers.map fun h => (h, handlerLogs s.R s.o.weights tags (makeRanges Ranges.add s.ordT (readAll s.E s.fl s.texts) tags tests)
        (makeRanges Ranges.addOriginal s.ordT' (readAll s.E s.fl s.texts) tags tests) (s.entries h))) := by
    rw [eG, eT, eH]; rfl
  rw [eL]
  refine ⟨?_, ?_, ?_⟩
  · refine checkRanges_none int float tags _ _ _ ?_
    intro t hm ht
    rw [(hp _).mem_iff, Map.mem_keys] at hm
    obtain ⟨a, b⟩ := hG t ht
    by_cases hc : t ∈ tests
    · exact ⟨s.rng t, by rw [a, if_pos hc], by rw [b, if_pos hc]⟩
    · rw [a, if_neg hc] at hm; simp at hm
  · intro h
    rw [← hH h]
    simp only [List.mem_map, Prod.mk.injEq]
    exact ⟨fun ⟨_, x, a, b, _⟩ => b ▸ a, fun a => ⟨_, h, a, rfl, rfl⟩⟩
  · intro h l hl
    simp only [List.mem_map, Prod.mk.injEq] at hl
    obtain ⟨h', _, e1, rfl⟩ := hl
    subst e1
    rename' h' => h
    obtain ⟨hd', q1, q2⟩ := testLogs_eq s.R s.o.weights tags (makeRanges Ranges.add s.ordT (readAll s.E s.fl s.texts) tags tests)
      (makeRanges Ranges.addOriginal s.ordT' (readAll s.E s.fl s.texts) tags tests) s.rng (s.entries h) {} {} (entries_nodup s h) (by
        intro e he ht
        obtain ⟨d, hl, _⟩ := (mem_entries s h e.1 e.2).1 he
        have hd := lastFor_mem hl
        have hmem : e.1 ∈ tests := (hT e.1).2 ⟨d, hd.1, hd.2.2⟩
        obtain ⟨a, b⟩ := hG e.1 ht
        exact ⟨by rw [a, if_pos hmem], by rw [b, if_pos hmem]⟩) (fun _ _ => rfl)
    refine ⟨(s.entries h).filter fun e => isTrue tags e.1, ?_, (List.length_filter_le _ _).trans (entries_length s h), ?_, ?_⟩
    · intro t r
      rw [List.mem_filter, mem_entries]
      constructor
      · rintro ⟨⟨d, hl, e⟩, ht⟩
        exact ⟨⟨d, hl, e⟩, (hInc h t d hl).1 ht⟩
      · rintro ⟨⟨d, hl, e⟩, ht⟩
        exact ⟨⟨d, hl, e⟩, (hInc h t d hl).2 ht⟩
    · exact (entries_nodup s h).sublist (List.filter_sublist.map _)
    · unfold handlerLogs
      rw [q1]
      simp only
      obtain ⟨a, b⟩ := handlerTests_eq s.R s.o.weights s.rng ((s.entries h).filter fun e => isTrue tags e.1) {}
      rw [q2, overTests_value]
      simp only [checkTotal, a, b]
      simp only [Nat.zero_add]

/-! ### C97 -/

/-- A test of the handler that says nothing: no measure with weight tells handlers apart. -/
def Mute (s : Setting) (h t : Bytes) : Prop := Ran s.o s.ds h t ∧ ¬ ∃ w, Distinguishes s.ds t w ∧ 0 < s.o.weights w

theorem says_iff (s : Setting) {h t : Bytes} {d : Data Rat} (hl : lastFor s.ds h t = some d) :
    Says s.R s.o.weights s.rng (t, partRecord s.fl d) ↔ ∃ w, Distinguishes s.ds t w ∧ 0 < s.o.weights w := by
  unfold Says
  exact exists_congr fun w => and_congr_left fun _ => (facts_of s hl w).1

/-- The average of a test that says nothing. -/
theorem mute_average (s : Setting) {h t : Bytes} {d : Data Rat} (hl : lastFor s.ds h t = some d)
    (hs : ¬ ∃ w, Distinguishes s.ds t w ∧ 0 < s.o.weights w) : (testSum s.R s.o.weights (s.rng t) (partRecord s.fl d)).average s.R = .nan := by
  have h0 : countedWeights s.R s.o.weights (s.rng t) = 0 := by
    have := mt ((countedWeights_pos s.R s.o.weights s.rng (t, partRecord s.fl d)).trans (says_iff s hl)).1 hs
    simp only at this
    omega
  unfold Average.average
  rw [testSum_count, h0]
  rfl

theorem testCheck_eq (s : Setting) (hR : s.R = ieee) {h t : Bytes} {d : Data Rat} (hl : lastFor s.ds h t = some d) :
    ((∃ w, Distinguishes s.ds t w ∧ 0 < s.o.weights w) → testCheck s.R s.o.weights (s.rng t) (partRecord s.fl d) = []) ∧
    ((¬ ∃ w, Distinguishes s.ds t w ∧ 0 < s.o.weights w) → testCheck s.R s.o.weights (s.rng t) (partRecord s.fl d) = [.collect .nan .nan]) := by
  obtain ⟨best, worst, L⟩ := C91_limits s.ds
  obtain ⟨a, b⟩ := near_inTestO s L hl
  constructor
  · intro hs
    have h1 := a hs
    have h2 := (near_inTest s L hl hs).1
    rw [hR] at h1 h2
    have := percent_close (near_close (by norm_num) h1) (near_close (by norm_num) h2)
    unfold testCheck checkTest
    simp only
    simp only [testSum_count, ne_eq, not_true_eq_false, if_false, hR]
    unfold inTestO at this
    rw [if_pos this]
    rfl
  · intro hs
    have h1 := b hs
    have h2 := mute_average s hl hs
    unfold inTestO at h1
    unfold testCheck checkTest
    simp only
    simp only [testSum_count, ne_eq, not_true_eq_false, if_false]
    rw [h1, h2, (percent_nan _ _).1]
    rfl

section
variable (s : Setting) (hR : s.R = ieee) {best worst : Bytes → Weight → Rat} (L : Limits s.ds best worst) {h : Bytes} {es : List (Bytes × Record Rat)}
  (hes : ∀ t r, (t, r) ∈ es ↔ (∃ d, lastFor s.ds h t = some d ∧ r = partRecord s.fl d) ∧ Included s.o t) (hlen : es.length ≤ s.ds.length)
  {ts : List Bytes} (hp : (es.map Prod.fst).Perm ts)
include L hes hp

/-- Both sums over tests are near the sum. -/
theorem totals_near (hm : ∀ t, ¬ Mute s h t) :
    Near s.R (8 + es.length) (ts.map (inTest s.o.weights best worst (last s.ds h))).sum
      (es.foldl (fun t e => Val.add s.R t (inTestO s.R s.o.weights (s.rng e.1) e.2)) (.fin 0)) ∧
    Near s.R (10 + es.length) (ts.map (inTest s.o.weights best worst (last s.ds h))).sum
      (es.foldl (fun t e => Val.add s.R t ((testSum s.R s.o.weights (s.rng e.1) e.2).average s.R)) (.fin 0)) ∧
    0 ≤ (ts.map (inTest s.o.weights best worst (last s.ds h))).sum := by
  have key : ∀ e ∈ es, 0 ≤ inTest s.o.weights best worst (last s.ds h) e.1 ∧
      Near s.R 8 (inTest s.o.weights best worst (last s.ds h) e.1) (inTestO s.R s.o.weights (s.rng e.1) e.2) ∧
      Near s.R 10 (inTest s.o.weights best worst (last s.ds h) e.1) ((testSum s.R s.o.weights (s.rng e.1) e.2).average s.R) := by
    rintro ⟨t, r⟩ he
    obtain ⟨⟨d, hl, rfl⟩, hi⟩ := (hes t r).1 he
    have hs : ∃ w, Distinguishes s.ds t w ∧ 0 < s.o.weights w := by
      by_contra hc
      exact hm t ⟨⟨⟨d, hl⟩, hi⟩, hc⟩
    obtain ⟨a, b⟩ := near_inTest s L hl hs
    exact ⟨b, (near_inTestO s L hl).1 hs, a⟩
  have e1 : (ts.map (inTest s.o.weights best worst (last s.ds h))).sum = (es.map fun e => inTest s.o.weights best worst (last s.ds h) e.1).sum := by
    rw [← (hp.map _).sum_eq, List.map_map]; rfl
  have n1 := near_sum (R := s.R) (fun e : Bytes × Record Rat => inTest s.o.weights best worst (last s.ds h) e.1)
    (fun e => inTestO s.R s.o.weights (s.rng e.1) e.2) (k := 8) es 8 0 (.fin 0) (fun e he => ⟨(key e he).1, (key e he).2.1⟩) le_rfl le_rfl (near_zero _ _)
  have n2 := near_sum (R := s.R) (fun e : Bytes × Record Rat => inTest s.o.weights best worst (last s.ds h) e.1)
    (fun e => (testSum s.R s.o.weights (s.rng e.1) e.2).average s.R) (k := 10) es 10 0 (.fin 0) (fun e he => ⟨(key e he).1, (key e he).2.2⟩) le_rfl le_rfl (near_zero _ _)
  rw [zero_add] at n1 n2
  rw [e1]
  refine ⟨n1, n2, List.sum_nonneg ?_⟩
  intro x hx
  obtain ⟨e, he, rfl⟩ := List.mem_map.1 hx
  exact (key e he).1

omit L hp in
/-- With a test that says nothing both sums are no numbers. -/
theorem totals_nan {t : Bytes} (hm : Mute s h t) :
    es.foldl (fun t e => Val.add s.R t (inTestO s.R s.o.weights (s.rng e.1) e.2)) (.fin 0) = .nan ∧
    es.foldl (fun t e => Val.add s.R t ((testSum s.R s.o.weights (s.rng e.1) e.2).average s.R)) (.fin 0) = .nan := by
  obtain ⟨best, worst, L⟩ := C91_limits s.ds
  obtain ⟨⟨⟨d, hl⟩, hi⟩, hs⟩ := hm
  have he := (hes t _).2 ⟨⟨d, hl, rfl⟩, hi⟩
  exact ⟨fold_nan s.R (fun e : Bytes × Record Rat => inTestO s.R s.o.weights (s.rng e.1) e.2) es _ (.inr ⟨_, he, (near_inTestO s L hl).2 hs⟩),
    fold_nan s.R (fun e : Bytes × Record Rat => (testSum s.R s.o.weights (s.rng e.1) e.2).average s.R) es _ (.inr ⟨_, he, mute_average s hl hs⟩)⟩

end

theorem same_tests {s : Setting} {h : Bytes} {es : List (Bytes × Record Rat)}
    (hes : ∀ t r, (t, r) ∈ es ↔ (∃ d, lastFor s.ds h t = some d ∧ r = partRecord s.fl d) ∧ Included s.o t) (hn : (es.map Prod.fst).Nodup)
    {ts : List Bytes} (hts : ts.Nodup) (hm : ∀ t, t ∈ ts ↔ Ran s.o s.ds h t) : (es.map Prod.fst).Perm ts := by
  refine (List.perm_ext_iff_of_nodup hn hts).2 fun t => ?_
  rw [hm t, List.mem_map]
  constructor
  · rintro ⟨⟨t', r⟩, he, rfl⟩
    obtain ⟨⟨d, hl, _⟩, hi⟩ := (hes t' r).1 he
    exact ⟨⟨d, hl⟩, hi⟩
  · rintro ⟨⟨d, hl⟩, hi⟩
    exact ⟨(t, partRecord s.fl d), (hes t _).2 ⟨⟨d, hl, rfl⟩, hi⟩, rfl⟩

/-- C97, the comparisons: ranges never differ; what is logged for a handler is that its tests that say nothing have no score, and then that there is no total.
Otherwise nothing is logged, if the sum of the scores in tests is not very small; if it is, that the total of the original calculation is 0. What is logged for sums
between is not said. -/
theorem C97_logs_partial (s : Setting) (hR : s.R = ieee) (hfew : s.ds.length ≤ 900000) (best worst : Bytes → Weight → Rat) (L : Limits s.ds best worst)
    {pickR : List Bytes → List Bytes} (hp : ∀ l, (pickR l).Perm l) (int : Nat → Bytes) (float : Rat → Bytes) :
    (Setting.logs s pickR int float).1 = some [] ∧
    (∀ h, (∃ l, (h, l) ∈ (Setting.logs s pickR int float).2) ↔ ∃ d ∈ s.ds, d.handler = h) ∧
    ∀ h l, (h, l) ∈ (Setting.logs s pickR int float).2 → ∃ logged, l = some logged ∧
      (∀ v w, .collect v w ∈ logged ↔ v = .nan ∧ w = .nan ∧ ∃ t, Mute s h t) ∧
      (∀ v w, .count v w ∉ logged) ∧ (∀ v w, .tests v w ∉ logged) ∧
      ((∃ t, Mute s h t) → ∀ v w, .total v w ∈ logged ↔ v = .nan ∧ w = .nan) ∧
      ((∀ t, ¬ Mute s h t) → ∀ ts : List Bytes, ts.Nodup → (∀ t, t ∈ ts ↔ Ran s.o s.ds h t) →
        ((ts.map (inTest s.o.weights best worst (last s.ds h))).sum = 0 ∨ 1 / 40000000 ≤ (ts.map (inTest s.o.weights best worst (last s.ds h))).sum) →
        logged = []) ∧
      ((∀ t, ¬ Mute s h t) → ∀ ts : List Bytes, ts.Nodup → (∀ t, t ∈ ts ↔ Ran s.o s.ds h t) →
        0 < (ts.map (inTest s.o.weights best worst (last s.ds h))).sum → (ts.map (inTest s.o.weights best worst (last s.ds h))).sum ≤ 4 / 10000000000 →
        ∃ w, logged = [.total (.fin 0) w]) := by
  obtain ⟨h1, h2, h3⟩ := logs_eq s hp int float
  refine ⟨h1, h2, ?_⟩
  intro h l hl
  obtain ⟨es, hes, hlen, hn, e⟩ := h3 h l hl
  have hC : ∀ x, x ∈ es.flatMap (fun e => testCheck s.R s.o.weights (s.rng e.1) e.2) ↔ x = .collect .nan .nan ∧ ∃ t, Mute s h t := by
    intro x
    rw [List.mem_flatMap]
    constructor
    · rintro ⟨⟨t, r⟩, he, hx⟩
      obtain ⟨⟨d, hl, rfl⟩, hi⟩ := (hes t r).1 he
      obtain ⟨a, b⟩ := testCheck_eq s hR hl
      by_cases hs : ∃ w, Distinguishes s.ds t w ∧ 0 < s.o.weights w
      · rw [a hs] at hx; cases hx
      · rw [b hs, List.mem_singleton] at hx
        exact ⟨hx, t, ⟨⟨d, hl⟩, hi⟩, hs⟩
    · rintro ⟨rfl, t, ⟨⟨d, hl⟩, hi⟩, hs⟩
      exact ⟨_, (hes t _).2 ⟨⟨d, hl, rfl⟩, hi⟩, by rw [(testCheck_eq s hR hl).2 hs]; simp⟩
  obtain ⟨T, hT⟩ : ∃ T, T = es.foldl (fun t e => Val.add s.R t (inTestO s.R s.o.weights (s.rng e.1) e.2)) (.fin 0) := ⟨_, rfl⟩
  obtain ⟨U, hU⟩ : ∃ U, U = es.foldl (fun t e => Val.add s.R t ((testSum s.R s.o.weights (s.rng e.1) e.2).average s.R)) (.fin 0) := ⟨_, rfl⟩
  rw [← hT, ← hU] at e
  have eT : checkTotal s.R { total := T, tests := es.length } ⟨U, es.length⟩ =
      if percentEqual s.R (T.round s.R) U then [] else [.total (T.round s.R) U] := by
    unfold checkTotal
    simp only [ne_eq, not_true_eq_false, if_false, List.append_nil]
  rw [eT] at e
  refine ⟨_, e, ?_, ?_, ?_, ?_, ?_, ?_⟩
  · intro v w
    rw [List.mem_append, hC]
    simp only [BenchLog.collect.injEq]
    split_ifs <;> simp [and_assoc]
  · intro v w
    rw [List.mem_append, hC]
    split_ifs <;> simp
  · intro v w
    rw [List.mem_append, hC]
    split_ifs <;> simp
  · rintro ⟨t, hm⟩ v w
    obtain ⟨a, b⟩ := totals_nan s hes hm
    rw [← hT] at a
    rw [← hU] at b
    rw [List.mem_append, hC, a, b]
    have : Val.round s.R .nan = .nan := by simp [Val.round, Val.mul, Val.div]
    rw [this, (percent_nan _ _).1]
    simp
  · intro hm ts hts hmem hsum
    have n := totals_near s L hes (same_tests hes hn hts hmem) hm
    rw [← hT, ← hU, hR] at n
    obtain ⟨a, b, _⟩ := n
    rw [hR, if_pos (percent_round (near_close (by omega) a) (near_close (by omega) b) hsum), List.append_nil]
    refine List.eq_nil_iff_forall_not_mem.2 fun x hx => ?_
    rw [← hR, hC] at hx
    obtain ⟨_, t, ht⟩ := hx
    exact hm t ht
  · intro hm ts hts hmem h1 h2
    have n := totals_near s L hes (same_tests hes hn hts hmem) hm
    rw [← hT, ← hU, hR] at n
    obtain ⟨a, b, _⟩ := n
    obtain ⟨c, d⟩ := percent_small (near_close (by omega) a) (near_close (by omega) b) h1 h2
    refine ⟨U, ?_⟩
    have : es.flatMap (fun e => testCheck s.R s.o.weights (s.rng e.1) e.2) = [] := by
      refine List.eq_nil_iff_forall_not_mem.2 fun x hx => ?_
      rw [hC] at hx
      obtain ⟨_, t, ht⟩ := hx
      exact hm t ht
    rw [this, hR, d, c]
    rfl

/-- C97, the original score: it differs from the mean of the scores in tests by at most a hundred millionth of it and a billionth. -/
theorem C97_original (s : Setting) (hR : s.R = ieee) (hfew : s.ds.length ≤ 900000) (best worst : Bytes → Weight → Rat) (L : Limits s.ds best worst) :
    ∃ m, s.result = some m ∧ ∀ h hd ts, m.get h = some hd → ts.Nodup → (∀ t, t ∈ ts ↔ Ran s.o s.ds h t) → EachTest s.o s.ds h →
      ∃ q, hd.scores.original = .fin q ∧ |q - byTests s.o.weights best worst (last s.ds h) ts| ≤
        byTests s.o.weights best worst (last s.ds h) ts / 100000000 + 1 / 1000000000 := by
  obtain ⟨m, em, _, hs⟩ := result_eq s
  refine ⟨m, em, ?_⟩
  intro h hd ts hh hts hmem hE
  obtain ⟨es, hes, hlen, _, _, _, ho, _, hent, _⟩ := hs h hd hh
  have hn : (es.map Prod.fst).Nodup := by rw [hent]; exact (entries_nodup s h).sublist (List.filter_sublist.map _)
  have hp := same_tests hes hn hts hmem
  have n := (totals_near s L hes hp (fun t ⟨a, b⟩ => b (hE.2 t a)))
  obtain ⟨a, b⟩ := handlerTests_eq s.R s.o.weights s.rng es {}
  rw [← show _ = _ from a] at n
  rw [ho]
  generalize es.foldl (fun o e => o.handlerTest s.R s.o.weights (s.rng e.1) e.2) ({} : Original) = o at a b n ⊢
  rw [hR] at n ⊢
  obtain ⟨n1, _, n0⟩ := n
  obtain ⟨r, er, r0, hr⟩ := round_near (near_close (by omega) n1)
  have elen : es.length = ts.length := by rw [← hp.length_eq, List.length_map]
  have hpos : 0 < ts.length := by
    obtain ⟨t, ht⟩ := hE.1
    exact List.length_pos_of_mem ((hmem t).2 ht)
  have hb : o.tests = ts.length := by rw [b, elen]; exact Nat.zero_add _
  have hc : (1 : Rat) ≤ ts.length := by exact_mod_cast hpos
  have hc0 : (ts.length : Rat) ≠ 0 := by linarith
  obtain ⟨S, eS⟩ : ∃ S, S = (ts.map (inTest s.o.weights best worst (last s.ds h))).sum := ⟨_, rfl⟩
  have eb : byTests s.o.weights best worst (last s.ds h) ts = S / ts.length := by
    unfold byTests plain
    rw [← eS, List.length_map]
  rw [← eS] at hr n0
  rw [eb]
  have hmax : ts.length ≤ 2 ^ 53 := by omega
  have er2 : Original.score ieee o = .fin (ieee.rnd (r / ts.length)) := by
    unfold Original.score
    rw [er, hb]
    simp only [Val.div, Val.ofNat, ieee.nat _ hmax, if_neg hc0]
  refine ⟨_, er2, ?_⟩
  have hq0 : 0 ≤ r / ts.length := div_nonneg r0 (by linarith)
  obtain ⟨c1, c2⟩ := WarnCheck.rnd_near ieee_u hq0
  obtain ⟨d1, d2⟩ := abs_le.1 hr
  have hS : 0 ≤ S / ts.length := div_nonneg n0 (by linarith)
  have hinv : 51 / 100000000000 / (ts.length : Rat) ≤ 51 / 100000000000 := div_le_self (by norm_num) hc
  have g1 : r / ts.length ≤ S / ts.length * (1 + 1 / 200000000) + 51 / 100000000000 := by
    have : r / ts.length ≤ (S * (1 + 1 / 200000000) + 51 / 100000000000) / ts.length := div_le_div_of_nonneg_right (by linarith) (by linarith)
    rw [add_div, mul_div_right_comm] at this
    linarith
  have g2 : S / ts.length * (1 - 1 / 200000000) - 51 / 100000000000 ≤ r / ts.length := by
    have : (S * (1 - 1 / 200000000) - 51 / 100000000000) / ts.length ≤ r / ts.length := div_le_div_of_nonneg_right (by linarith) (by linarith)
    rw [sub_div, mul_div_right_comm] at this
    linarith
  rw [abs_le]
  constructor <;> nlinarith

/-- C97 in full: nothing is logged. -/
def C97_statement : Prop := ∀ s : Setting, s.R = ieee → s.ds.length ≤ 900000 → (∀ w, 0 < s.o.weights w) →
  ∀ int float h l, (h, l) ∈ (Setting.logs s id int float).2 → l = some []

/-- The test Y of the example says nothing. -/
theorem example_mute : Mute (exampleSetting someSorter []) b!"A" b!"Bench.Y" := by
  refine ⟨⟨⟨⟨b!"A", b!"Y", 8, 7, 100, 1, 16, 0⟩, rfl⟩, by simp [Included, exampleSetting]⟩, ?_⟩
  rintro ⟨w, ⟨h, h', d, d', hd1, hd2, hne⟩, _⟩
  have key : ∀ d ∈ exampleData, tagOf d = b!"Bench.Y" → ∀ w, BenchScore.measure d w = BenchScore.measure ⟨b!"A", b!"Y", 8, 7, 100, 1, 16, 0⟩ w := by
    intro d hd ht w
    simp only [exampleData, List.mem_cons, List.not_mem_nil, or_false] at hd
    rcases hd with rfl | rfl | rfl | rfl
    · exact absurd ht (by decide)
    · exact absurd ht (by decide)
    · rfl
    · cases w <;> rfl
  exact hne ((key d (lastFor_mem hd1).1 (lastFor_mem hd1).2.2 w).trans (key d' (lastFor_mem hd2).1 (lastFor_mem hd2).2.2 w).symm)

/-- C97 does not hold in full: where all handlers are equal in a test, the comparison of what is no number with what is no number is logged. -/
theorem C97_fails : ¬ C97_statement := by
  intro hst
  obtain ⟨best, worst, L⟩ := C91_limits exampleData
  obtain ⟨_, b, c⟩ := C97_logs_partial (exampleSetting someSorter []) rfl (by decide) best worst L (pickR := id) (fun l => .refl l) (fun _ => []) (fun _ => [])
  obtain ⟨l, hl⟩ := (b b!"A").2 ⟨⟨b!"A", b!"X", 8, 7, 100, 1, 16, 0⟩, by simp [exampleSetting, exampleData], rfl⟩
  obtain ⟨logged, e, hc, _⟩ := c b!"A" l hl
  have := hst (exampleSetting someSorter []) rfl (by decide) (fun _ => Nat.one_pos) _ _ b!"A" l hl
  rw [e] at this
  injection this with this
  have hm := (hc .nan .nan).2 ⟨rfl, rfl, _, example_mute⟩
  rw [this] at hm
  cases hm

/-- A case of `C97_logs_partial`: nothing is logged for B. -/
example (int : Nat → Bytes) (float : Rat → Bytes) : (b!"B", some []) ∈ (Setting.logs (threeSetting ieee) List.reverse int float).2 := by
  obtain ⟨_, b, c⟩ := C97_logs_partial (threeSetting ieee) rfl (by decide) threeBest threeWorst three_limits (pickR := List.reverse) List.reverse_perm int float
  obtain ⟨l, hl⟩ := (b b!"B").2 ⟨⟨b!"B", b!"X", 8, 7, 200, 2, 32, 0⟩, by simp [threeSetting, threeData], rfl⟩
  obtain ⟨logged, rfl, _, _, _, _, h, _⟩ := c b!"B" l hl
  have : logged = [] := h (fun t ⟨x, y⟩ => y ((three_each ieee).1.2 t x)) [b!"Bench.X", b!"Bench.Y"] (by decide) (three_ran ieee) (.inr (by
    have : ([b!"Bench.X", b!"Bench.Y"].map (inTest (fun _ => 1) threeBest threeWorst (last threeData b!"B"))).sum = 1300 / 9 := by decide +kernel
    exact le_trans (by norm_num) (le_of_eq this.symm)))
  rw [this] at hl
  exact hl

/-- A case of `C97_original`: the original score of B is close to 650/9. -/
example : ∃ m hd q, (threeSetting ieee).result = some m ∧ m.get b!"B" = some hd ∧ hd.scores.original = .fin q ∧ |q - 650 / 9| ≤ 1 / 1000000 := by
  obtain ⟨m, em, hs⟩ := C97_original (threeSetting ieee) rfl (by decide) threeBest threeWorst three_limits
  obtain ⟨m', em', hk, _⟩ := C42_partial (threeSetting ieee)
  rw [em] at em'
  injection em' with em'
  subst em'
  obtain ⟨hd, hhd⟩ := Option.isSome_iff_exists.1 ((hk b!"B").2 ⟨⟨b!"B", b!"X", 8, 7, 200, 2, 32, 0⟩, by simp [threeSetting, threeData], rfl⟩)
  obtain ⟨q, eq, hq⟩ := hs b!"B" hd [b!"Bench.X", b!"Bench.Y"] hhd (by decide) (three_ran ieee) (three_each ieee).1
  refine ⟨m, hd, q, em, hhd, eq, ?_⟩
  have e : byTests (threeSetting ieee).o.weights threeBest threeWorst (last (threeSetting ieee).ds b!"B") [b!"Bench.X", b!"Bench.Y"] = 650 / 9 := three_scores.1
  rw [e] at hq
  exact hq.trans (by norm_num)

/-- The text of a benchmark in which B is nearly as slow as C. -/
def slowText : Bytes :=
  exampleLine 0x41 0x58 b!"1" b!" 16 B/op 1 allocs/op" ++ b!"\n" ++ exampleLine 0x42 0x58 b!"999999999999" b!" 16 B/op 1 allocs/op" ++ b!"\n" ++
  exampleLine 0x43 0x58 b!"1000000000000" b!" 16 B/op 1 allocs/op" ++ b!"\n"

/-- Its results. -/
def slowData : List (Data Rat) :=
  [⟨b!"A", b!"X", 8, 7, 1, 1, 16, 0⟩, ⟨b!"B", b!"X", 8, 7, 999999999999, 1, 16, 0⟩, ⟨b!"C", b!"X", 8, 7, 1000000000000, 1, 16, 0⟩]

theorem slow_read : History whole [slowText] slowData := by
  have hs : scanLines slowText = [exampleLine 0x41 0x58 b!"1" b!" 16 B/op 1 allocs/op", exampleLine 0x42 0x58 b!"999999999999" b!" 16 B/op 1 allocs/op",
      exampleLine 0x43 0x58 b!"1000000000000" b!" 16 B/op 1 allocs/op"] := by decide +kernel
  have dec : ∀ n, n ∈ [b!"1", b!"999999999999", b!"1000000000000"] → Decimal n := by
    intro n hn
    simp only [List.mem_cons, List.not_mem_nil, or_false] at hn
    rcases hn with rfl | rfl | rfl <;> exact .inl ⟨by simp, by decide⟩
  have h : Reads whole (scanLines slowText) slowData [] false := by
    rw [hs]
    refine .data (exampleLine_data 0x41 0x58 (by decide) (by decide) (dec _ (by simp)) (by decide)) (by decide +kernel) (by decide +kernel)
      (by decide +kernel) (by decide +kernel) (by decide +kernel) (by decide +kernel) ?_
    refine .data (exampleLine_data 0x42 0x58 (by decide) (by decide) (dec _ (by simp)) (by decide)) (by decide +kernel) (by decide +kernel)
      (by decide +kernel) (by decide +kernel) (by decide +kernel) (by decide +kernel) ?_
    refine .data (exampleLine_data 0x43 0x58 (by decide) (by decide) (dec _ (by simp)) (by decide)) (by decide +kernel) (by decide +kernel)
      (by decide +kernel) (by decide +kernel) (by decide +kernel) (by decide +kernel) .done
  exact .text h .none

/-- Scores for it. -/
def slowSetting : Setting := { exampleSetting someSorter [] with
  texts := [slowText], ds := slowData, read := slow_read, nanos := by decide +kernel, allocs := by decide +kernel, bytes := by decide +kernel
  few := by decide, weights := by show 1 + (1 + 1) ≤ 2 ^ 53; decide }

/-- The best results. -/
def slowBest (_ : Bytes) : Weight → Rat
  | .nanoseconds => 1
  | .allocBytes => 16
  | .allocations => 1
/-- The worst results. -/
def slowWorst (_ : Bytes) : Weight → Rat
  | .nanoseconds => 1000000000000
  | .allocBytes => 16
  | .allocations => 1

theorem slow_limits : Limits slowData slowBest slowWorst := by
  have key : ∀ d ∈ slowData, ∀ w ∈ all, slowBest (tagOf d) w ≤ BenchScore.measure d w ∧ BenchScore.measure d w ≤ slowWorst (tagOf d) w ∧
      (∃ d' ∈ slowData, (lastFor slowData d'.handler (tagOf d)).map (fun x => BenchScore.measure x w) = some (slowBest (tagOf d) w)) ∧
      (∃ d' ∈ slowData, (lastFor slowData d'.handler (tagOf d)).map (fun x => BenchScore.measure x w) = some (slowWorst (tagOf d) w)) := by
    decide +kernel
  intro h t d w hl
  obtain ⟨h1, _, rfl⟩ := lastFor_mem hl
  obtain ⟨a, b, ⟨d1, _, e1⟩, ⟨d2, _, e2⟩⟩ := key d h1 w (by cases w <;> decide)
  rw [Option.map_eq_some_iff] at e1 e2
  obtain ⟨x1, f1, g1⟩ := e1
  obtain ⟨x2, f2, g2⟩ := e2
  exact ⟨a, b, ⟨_, x1, f1, g1⟩, ⟨_, x2, f2, g2⟩⟩

/-- Nor does C97 hold where each test tells handlers apart: the total of B is 0 in the original calculation, but not in the newer one. -/
theorem C97_slow (int : Nat → Bytes) (float : Rat → Bytes) : (∀ t, ¬ Mute slowSetting b!"B" t) ∧
    ∃ w, (b!"B", some [.total (.fin 0) w]) ∈ (Setting.logs slowSetting id int float).2 := by
  have hran : ∀ t, Ran slowSetting.o slowData b!"B" t → t = b!"Bench.X" := by
    rintro t ⟨⟨d, hl⟩, _⟩
    obtain ⟨h1, _, rfl⟩ := lastFor_mem hl
    have : ∀ d ∈ slowData, tagOf d = b!"Bench.X" := by decide +kernel
    exact this d h1
  have hX : Ran slowSetting.o slowData b!"B" b!"Bench.X" :=
    ⟨⟨⟨b!"B", b!"X", 8, 7, 999999999999, 1, 16, 0⟩, rfl⟩, by simp [Included, slowSetting, exampleSetting]⟩
  have hm : ∀ t, ¬ Mute slowSetting b!"B" t := by
    rintro t ⟨a, b⟩
    refine b ⟨.nanoseconds, ?_, Nat.one_pos⟩
    rw [hran t a]
    exact ⟨b!"A", b!"B", ⟨b!"A", b!"X", 8, 7, 1, 1, 16, 0⟩, ⟨b!"B", b!"X", 8, 7, 999999999999, 1, 16, 0⟩, rfl, rfl, by decide +kernel⟩
  refine ⟨hm, ?_⟩
  obtain ⟨_, b, c⟩ := C97_logs_partial slowSetting rfl (by decide) slowBest slowWorst slow_limits (pickR := id) (fun l => .refl l) int float
  obtain ⟨l, hl⟩ := (b b!"B").2 ⟨⟨b!"B", b!"X", 8, 7, 999999999999, 1, 16, 0⟩, by simp [slowSetting, slowData], rfl⟩
  obtain ⟨logged, rfl, _, _, _, _, _, h⟩ := c b!"B" l hl
  have e : ([b!"Bench.X"].map (inTest (fun _ => 1) slowBest slowWorst (last slowData b!"B"))).sum = 100 / 999999999999 := by decide +kernel
  obtain ⟨w, hw⟩ := h hm [b!"Bench.X"] (by decide) (fun t => by
    rw [List.mem_singleton]
    exact ⟨fun ht => ht ▸ hX, hran t⟩) (lt_of_lt_of_eq (by norm_num) e.symm) ((le_of_eq e).trans (by norm_num))
  exact ⟨w, hw ▸ hl⟩

end Verif.Props.BenchCheck
