import Verif.Score.BenchScores

/-
The score of the original calculation, /repo/internal/scoring/axis/bench/original.go.
-/

set_option linter.unusedSimpArgs false

namespace Verif.Score
open Go Verif.Warning Verif.Data Verif.Props.ScoreRange Verif.Props.ScoreAverage

variable (R : Rounding)

/-- How far a record is from the largest, in the original calculation. -/
def origDiff (g : Ranges) (r : Record Rat) : Weight → Val
  | .allocations => Val.ofNat R (usub g.allocs.high r.memAllocsPerOp)
  | .allocBytes => Val.ofNat R (usub g.bytes.high r.memBytesPerOp)
  | .nanoseconds => Val.sub R (.fin g.nanos.high) (.fin r.nanosPerOp)

/-- What is added for a measure. -/
def origTerm (g : Ranges) (r : Record Rat) (w : Weight) (W : Nat) : Val :=
  Val.div R (Val.mul R (Val.mul R (Val.ofNat R W) (.fin 100)) (origDiff R g r w)) (g.length R w)

/-- The terms of the original calculation are numbers within bounds. -/
def TermWithin (lo hi : Rat) (g : Ranges) (r : Record Rat) : Prop :=
  ∀ w (W : Nat), W ≤ 2 ^ 53 → counts R g w = true → ∃ y, origTerm R g r w W = .fin y ∧ lo * W ≤ y ∧ y ≤ hi * W

theorem term_bounds {W : Nat} (hW : W ≤ 2 ^ 53) {diff len : Rat} (h0 : 0 ≤ diff) (h1 : diff ≤ len) (hl : 0 < len) :
    ∃ y, Val.div R (Val.mul R (Val.mul R (Val.ofNat R W) (.fin 100)) (.fin diff)) (.fin len) = .fin y ∧
      0 ≤ y ∧ y ≤ 100 * R.p ^ 3 * W ∧ (diff = len → 100 * R.d ^ 3 * W ≤ y) := by
  have hp := R.p_ge
  have hd := R.d_pos
  have hw : (0 : Rat) ≤ W := by positivity
  have hwh : (0 : Rat) ≤ W * 100 := by positivity
  have a1 := R.le_up hwh
  have a2 := R.ge_down hwh
  have a3 := R.nonneg hwh
  have b0 : 0 ≤ R.rnd (W * 100) * diff := mul_nonneg a3 h0
  have b1 := R.le_up b0
  have b2 := R.ge_down b0
  have b3 := R.nonneg b0
  have c0 : 0 ≤ R.rnd (R.rnd (W * 100) * diff) / len := div_nonneg b3 hl.le
  have c1 := R.le_up c0
  have c2 := R.ge_down c0
  refine ⟨R.rnd (R.rnd (R.rnd (W * 100) * diff) / len), ?_, R.nonneg c0, ?_, ?_⟩
  · simp only [Val.mul, Val.div, Val.ofNat, R.nat W hW, if_neg hl.ne']
  · have d1 : R.rnd (W * 100) * diff ≤ W * 100 * R.p * len := mul_le_mul a1 h1 h0 (by positivity)
    have d2 : R.rnd (R.rnd (W * 100) * diff) ≤ W * 100 * R.p * len * R.p := b1.trans (mul_le_mul_of_nonneg_right d1 (by linarith))
    have d3 : R.rnd (R.rnd (W * 100) * diff) / len ≤ W * 100 * R.p * R.p := by
      rw [div_le_iff₀ hl]
      calc _ ≤ _ := d2
        _ = _ := by ring
    calc _ ≤ _ := c1
      _ ≤ W * 100 * R.p * R.p * R.p := mul_le_mul_of_nonneg_right d3 (by linarith)
      _ = _ := by ring
  · rintro rfl
    have d1 : W * 100 * R.d * diff ≤ R.rnd (W * 100) * diff := mul_le_mul_of_nonneg_right a2 h0
    have d2 : W * 100 * R.d * diff * R.d ≤ R.rnd (R.rnd (W * 100) * diff) := (mul_le_mul_of_nonneg_right d1 hd.le).trans b2
    have d3 : W * 100 * R.d * R.d ≤ R.rnd (R.rnd (W * 100) * diff) / diff := by
      rw [le_div_iff₀ hl]
      calc _ = _ := by ring
        _ ≤ _ := d2
    calc _ = W * 100 * R.d * R.d * R.d := by ring
      _ ≤ _ := mul_le_mul_of_nonneg_right d3 hd.le
      _ ≤ _ := c2

/-- What the original calculation adds for a record. -/
structure TermFacts (g : Ranges) (rs : List (Record Rat)) (r : Record Rat) (w : Weight) : Prop where
  score : ∀ W : Nat, W ≤ 2 ^ 53 → counts R g w = true → ∃ y, origTerm R g r w W = .fin y ∧ 0 ≤ y ∧ y ≤ 100 * R.p ^ 3 * W ∧
    (Best w rs r → 100 * R.d ^ 3 * W ≤ y)

theorem term_F {rs : List (Record Rat)} (hok : ∀ r ∈ rs, OkRecord r) {r : Record Rat} (hr : r ∈ rs) :
    TermFacts R (rs.foldl Ranges.add {}) rs r .nanoseconds := by
  have hm : ∀ m ∈ rs.map Record.nanosPerOp, 0 ≤ m ∧ m ≤ maxFloat := by
    intro m hm
    obtain ⟨r, hr, rfl⟩ := List.mem_map.1 hm
    exact (hok r hr).nanos
  have hrm : r.nanosPerOp ∈ rs.map Record.nanosPerOp := List.mem_map_of_mem hr
  constructor
  intro W hW hc
  obtain ⟨a, ha, b, hb, hne⟩ := (facts R hok hr .nanoseconds).pos.1 hc
  have hs := spreadF hm (List.mem_map_of_mem ha) (List.mem_map_of_mem hb) hne
  unfold origTerm
  rw [ranges_eq]
  obtain ⟨lo, hi, e⟩ : ∃ lo hi, rangeF (rs.map Record.nanosPerOp) = ⟨lo, hi⟩ := ⟨_, _, rfl⟩
  rw [e] at hs ⊢
  simp only at hs
  have h1 : origDiff R ⟨⟨lo, hi⟩, rangeU (rs.map Record.memAllocsPerOp), rangeU (rs.map Record.memBytesPerOp)⟩ r .nanoseconds =
      .fin (R.rnd (hi - r.nanosPerOp)) := by
    simp [origDiff, Val.sub, Val.add, Val.neg, sub_eq_add_neg]
  have h2 : Ranges.length R ⟨⟨lo, hi⟩, rangeU (rs.map Record.memAllocsPerOp), rangeU (rs.map Record.memBytesPerOp)⟩ .nanoseconds =
      .fin (R.rnd (hi - lo)) := by
    simp [Ranges.length, RangeF.length, Val.sub, Val.add, Val.neg, sub_eq_add_neg]
  rw [h1, h2]
  have hlt := hs.lt
  have hle := hs.le_hi _ hrm
  have hge := hs.lo_le _ hrm
  obtain ⟨y, ey, y0, y1, y2⟩ := term_bounds R hW (R.nonneg (by linarith : 0 ≤ hi - r.nanosPerOp)) (R.mono (by linarith)) (R.pos (by linarith : 0 < hi - lo))
  refine ⟨y, ey, y0, y1, fun hb => y2 ?_⟩
  have : r.nanosPerOp = lo := by
    refine le_antisymm ?_ hge
    obtain ⟨r', hr', e'⟩ := List.mem_map.1 hs.lo_mem
    rw [← e']; exact hb r' hr'
  rw [this]

theorem term_U {rs : List (Record Rat)} (f : Record Rat → Nat) (hok : ∀ r ∈ rs, f r ≤ 2 ^ 53) {r : Record Rat} (hr : r ∈ rs)
    (hd : ∃ r ∈ rs, ∃ r' ∈ rs, f r ≠ f r') {W : Nat} (hW : W ≤ 2 ^ 53) :
    ∃ y, Val.div R (Val.mul R (Val.mul R (Val.ofNat R W) (.fin 100)) (Val.ofNat R (usub (rangeU (rs.map f)).high (f r))))
        ((rangeU (rs.map f)).length R) = .fin y ∧ 0 ≤ y ∧ y ≤ 100 * R.p ^ 3 * W ∧ ((∀ r' ∈ rs, f r ≤ f r') → 100 * R.d ^ 3 * W ≤ y) := by
  have hm : ∀ m ∈ rs.map f, m ≤ 2 ^ 53 := by
    intro m hm
    obtain ⟨r, hr, rfl⟩ := List.mem_map.1 hm
    exact hok r hr
  have hm' : ∀ m ∈ rs.map f, m < 2 ^ 64 := fun m h => (hm m h).trans_lt (by norm_num)
  have hrm : f r ∈ rs.map f := List.mem_map_of_mem hr
  obtain ⟨a, ha, b, hb, hne⟩ := hd
  have hs := spreadU hm' (List.mem_map_of_mem ha) (List.mem_map_of_mem hb) hne
  obtain ⟨lo, hi, e⟩ : ∃ lo hi, rangeU (rs.map f) = ⟨lo, hi⟩ := ⟨_, _, rfl⟩
  rw [e] at hs ⊢
  simp only at hs
  have hlt := hs.lt
  have hle := hs.le_hi _ hrm
  have hge := hs.lo_le _ hrm
  have hhi := hm _ hs.hi_mem
  have e1 : usub hi (f r) = hi - f r := by unfold usub; omega
  have e2 : (hi + 2 ^ 64 - lo) % 2 ^ 64 = hi - lo := by omega
  have h1 : Val.ofNat R (usub hi (f r)) = .fin ((hi - f r : Nat) : Rat) := by
    rw [e1]; simp only [Val.ofNat, R.nat _ (show hi - f r ≤ 2 ^ 53 by omega)]
  have h2 : RangeU.length R ⟨lo, hi⟩ = .fin ((hi - lo : Nat) : Rat) := by
    simp only [RangeU.length, e2, Val.ofNat, R.nat _ (show hi - lo ≤ 2 ^ 53 by omega)]
  simp only
  rw [h1, h2]
  obtain ⟨y, ey, y0, y1, y2⟩ := term_bounds R hW (diff := ((hi - f r : Nat) : Rat)) (len := ((hi - lo : Nat) : Rat)) (by positivity)
    (by exact_mod_cast (by omega)) (by exact_mod_cast (by omega))
  refine ⟨y, ey, y0, y1, fun hb => y2 ?_⟩
  have : f r = lo := by
    refine le_antisymm ?_ hge
    obtain ⟨r', hr', e'⟩ := List.mem_map.1 hs.lo_mem
    rw [← e']; exact hb r' hr'
  rw [this]

theorem termFacts {rs : List (Record Rat)} (hok : ∀ r ∈ rs, OkRecord r) {r : Record Rat} (hr : r ∈ rs) (w : Weight) :
    TermFacts R (rs.foldl Ranges.add {}) rs r w := by
  cases w with
  | nanoseconds => exact term_F R hok hr
  | allocations =>
    constructor
    intro W hW hc
    obtain ⟨a, ha, b, hb, hne⟩ := (facts R hok hr .allocations).pos.1 hc
    obtain ⟨y, e, y0, y1, y2⟩ := term_U R Record.memAllocsPerOp (fun r h => (hok r h).allocs) hr ⟨a, ha, b, hb, by simpa [measured] using hne⟩ hW
    unfold origTerm
    rw [ranges_eq]
    exact ⟨y, e, y0, y1, fun hb => y2 fun r' hr' => by have := hb r' hr'; simpa [measured] using this⟩
  | allocBytes =>
    constructor
    intro W hW hc
    obtain ⟨a, ha, b, hb, hne⟩ := (facts R hok hr .allocBytes).pos.1 hc
    obtain ⟨y, e, y0, y1, y2⟩ := term_U R Record.memBytesPerOp (fun r h => (hok r h).bytes) hr ⟨a, ha, b, hb, by simpa [measured] using hne⟩ hW
    unfold origTerm
    rw [ranges_eq]
    exact ⟨y, e, y0, y1, fun hb => y2 fun r' hr' => by have := hb r' hr'; simpa [measured] using this⟩

/-! ### One test -/

variable (weights : Weight → Nat)

theorem part_step {lo hi : Rat} (h0 : 0 ≤ lo) {g : Ranges} {r : Record Rat} (hT : TermWithin R lo hi g r) (w : Weight) (hw : weights w ≤ 2 ^ 53)
    (o : Original) (c : Rat) (k : Nat) (hc : o.collect = .fin c) (h1 : lo * o.count * R.d ^ k ≤ c) (h2 : c ≤ hi * o.count * R.p ^ k) (hh : 0 ≤ hi) :
    let o' := o.part R (weights w) (g.length R w) (origDiff R g r w)
    o'.total = o.total ∧ o'.tests = o.tests ∧ o'.count = o.count + (if counts R g w then weights w else 0) ∧
    ∃ c', o'.collect = .fin c' ∧ lo * o'.count * R.d ^ (k + 1) ≤ c' ∧ c' ≤ hi * o'.count * R.p ^ (k + 1) := by
  have hp := R.p_ge
  have hd := R.d_pos
  have hd1 := R.d_le
  have hn : (0 : Rat) ≤ o.count := by positivity
  have hdk : (0 : Rat) < R.d ^ k := pow_pos hd k
  have hpk : (1 : Rat) ≤ R.p ^ k := one_le_pow₀ hp
  have hW : (0 : Rat) ≤ weights w := by positivity
  have hA : 0 ≤ lo * o.count := mul_nonneg h0 hn
  have hB : 0 ≤ hi * o.count := mul_nonneg hh hn
  by_cases hcn : counts R g w = true
  · have hcn' : (g.length R w).isPos = true := hcn
    obtain ⟨y, ey, y1, y2⟩ := hT w _ hw hcn
    have ey' : Val.div R (Val.mul R (Val.mul R (Val.ofNat R (weights w)) (.fin 100)) (origDiff R g r w)) (g.length R w) = .fin y := ey
    have hlW : 0 ≤ lo * weights w := mul_nonneg h0 hW
    have hhW : 0 ≤ hi * weights w := mul_nonneg hh hW
    have hc0 : 0 ≤ c := le_trans (by positivity) h1
    have hs : 0 ≤ c + y := by linarith
    unfold Original.part
    simp only [hcn', if_true, hc, ey', hcn]
    refine ⟨trivial, trivial, trivial, R.rnd (c + y), rfl, ?_, ?_⟩
    · refine le_trans ?_ (R.ge_down hs)
      have : lo * weights w * R.d ^ k ≤ lo * weights w := mul_le_of_le_one_right hlW (pow_le_one₀ hd.le hd1)
      push_cast
      calc _ = (lo * o.count * R.d ^ k + lo * weights w * R.d ^ k) * R.d := by ring
        _ ≤ _ := mul_le_mul_of_nonneg_right (by linarith) hd.le
    · refine le_trans (R.le_up hs) ?_
      have : hi * weights w ≤ hi * weights w * R.p ^ k := le_mul_of_one_le_right hhW hpk
      push_cast
      calc _ ≤ (hi * o.count * R.p ^ k + hi * weights w * R.p ^ k) * R.p := mul_le_mul_of_nonneg_right (by linarith) (by linarith)
        _ = _ := by ring
  · have hcn' : (g.length R w).isPos = false := by simpa [counts] using hcn
    unfold Original.part
    simp only [hcn', Bool.false_eq_true, if_false, hcn, Nat.add_zero]
    refine ⟨trivial, trivial, trivial, c, hc, ?_, ?_⟩
    · refine le_trans ?_ h1
      exact mul_le_mul_of_nonneg_left (pow_down R (by omega)) hA
    · refine le_trans h2 ?_
      exact mul_le_mul_of_nonneg_left (pow_up R (by omega)) hB

/-- The weights that count. -/
def countedWeights (g : Ranges) : Nat :=
  (if counts R g .allocations then weights .allocations else 0) + (if counts R g .allocBytes then weights .allocBytes else 0) +
    (if counts R g .nanoseconds then weights .nanoseconds else 0)

theorem countedWeights_pos (rng : Bytes → Ranges) (e : Bytes × Record Rat) : 0 < countedWeights R weights (rng e.1) ↔ Says R weights rng e := by
  unfold countedWeights Says
  constructor
  · intro h
    by_contra hc
    push Not at hc
    have h1 := hc .allocations
    have h2 := hc .allocBytes
    have h3 := hc .nanoseconds
    split_ifs at h with a b c <;> simp_all
  · rintro ⟨w, hc, hp⟩
    cases w <;> simp only [hc, if_true] <;> omega

theorem countedWeights_le (g : Ranges) : countedWeights R weights g ≤ allWeights weights := by
  unfold countedWeights allWeights
  split_ifs <;> omega

theorem test_step {lo hi : Rat} (h0 : 0 ≤ lo) (hh : 0 ≤ hi) {g : Ranges} {r : Record Rat} (hT : TermWithin R lo hi g r)
    (hw : allWeights weights ≤ 2 ^ 53) (o : Original) :
    ∃ v, (o.handlerTest R weights g r).total = Val.add R o.total v ∧ (o.handlerTest R weights g r).tests = o.tests + 1 ∧
      (countedWeights R weights g = 0 → v = .nan) ∧
      (0 < countedWeights R weights g → ∃ x, v = .fin x ∧ lo * R.d ^ 4 ≤ x ∧ x ≤ hi * R.p ^ 4) := by
  have w1 : weights .allocations ≤ 2 ^ 53 := by unfold allWeights at hw; omega
  have w2 : weights .allocBytes ≤ 2 ^ 53 := by unfold allWeights at hw; omega
  have w3 : weights .nanoseconds ≤ 2 ^ 53 := by unfold allWeights at hw; omega
  obtain ⟨a1, a2, a3, ca, a4, a5, a6⟩ := part_step R weights h0 hT .allocations w1 { o with collect := .fin 0, count := 0 } 0 0 rfl (by simp) (by simp) hh
  obtain ⟨b1, b2, b3, cb, b4, b5, b6⟩ := part_step R weights h0 hT .allocBytes w2 _ ca 1 a4 a5 a6 hh
  obtain ⟨c1, c2, c3, cc, c4, c5, c6⟩ := part_step R weights h0 hT .nanoseconds w3 _ cb 2 b4 b5 b6 hh
  obtain ⟨o3, eo⟩ : ∃ o3, o3 = (({ o with collect := .fin 0, count := 0 } : Original).part R (weights .allocations) (g.length R .allocations) (origDiff R g r .allocations)
        |>.part R (weights .allocBytes) (g.length R .allocBytes) (origDiff R g r .allocBytes)
        |>.part R (weights .nanoseconds) (g.length R .nanoseconds) (origDiff R g r .nanoseconds)) := ⟨_, rfl⟩
  have et : (o.handlerTest R weights g r).total = Val.add R o3.total (Val.div R o3.collect (Val.ofNat R o3.count)) := by
    rw [eo]; rfl
  have en : (o.handlerTest R weights g r).tests = o3.tests + 1 := by
    rw [eo]; rfl
  rw [← eo] at c1 c2 c3 c4 c5 c6
  have hcount : o3.count = countedWeights R weights g := by
    rw [c3, b3, a3]
    unfold countedWeights
    simp
  have hmax : countedWeights R weights g ≤ 2 ^ 53 := (countedWeights_le R weights g).trans hw
  have ht : o3.total = o.total := by rw [c1, b1, a1]
  have hn : o3.tests = o.tests := by rw [c2, b2, a2]
  rw [hcount] at c5 c6
  refine ⟨Val.div R o3.collect (Val.ofNat R o3.count), by rw [et, ht], by rw [en, hn], ?_, ?_⟩
  · intro hz
    rw [c4, hcount, hz]
    rw [hz] at c5 c6
    have : cc = 0 := by
      simp at c5 c6
      exact le_antisymm c6 c5
    rw [this]
    simp [Val.div, Val.ofNat, R.zero]
  · intro hz
    have hc : (0 : Rat) < countedWeights R weights g := by exact_mod_cast hz
    have hcc : 0 ≤ cc := le_trans (mul_nonneg (mul_nonneg h0 hc.le) (pow_nonneg R.d_pos.le _)) c5
    have hq : 0 ≤ cc / countedWeights R weights g := div_nonneg hcc hc.le
    refine ⟨R.rnd (cc / countedWeights R weights g), ?_, ?_, ?_⟩
    · rw [c4, hcount]
      simp only [Val.div, Val.ofNat, R.nat _ hmax, if_neg hc.ne']
    · refine le_trans ?_ (R.ge_down hq)
      have : lo * R.d ^ 3 ≤ cc / countedWeights R weights g := by
        rw [le_div_iff₀ hc]
        calc _ = lo * countedWeights R weights g * R.d ^ (2 + 1) := by ring
          _ ≤ _ := c5
      calc _ = lo * R.d ^ 3 * R.d := by ring
        _ ≤ _ := mul_le_mul_of_nonneg_right this R.d_pos.le
    · refine le_trans (R.le_up hq) ?_
      have : cc / countedWeights R weights g ≤ hi * R.p ^ 3 := by
        rw [div_le_iff₀ hc]
        calc _ ≤ _ := c6
          _ = _ := by ring
      calc _ ≤ hi * R.p ^ 3 * R.p := mul_le_mul_of_nonneg_right this (by linarith [R.p_ge])
        _ = _ := by ring

/-! ### All tests -/

theorem tests_sum {lo hi : Rat} (h0 : 0 ≤ lo) (hh : 0 ≤ hi) (rng : Bytes → Ranges) (hw : allWeights weights ≤ 2 ^ 53) :
    ∀ (es : List (Bytes × Record Rat)) (o : Original) (T : Rat), (∀ e ∈ es, TermWithin R lo hi (rng e.1) e.2) → (∀ e ∈ es, Says R weights rng e) →
      o.total = .fin T → lo * R.d ^ 4 * o.tests * R.d ^ o.tests ≤ T → T ≤ hi * R.p ^ 4 * o.tests * R.p ^ o.tests →
      ∃ T', (es.foldl (fun o e => o.handlerTest R weights (rng e.1) e.2) o).total = .fin T' ∧
        (es.foldl (fun o e => o.handlerTest R weights (rng e.1) e.2) o).tests = o.tests + es.length ∧
        lo * R.d ^ 4 * (o.tests + es.length : Nat) * R.d ^ (o.tests + es.length) ≤ T' ∧
        T' ≤ hi * R.p ^ 4 * (o.tests + es.length : Nat) * R.p ^ (o.tests + es.length) := by
  intro es
  induction es with
  | nil => intro o T _ _ hT h1 h2; exact ⟨T, hT, rfl, h1, h2⟩
  | cons e es ih =>
    intro o T ht hs hT h1 h2
    obtain ⟨v, e1, e2, _, hv⟩ := test_step R weights h0 hh (ht e (by simp)) hw o
    obtain ⟨x, rfl, x1, x2⟩ := hv ((countedWeights_pos R weights rng e).2 (hs e (by simp)))
    have hp := R.p_ge
    have hd := R.d_pos
    have hd4 : 0 ≤ lo * R.d ^ 4 := mul_nonneg h0 (pow_nonneg hd.le _)
    have hp4 : 0 ≤ hi * R.p ^ 4 := mul_nonneg hh (pow_nonneg (by linarith) _)
    have hn : (0 : Rat) ≤ o.tests := by positivity
    have hT0 : 0 ≤ T := le_trans (mul_nonneg (mul_nonneg hd4 hn) (pow_nonneg hd.le _)) h1
    have hsum : 0 ≤ T + x := by linarith
    obtain ⟨T', t1, t2, t3, t4⟩ := ih (o.handlerTest R weights (rng e.1) e.2) (R.rnd (T + x)) (fun e he => ht e (by simp [he])) (fun e he => hs e (by simp [he]))
      (by rw [e1, hT]; rfl) (by
        rw [e2]
        refine le_trans ?_ (R.ge_down hsum)
        have : lo * R.d ^ 4 * R.d ^ o.tests ≤ x := (mul_le_of_le_one_right hd4 (pow_le_one₀ hd.le R.d_le)).trans x1
        push_cast
        calc _ = (lo * R.d ^ 4 * o.tests * R.d ^ o.tests + lo * R.d ^ 4 * R.d ^ o.tests) * R.d := by ring
          _ ≤ _ := mul_le_mul_of_nonneg_right (by linarith) hd.le) (by
        rw [e2]
        refine le_trans (R.le_up hsum) ?_
        have : x ≤ hi * R.p ^ 4 * R.p ^ o.tests := x2.trans (le_mul_of_one_le_right hp4 (one_le_pow₀ hp))
        push_cast
        calc _ ≤ (hi * R.p ^ 4 * o.tests * R.p ^ o.tests + hi * R.p ^ 4 * R.p ^ o.tests) * R.p := mul_le_mul_of_nonneg_right (by linarith) (by linarith)
          _ = _ := by ring)
    rw [e2] at t2 t3 t4
    have el : o.tests + 1 + es.length = o.tests + (e :: es).length := by simp; omega
    rw [el] at t2 t3 t4
    exact ⟨T', t1, t2, t3, t4⟩

theorem total_nan {lo hi : Rat} (h0 : 0 ≤ lo) (hh : 0 ≤ hi) (rng : Bytes → Ranges) (hw : allWeights weights ≤ 2 ^ 53) :
    ∀ (es : List (Bytes × Record Rat)) (o : Original), (∀ e ∈ es, TermWithin R lo hi (rng e.1) e.2) →
      (o.total = .nan ∨ ∃ e ∈ es, ¬ Says R weights rng e) →
      (es.foldl (fun o e => o.handlerTest R weights (rng e.1) e.2) o).total = .nan := by
  intro es
  induction es with
  | nil =>
    rintro o _ (h | ⟨e, he, _⟩)
    · exact h
    · cases he
  | cons e es ih =>
    intro o ht h
    rw [List.foldl_cons]
    obtain ⟨v, e1, _, hz, _⟩ := test_step R weights h0 hh (ht e (by simp)) hw o
    refine ih _ (fun e he => ht e (by simp [he])) ?_
    rcases h with h | ⟨e', he', hs⟩
    · left; rw [e1, h, add_nan_left]
    · rcases List.mem_cons.1 he' with rfl | he'
      · left
        rw [← countedWeights_pos] at hs
        rw [e1, hz (by omega), add_nan_right]
      · exact .inr ⟨e', he', hs⟩

/-! ### Rounding to nine digits -/

theorem roundAway_nonneg {q : Rat} (h : 0 ≤ q) : 0 ≤ roundAway q := by
  unfold roundAway
  rw [if_pos h]
  exact Int.floor_nonneg.2 (by linarith)

theorem roundAway_le {q : Rat} (h : 0 ≤ q) : (roundAway q : Rat) ≤ q + 1 / 2 := by
  unfold roundAway
  rw [if_pos h]
  exact Int.floor_le _

theorem roundAway_ge {q : Rat} (h : 0 ≤ q) : q - 1 / 2 ≤ (roundAway q : Rat) := by
  unfold roundAway
  rw [if_pos h]
  have := Int.lt_floor_add_one (q + 1 / 2)
  linarith

theorem roundAway_int_le {q : Rat} {n : Nat} (h : 0 ≤ q) (hn : q ≤ n) : roundAway q ≤ n := by
  unfold roundAway
  rw [if_pos h]
  have : (⌊q + 1 / 2⌋ : Int) < n + 1 := by
    rw [Int.floor_lt]
    push_cast
    linarith
  omega

theorem roundAway_nat (n : Nat) : roundAway n = n := by
  unfold roundAway
  rw [if_pos (by positivity)]
  rw [Int.floor_eq_iff]
  push_cast
  constructor <;> linarith

theorem score_nan (o : Original) (h : o.total = .nan) : o.score R = .nan := by
  unfold Original.score Val.round
  rw [h, mul_nan_left]
  simp only [div_nan_left]

/-- The score of a total that is a number. -/
theorem score_fin (o : Original) {T : Rat} (h : o.total = .fin T) (hn : 0 < o.tests) (hm : o.tests ≤ 2 ^ 53) :
    o.score R = .fin (R.rnd (R.rnd (R.rnd (roundAway (R.rnd (T * 1000000000))) / 1000000000) / o.tests)) := by
  have hc : (o.tests : Rat) ≠ 0 := by exact_mod_cast hn.ne'
  unfold Original.score Val.round
  rw [h]
  simp only [Val.mul, Val.div, Val.ofNat, R.nat _ hm, if_neg hc]
  norm_num
  intro h; omega

theorem score_bounds {T : Rat} {n : Nat} (hn : 0 < n) {A B : Rat} (hA : 0 ≤ A) (h1 : A * n ≤ T) (h2 : T ≤ B * n) :
    0 ≤ R.rnd (R.rnd (R.rnd (roundAway (R.rnd (T * 1000000000))) / 1000000000) / n) ∧
    R.rnd (R.rnd (R.rnd (roundAway (R.rnd (T * 1000000000))) / 1000000000) / n) ≤ (B + 1 / 1000000000) * R.p ^ 4 ∧
    A * R.d ^ 4 - 1 / 1000000000 ≤ R.rnd (R.rnd (R.rnd (roundAway (R.rnd (T * 1000000000))) / 1000000000) / n) := by
  have hp := R.p_ge
  have hd := R.d_pos
  have hd1 := R.d_le
  have hnr : (1 : Rat) ≤ n := by exact_mod_cast hn
  have hnp : (0 : Rat) < n := by linarith
  have hT : 0 ≤ T := le_trans (by positivity) h1
  have hB : 0 ≤ B := by
    by_contra hb
    have : B * n < 0 := mul_neg_of_neg_of_pos (by linarith) hnp
    linarith
  have t0 : 0 ≤ T * 1000000000 := by positivity
  obtain ⟨a, ea⟩ : ∃ a, a = R.rnd (T * 1000000000) := ⟨_, rfl⟩
  have a0 : 0 ≤ a := ea ▸ R.nonneg t0
  have a1 : a ≤ T * 1000000000 * R.p := ea ▸ R.le_up t0
  have a2 : T * 1000000000 * R.d ≤ a := ea ▸ R.ge_down t0
  obtain ⟨b, eb⟩ : ∃ b : Rat, b = (roundAway a : Rat) := ⟨_, rfl⟩
  have b0 : 0 ≤ b := by rw [eb]; exact_mod_cast roundAway_nonneg a0
  have b1 : b ≤ a + 1 / 2 := eb ▸ roundAway_le a0
  have b2 : a - 1 / 2 ≤ b := eb ▸ roundAway_ge a0
  have c0 := R.nonneg b0
  have c1 := R.le_up b0
  have c2 := R.ge_down b0
  have d0 : 0 ≤ R.rnd b / 1000000000 := by positivity
  have d1 := R.le_up d0
  have d2 := R.ge_down d0
  have d3 := R.nonneg d0
  have e0 : 0 ≤ R.rnd (R.rnd b / 1000000000) / n := div_nonneg d3 hnp.le
  have e1 := R.le_up e0
  have e2 := R.ge_down e0
  rw [← ea, ← eb]
  refine ⟨R.nonneg e0, ?_, ?_⟩
  · refine e1.trans ?_
    have f1 : R.rnd b / 1000000000 ≤ (B * n * R.p + 1 / 2000000000) * R.p := by
      rw [div_le_iff₀ (by norm_num)]
      calc R.rnd b ≤ b * R.p := c1
        _ ≤ (B * n * 1000000000 * R.p + 1 / 2) * R.p := by
          refine mul_le_mul_of_nonneg_right ?_ (by linarith)
          have : T * 1000000000 * R.p ≤ B * n * 1000000000 * R.p := by
            apply mul_le_mul_of_nonneg_right _ (by linarith)
            linarith
          linarith
        _ = _ := by ring
    have f2 : R.rnd (R.rnd b / 1000000000) ≤ (B * n * R.p + 1 / 2000000000) * R.p * R.p := d1.trans (mul_le_mul_of_nonneg_right f1 (by linarith))
    have f3 : R.rnd (R.rnd b / 1000000000) / n ≤ (B * R.p + 1 / 1000000000) * R.p * R.p := by
      rw [div_le_iff₀ hnp]
      refine f2.trans ?_
      have : (B * n * R.p + 1 / 2000000000) ≤ (B * R.p + 1 / 1000000000) * n := by linarith [mul_comm (n : Rat) R.p, mul_assoc B (n : Rat) R.p, mul_assoc B R.p (n : Rat)]
      calc _ = (B * n * R.p + 1 / 2000000000) * (R.p * R.p) := by ring
        _ ≤ (B * R.p + 1 / 1000000000) * n * (R.p * R.p) := mul_le_mul_of_nonneg_right this (by positivity)
        _ = _ := by ring
    calc _ ≤ (B * R.p + 1 / 1000000000) * R.p * R.p * R.p := mul_le_mul_of_nonneg_right f3 (by linarith)
      _ = (B * R.p + 1 / 1000000000) * R.p ^ 3 := by ring
      _ ≤ (B * R.p + 1 / 1000000000 * R.p) * R.p ^ 3 := by
        refine mul_le_mul_of_nonneg_right ?_ (by positivity)
        linarith
      _ = _ := by ring
  · refine le_trans ?_ e2
    have f1 : (A * n * R.d - 1 / 2000000000) * R.d ≤ R.rnd b / 1000000000 := by
      rw [le_div_iff₀ (by norm_num)]
      calc _ = (A * n * 1000000000 * R.d - 1 / 2) * R.d := by ring
        _ ≤ b * R.d := by
          refine mul_le_mul_of_nonneg_right ?_ hd.le
          have : A * n * 1000000000 * R.d ≤ T * 1000000000 * R.d := by
            apply mul_le_mul_of_nonneg_right _ hd.le
            linarith
          linarith
        _ ≤ _ := c2
    have f2 : (A * n * R.d - 1 / 2000000000) * R.d * R.d ≤ R.rnd (R.rnd b / 1000000000) := (mul_le_mul_of_nonneg_right f1 hd.le).trans d2
    have f3 : (A * R.d - 1 / 1000000000) * R.d * R.d ≤ R.rnd (R.rnd b / 1000000000) / n := by
      rw [le_div_iff₀ hnp]
      refine le_trans ?_ f2
      have : (A * R.d - 1 / 1000000000) * n ≤ A * n * R.d - 1 / 2000000000 := by
        have : A * R.d * n = A * n * R.d := by ring
        linarith
      calc _ = (A * R.d - 1 / 1000000000) * n * (R.d * R.d) := by ring
        _ ≤ (A * n * R.d - 1 / 2000000000) * (R.d * R.d) := mul_le_mul_of_nonneg_right this (by positivity)
        _ = _ := by ring
    have f4 := mul_le_mul_of_nonneg_right f3 hd.le
    refine le_trans ?_ f4
    have : R.d ^ 3 ≤ 1 := pow_le_one₀ hd.le hd1
    calc A * R.d ^ 4 - 1 / 1000000000 ≤ A * R.d ^ 4 - 1 / 1000000000 * R.d ^ 3 := by linarith
      _ = _ := by ring

end Verif.Score
