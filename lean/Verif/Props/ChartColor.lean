import Mathlib.Analysis.Real.Sqrt
import Mathlib.Algebra.Order.Archimedean.Real.Basic
import Verif.Score.Float
import Verif.Server.ChartColor

/-
C98: the colours of the points in the chart of scores.
-/

namespace Verif.Props.ChartColor

open Verif.Server

/-- What is assumed of the arithmetic: rounding keeps the order, does not depend on the sign, keeps 255, and has a relative error
of at most `1 / 2 ^ 20`; square roots keep the order, and only that of zero is zero. -/
structure Lawful {K : Type} [Field K] [LinearOrder K] (A : Arith K) : Prop where
  mono : ∀ {x y : K}, x ≤ y → A.rnd x ≤ A.rnd y
  neg : ∀ x, A.rnd (-x) = -A.rnd x
  top : A.rnd 255 = 255
  err : ∀ x, |A.rnd x - x| ≤ |x| / 2 ^ 20
  sqrtMono : ∀ {x y : K}, 0 ≤ x → x ≤ y → A.sqrt x ≤ A.sqrt y
  sqrtZero : A.sqrt 0 = 0
  sqrtPos : ∀ {x : K}, 0 < x → 0 < A.sqrt x

section
variable {K : Type} [Field K] [LinearOrder K] [IsStrictOrderedRing K] {A : Arith K}

theorem Lawful.zero (L : Lawful A) : A.rnd 0 = 0 := by
  have := L.err 0
  simpa using this

theorem Lawful.nonneg (L : Lawful A) {x : K} (h : 0 ≤ x) : 0 ≤ A.rnd x := by
  have := L.mono h
  rwa [L.zero] at this

theorem Lawful.pos (L : Lawful A) {x : K} (h : 0 < x) : 0 < A.rnd x := by
  have h1 := abs_le.1 (L.err x)
  rw [abs_of_pos h] at h1
  have h2 : x / 2 ^ 20 < x := div_lt_self h (by norm_num)
  linarith [h1.1]

/-- The distance of two points whose coordinates differ by `w` and `h`. -/
def len (A : Arith K) (ratio w h : K) : K :=
  A.sqrt (A.rnd (A.rnd (A.rnd (A.rnd w / ratio) * A.rnd (A.rnd w / ratio)) + A.rnd (A.rnd h * A.rnd h)))

omit [IsStrictOrderedRing K] in
theorem distance_eq {ratio : K} (hr : ratio ≠ 0) (a b c d : K) :
    scoreChartDistance A a b c d ratio = some (len A ratio (c - a) (d - b)) := by
  simp [scoreChartDistance, Arith.quot, hr, len]

omit [IsStrictOrderedRing K] in
theorem len_neg (L : Lawful A) (ratio w h : K) : len A ratio (-w) (-h) = len A ratio w h := by
  unfold len
  rw [L.neg w, L.neg h, neg_div, L.neg, neg_mul_neg, neg_mul_neg]

theorem len_mono (L : Lawful A) {ratio w h w' h' : K} (hr : 0 < ratio) (hw : 0 ≤ w) (hw' : w ≤ w') (hh : 0 ≤ h) (hh' : h ≤ h') :
    len A ratio w h ≤ len A ratio w' h' := by
  have h1 : A.rnd (A.rnd w / ratio) ≤ A.rnd (A.rnd w' / ratio) := L.mono (div_le_div_of_nonneg_right (L.mono hw') hr.le)
  have h2 : 0 ≤ A.rnd (A.rnd w / ratio) := L.nonneg (div_nonneg (L.nonneg hw) hr.le)
  have h3 := L.mono (mul_self_le_mul_self h2 h1)
  have h4 := L.mono (mul_self_le_mul_self (L.nonneg hh) (L.mono hh'))
  exact L.sqrtMono (L.nonneg (add_nonneg (L.nonneg (mul_self_nonneg _)) (L.nonneg (mul_self_nonneg _)))) (L.mono (add_le_add h3 h4))

theorem len_zero (L : Lawful A) (ratio : K) : len A ratio 0 0 = 0 := by simp [len, L.zero, L.sqrtZero]

theorem len_pos (L : Lawful A) {ratio w h : K} (hh : 0 < h) : 0 < len A ratio w h :=
  L.sqrtPos (L.pos (add_pos_of_nonneg_of_pos (L.nonneg (mul_self_nonneg _)) (L.pos (mul_pos (L.pos hh) (L.pos hh)))))

/-- The number of which `scoreChartColor` takes the whole part. -/
def shade (A : Arith K) (d D : K) : K := A.rnd (255 - A.rnd (A.rnd (255 * d) / D))

theorem shade_anti (L : Lawful A) {d d' D : K} (hD : 0 < D) (h : d ≤ d') : shade A d' D ≤ shade A d D := by
  refine L.mono (sub_le_sub_left (L.mono (div_le_div_of_nonneg_right (L.mono ?_) hD.le)) _)
  exact mul_le_mul_of_nonneg_left h (by norm_num)

theorem shade_zero (L : Lawful A) (D : K) : shade A 0 D = 255 := by simp [shade, L.zero, L.top]

theorem shade_end (L : Lawful A) {D : K} (hD : 0 < D) : -1 < shade A D D ∧ shade A D D < 1 := by
  unfold shade
  have h0 : 0 < 255 * D := by positivity
  have h1 := abs_le.1 (L.err (255 * D))
  rw [abs_of_pos h0] at h1
  have a1 : A.rnd (255 * D) / D ≤ 255 + 255 / 2 ^ 20 := by
    rw [div_le_iff₀ hD]; have := h1.2; linarith
  have a2 : 255 - 255 / 2 ^ 20 ≤ A.rnd (255 * D) / D := by
    rw [le_div_iff₀ hD]; have := h1.1; linarith
  generalize A.rnd (255 * D) / D = q at a1 a2
  have h2 := abs_le.1 (L.err q)
  rw [abs_of_nonneg (by linarith [show (0 : K) ≤ 255 - 255 / 2 ^ 20 by norm_num])] at h2
  have b1 : A.rnd q ≤ 256 - 1 / 2 := by
    have := h2.2
    have : q / 2 ^ 20 ≤ (255 + 255 / 2 ^ 20) / 2 ^ 20 := div_le_div_of_nonneg_right a1 (by norm_num)
    have : (255 + 255 / 2 ^ 20 : K) + (255 + 255 / 2 ^ 20) / 2 ^ 20 ≤ 256 - 1 / 2 := by norm_num
    linarith
  have b2 : 254 + 1 / 2 ≤ A.rnd q := by
    have := h2.1
    have : q / 2 ^ 20 ≤ (255 + 255 / 2 ^ 20) / 2 ^ 20 := div_le_div_of_nonneg_right a1 (by norm_num)
    have : (254 + 1 / 2 : K) ≤ (255 - 255 / 2 ^ 20 : K) - (255 + 255 / 2 ^ 20) / 2 ^ 20 := by norm_num
    linarith
  generalize A.rnd q = p at b1 b2
  have h3 := abs_le.1 (L.err (255 - p))
  have h4 : |255 - p| ≤ 1 / 2 := abs_le.2 ⟨by linarith, by linarith⟩
  have h5 : |255 - p| / 2 ^ 20 ≤ 1 / 4 := by
    have := div_le_div_of_nonneg_right h4 (show (0 : K) ≤ 2 ^ 20 by norm_num)
    have : (1 / 2 / 2 ^ 20 : K) ≤ 1 / 4 := by norm_num
    linarith
  have h6 := abs_le.1 h4
  constructor <;> linarith [h3.1, h3.2, h6.1, h6.2]

variable [FloorRing K]

omit [IsStrictOrderedRing K] in
theorem toByte_eq {v : K} (h : -1 < v) (h' : v < 256) : toByte v = some ⌊v⌋.toNat := by simp [toByte, h, h']

theorem floor_le {v : K} (h : v ≤ 255) : ⌊v⌋.toNat ≤ 255 := by
  have : ⌊v⌋ ≤ 255 := by
    have := Int.floor_le_floor h
    simpa using this
  omega

theorem color_eq (L : Lawful A) {d D : K} (hD : 0 < D) (h0 : 0 ≤ d) (h : d ≤ D) :
    scoreChartColor A d D = some ⌊shade A d D⌋.toNat := by
  have h1 := shade_anti L hD h
  have h2 := shade_anti L hD h0
  rw [shade_zero L] at h2
  have h3 := (shade_end L hD).1
  have h4 : toByte (shade A d D) = some ⌊shade A d D⌋.toNat := toByte_eq (by linarith) (by linarith)
  unfold shade at h4 ⊢
  simp [scoreChartColor, not_lt.2 h, Arith.quot, hD.ne', h4]

/-- Boxes that have an area. -/
structure Area (b : Box K) : Prop where
  x : b.xMin < b.xMax
  y : b.yMin < b.yMax

/-- Points in a box. -/
structure Inside (b : Box K) (x y : K) : Prop where
  left : b.xMin ≤ x
  right : x ≤ b.xMax
  low : b.yMin ≤ y
  high : y ≤ b.yMax

/-- The ratio that is used for a box. -/
def ratio (A : Arith K) (b : Box K) : K := A.rnd (A.rnd (b.xMax - b.xMin) / A.rnd (b.yMax - b.yMin))

omit [FloorRing K] in
theorem ratio_pos (L : Lawful A) {b : Box K} (hb : Area b) : 0 < ratio A b :=
  L.pos (div_pos (L.pos (sub_pos.2 hb.x)) (L.pos (sub_pos.2 hb.y)))

/-- The diagonal of a box. -/
def diagonal (A : Arith K) (b : Box K) : K := len A (ratio A b) (b.xMax - b.xMin) (b.yMax - b.yMin)

theorem function_eq (L : Lawful A) {b : Box K} (hb : Area b) (x y : K) :
    scoreChartColorFunction A b x y = (do
      let r ← scoreChartColor A (len A (ratio A b) (x - b.xMin) (y - b.yMin)) (diagonal A b)
      let g ← scoreChartColor A (len A (ratio A b) (b.xMax - x) (b.yMax - y)) (diagonal A b)
      return ⟨r, g, 0, 255⟩) := by
  have h0 : A.rnd (b.yMax - b.yMin) ≠ 0 := (L.pos (sub_pos.2 hb.y)).ne'
  have h1 : scoreChartRatio A b.xMin b.yMin b.xMax b.yMax = some (ratio A b) := by
    simp [scoreChartRatio, Arith.quot, h0, ratio]
  have hr := (ratio_pos L hb).ne'
  have h2 : len A (ratio A b) (b.xMin - x) (b.yMin - y) = len A (ratio A b) (x - b.xMin) (y - b.yMin) := by
    rw [← len_neg L, neg_sub, neg_sub]
  have h3 : len A (ratio A b) (x - b.xMax) (y - b.yMax) = len A (ratio A b) (b.xMax - x) (b.yMax - y) := by
    rw [← len_neg L, neg_sub, neg_sub]
  simp [scoreChartColorFunction, h1, distance_eq hr, h2, h3, diagonal]

theorem inside_eq (L : Lawful A) {b : Box K} (hb : Area b) {x y : K} (h : Inside b x y) :
    scoreChartColorFunction A b x y =
      some ⟨⌊shade A (len A (ratio A b) (x - b.xMin) (y - b.yMin)) (diagonal A b)⌋.toNat,
        ⌊shade A (len A (ratio A b) (b.xMax - x) (b.yMax - y)) (diagonal A b)⌋.toNat, 0, 255⟩ := by
  have hr := ratio_pos L hb
  have hD : 0 < diagonal A b := len_pos L (sub_pos.2 hb.y)
  have z : ∀ {w v : K}, 0 ≤ w → 0 ≤ v → 0 ≤ len A (ratio A b) w v := fun hw hv => by
    have := len_mono L hr le_rfl hw le_rfl hv
    rwa [len_zero L] at this
  have h1 := sub_nonneg.2 h.left
  have h2 := sub_nonneg.2 h.right
  have h3 := sub_nonneg.2 h.low
  have h4 := sub_nonneg.2 h.high
  rw [function_eq L hb, color_eq L hD (z h1 h3) (len_mono L hr h1 (sub_le_sub_right h.right _) h3 (sub_le_sub_right h.high _)),
    color_eq L hD (z h2 h4) (len_mono L hr h2 (sub_le_sub_left h.left _) h4 (sub_le_sub_left h.low _))]
  rfl

/-! ### With rounding -/

/-- C98: in a box with an area, every point has a colour: however results are rounded, what is converted to a byte fits in one
(wherever the point is, even outside). -/
theorem C98_defined (L : Lawful A) {b : Box K} (hb : Area b) (x y : K) :
    ∃ r g, scoreChartColorFunction A b x y = some ⟨r, g, 0, 255⟩ ∧ r ≤ 255 ∧ g ≤ 255 := by
  have hr := ratio_pos L hb
  have hD : 0 < diagonal A b := len_pos L (sub_pos.2 hb.y)
  have key : ∀ w h : K, ∃ c, scoreChartColor A (len A (ratio A b) w h) (diagonal A b) = some c ∧ c ≤ 255 := by
    intro w h
    by_cases hc : diagonal A b < len A (ratio A b) w h
    · exact ⟨0, by simp [scoreChartColor, hc], by omega⟩
    · have h0 : 0 ≤ len A (ratio A b) w h := by
        have := L.sqrtMono le_rfl (L.nonneg (add_nonneg (L.nonneg (mul_self_nonneg (A.rnd (A.rnd w / ratio A b))))
          (L.nonneg (mul_self_nonneg (A.rnd h)))))
        rwa [L.sqrtZero] at this
      refine ⟨_, color_eq L hD h0 (not_lt.1 hc), floor_le ?_⟩
      have := shade_anti L hD h0
      rwa [shade_zero L] at this
  obtain ⟨r, hr', hr''⟩ := key (x - b.xMin) (y - b.yMin)
  obtain ⟨g, hg', hg''⟩ := key (b.xMax - x) (b.yMax - y)
  exact ⟨r, g, by rw [function_eq L hb, hr', hg']; rfl, hr'', hg''⟩

/-- C98: better scores are never shown in more red or in less green. -/
theorem C98_better (L : Lawful A) {b : Box K} (hb : Area b) {x y x' y' : K} (h : Inside b x y) (h' : Inside b x' y')
    (hx : x ≤ x') (hy : y ≤ y') :
    ∃ c c', scoreChartColorFunction A b x y = some c ∧ scoreChartColorFunction A b x' y' = some c' ∧ c'.r ≤ c.r ∧ c.g ≤ c'.g := by
  have hr := ratio_pos L hb
  have hD : 0 < diagonal A b := len_pos L (sub_pos.2 hb.y)
  refine ⟨_, _, inside_eq L hb h, inside_eq L hb h', ?_, ?_⟩
  · exact Int.toNat_le_toNat (Int.floor_le_floor (shade_anti L hD (len_mono L hr (sub_nonneg.2 h.left) (sub_le_sub_right hx _)
      (sub_nonneg.2 h.low) (sub_le_sub_right hy _))))
  · exact Int.toNat_le_toNat (Int.floor_le_floor (shade_anti L hD (len_mono L hr (sub_nonneg.2 h'.right) (sub_le_sub_left hx _)
      (sub_nonneg.2 h'.high) (sub_le_sub_left hy _))))

theorem floor_end (L : Lawful A) {D : K} (hD : 0 < D) : ⌊shade A D D⌋.toNat = 0 := by
  have h := shade_end L hD
  have : ⌊shade A D D⌋ < 1 := Int.floor_lt.2 (by simpa using h.2)
  omega

/-- C98: the worst corner is purely red and the best one purely green, however results are rounded. -/
theorem C98_corners (L : Lawful A) {b : Box K} (hb : Area b) :
    scoreChartColorFunction A b b.xMin b.yMin = some ⟨255, 0, 0, 255⟩ ∧
    scoreChartColorFunction A b b.xMax b.yMax = some ⟨0, 255, 0, 255⟩ := by
  have hD : 0 < diagonal A b := len_pos L (sub_pos.2 hb.y)
  have e : ⌊(255 : K)⌋.toNat = 255 := by
    have : ⌊((255 : Int) : K)⌋ = 255 := Int.floor_intCast 255
    have h2 : ((255 : Int) : K) = 255 := by norm_num
    rw [h2] at this
    rw [this]; rfl
  have f := floor_end L hD
  unfold diagonal at f hD
  constructor
  · rw [inside_eq L hb ⟨le_rfl, hb.x.le, le_rfl, hb.y.le⟩, sub_self, sub_self, len_zero L, shade_zero L, e]
    unfold diagonal
    rw [f]
  · rw [inside_eq L hb ⟨hb.x.le, le_rfl, hb.y.le, le_rfl⟩, sub_self, sub_self, len_zero L, shade_zero L, e]
    unfold diagonal
    rw [f]

/-- C98 needs the area: if all points are at the same height, or the same distance to the right, then nothing is shown
(not-a-number is converted to a byte). -/
theorem C98_flat (L : Lawful A) (b : Box K) (h : b.xMin = b.xMax ∨ b.yMin = b.yMax) (x y : K) :
    scoreChartColorFunction A b x y = none := by
  have : scoreChartRatio A b.xMin b.yMin b.xMax b.yMax = none ∨ scoreChartRatio A b.xMin b.yMin b.xMax b.yMax = some 0 := by
    by_cases h0 : A.rnd (b.yMax - b.yMin) = 0
    · left; simp [scoreChartRatio, Arith.quot, h0]
    · right
      have hx : b.xMin = b.xMax := by
        rcases h with h | h
        · exact h
        · exact absurd (by rw [h, sub_self, L.zero]) h0
      simp [scoreChartRatio, Arith.quot, h0, hx, L.zero]
  rcases this with h | h
  · simp [scoreChartColorFunction, h]
  · simp [scoreChartColorFunction, h, scoreChartDistance, Arith.quot]

end

/-! ### Without rounding -/

/-- Real numbers, not rounded. -/
noncomputable def real : Arith ℝ := ⟨id, Real.sqrt⟩

theorem real_lawful : Lawful real where
  mono h := h
  neg _ := rfl
  top := rfl
  err x := by simp only [real, id, sub_self, abs_zero]; positivity
  sqrtMono _ h := Real.sqrt_le_sqrt h
  sqrtZero := Real.sqrt_zero
  sqrtPos h := Real.sqrt_pos.2 h

/-- The square of the distance of a point from a corner, where the box counts as a square with sides of length 1. -/
noncomputable def away (b : Box ℝ) (cx cy x y : ℝ) : ℝ := ((x - cx) / (b.xMax - b.xMin)) ^ 2 + ((y - cy) / (b.yMax - b.yMin)) ^ 2

theorem real_len {b : Box ℝ} (hb : Area b) (w h : ℝ) :
    len real (ratio real b) w h = (b.yMax - b.yMin) * Real.sqrt ((w / (b.xMax - b.xMin)) ^ 2 + (h / (b.yMax - b.yMin)) ^ 2) := by
  have hx := sub_pos.2 hb.x
  have hy := sub_pos.2 hb.y
  have : len real (ratio real b) w h = Real.sqrt (w / ((b.xMax - b.xMin) / (b.yMax - b.yMin)) * (w / ((b.xMax - b.xMin) / (b.yMax - b.yMin))) + h * h) := rfl
  rw [this, show w / ((b.xMax - b.xMin) / (b.yMax - b.yMin)) * (w / ((b.xMax - b.xMin) / (b.yMax - b.yMin))) + h * h
      = (b.yMax - b.yMin) ^ 2 * ((w / (b.xMax - b.xMin)) ^ 2 + (h / (b.yMax - b.yMin)) ^ 2) by field_simp,
    Real.sqrt_mul (sq_nonneg _), Real.sqrt_sq hy.le]

theorem real_diagonal {b : Box ℝ} (hb : Area b) : diagonal real b = (b.yMax - b.yMin) * Real.sqrt 2 := by
  have hx := (sub_pos.2 hb.x).ne'
  have hy := (sub_pos.2 hb.y).ne'
  rw [diagonal, real_len hb, div_self hx, div_self hy]
  norm_num

theorem real_shade {b : Box ℝ} (hb : Area b) (w h : ℝ) {k : Nat} (hk : k ≤ 255) :
    (k : ℝ) ≤ shade real (len real (ratio real b) w h) (diagonal real b) ↔
      255 ^ 2 * ((w / (b.xMax - b.xMin)) ^ 2 + (h / (b.yMax - b.yMin)) ^ 2) ≤ 2 * (255 - k : ℝ) ^ 2 := by
  have hy := sub_pos.2 hb.y
  have h2 : 0 < Real.sqrt 2 := Real.sqrt_pos.2 (by norm_num)
  rw [real_diagonal hb, real_len hb]
  generalize hq : (w / (b.xMax - b.xMin)) ^ 2 + (h / (b.yMax - b.yMin)) ^ 2 = q
  have hq0 : 0 ≤ q := by rw [← hq]; positivity
  generalize b.yMax - b.yMin = v at hy
  have e : shade real (v * Real.sqrt q) (v * Real.sqrt 2) = 255 - 255 * Real.sqrt q / Real.sqrt 2 := by
    have : shade real (v * Real.sqrt q) (v * Real.sqrt 2) = 255 - 255 * (v * Real.sqrt q) / (v * Real.sqrt 2) := rfl
    rw [this]
    field_simp
  have hk' : (0 : ℝ) ≤ 255 - k := by
    have : (k : ℝ) ≤ 255 := by exact_mod_cast hk
    linarith
  rw [e, le_sub_comm, div_le_iff₀ h2]
  have s1 : 255 * Real.sqrt q = Real.sqrt (255 ^ 2 * q) := by
    rw [Real.sqrt_mul (by norm_num), Real.sqrt_sq (by norm_num)]
  have s2 : (255 - k : ℝ) * Real.sqrt 2 = Real.sqrt (2 * (255 - k : ℝ) ^ 2) := by
    rw [Real.sqrt_mul (by norm_num), Real.sqrt_sq hk', mul_comm]
  rw [s1, s2, Real.sqrt_le_sqrt_iff (by positivity)]

theorem le_floor {v : ℝ} {k : Nat} : k ≤ ⌊v⌋.toNat ↔ k = 0 ∨ (k : ℝ) ≤ v := by
  rcases Nat.eq_zero_or_pos k with h | h
  · simp [h]
  · have : (k : ℝ) ≤ v ↔ (k : Int) ≤ ⌊v⌋ := by rw [Int.le_floor]; norm_cast
    rw [this]
    omega

/-- C98: without rounding, the red of a point is how near it is to the worst corner, and its green how near it is to the best one, the
box taken for a square: there are at least `k` parts of 255 of a colour just if the distance is at most `(255 - k) / 255` of the
diagonal. -/
theorem C98_exact {b : Box ℝ} (hb : Area b) {x y : ℝ} (h : Inside b x y) :
    ∃ r g, scoreChartColorFunction real b x y = some ⟨r, g, 0, 255⟩ ∧
      (∀ k : Nat, k ≤ 255 → (k ≤ r ↔ 255 ^ 2 * away b b.xMin b.yMin x y ≤ 2 * (255 - k : ℝ) ^ 2)) ∧
      (∀ k : Nat, k ≤ 255 → (k ≤ g ↔ 255 ^ 2 * away b b.xMax b.yMax x y ≤ 2 * (255 - k : ℝ) ^ 2)) := by
  have hx := sub_pos.2 hb.x
  have hy := sub_pos.2 hb.y
  have bound : ∀ {w v : ℝ}, 0 ≤ w → w ≤ b.xMax - b.xMin → 0 ≤ v → v ≤ b.yMax - b.yMin →
      255 ^ 2 * ((w / (b.xMax - b.xMin)) ^ 2 + (v / (b.yMax - b.yMin)) ^ 2) ≤ 2 * (255 - ((0 : Nat) : ℝ)) ^ 2 := by
    intro w v h1 h2 h3 h4
    have a1 : (w / (b.xMax - b.xMin)) ^ 2 ≤ 1 := pow_le_one₀ (div_nonneg h1 hx.le) ((div_le_one hx).2 h2)
    have a2 : (v / (b.yMax - b.yMin)) ^ 2 ≤ 1 := pow_le_one₀ (div_nonneg h3 hy.le) ((div_le_one hy).2 h4)
    norm_num
    linarith
  refine ⟨_, _, inside_eq real_lawful hb h, ?_, ?_⟩
  · intro k hk
    rw [le_floor, real_shade hb _ _ hk]
    constructor
    · rintro (h0 | h0)
      · subst h0
        exact bound (sub_nonneg.2 h.left) (sub_le_sub_right h.right _) (sub_nonneg.2 h.low) (sub_le_sub_right h.high _)
      · exact h0
    · exact Or.inr
  · intro k hk
    have e : away b b.xMax b.yMax x y = ((b.xMax - x) / (b.xMax - b.xMin)) ^ 2 + ((b.yMax - y) / (b.yMax - b.yMin)) ^ 2 := by
      unfold away
      rw [← neg_sub b.xMax x, ← neg_sub b.yMax y, neg_div, neg_div, neg_sq, neg_sq]
    rw [le_floor, real_shade hb _ _ hk, e]
    constructor
    · rintro (h0 | h0)
      · subst h0
        exact bound (sub_nonneg.2 h.right) (sub_le_sub_left h.left _) (sub_nonneg.2 h.high) (sub_le_sub_left h.low _)
      · exact h0
    · exact Or.inr

/-- C98: without rounding, there is as much red as green along the line from the upper left to the lower right. -/
theorem C98_muddy {b : Box ℝ} (hb : Area b) {x y : ℝ} (h : Inside b x y)
    (line : (x - b.xMin) / (b.xMax - b.xMin) + (y - b.yMin) / (b.yMax - b.yMin) = 1) :
    ∃ c, scoreChartColorFunction real b x y = some c ∧ c.r = c.g := by
  obtain ⟨r, g, e, hr, hg⟩ := C98_exact hb h
  obtain ⟨r', g', e', hr', hg'⟩ := C98_defined real_lawful hb x y
  rw [e] at e'
  obtain ⟨rfl, rfl⟩ : r = r' ∧ g = g' := by simpa using e'
  refine ⟨_, e, ?_⟩
  have hx := (sub_pos.2 hb.x).ne'
  have hy := (sub_pos.2 hb.y).ne'
  have same : away b b.xMin b.yMin x y = away b b.xMax b.yMax x y := by
    unfold away
    have a1 : (x - b.xMax) / (b.xMax - b.xMin) = -((y - b.yMin) / (b.yMax - b.yMin)) := by
      have : (x - b.xMax) / (b.xMax - b.xMin) = (x - b.xMin) / (b.xMax - b.xMin) - 1 := by field_simp; ring
      linarith
    have a2 : (y - b.yMax) / (b.yMax - b.yMin) = -((x - b.xMin) / (b.xMax - b.xMin)) := by
      have : (y - b.yMax) / (b.yMax - b.yMin) = (y - b.yMin) / (b.yMax - b.yMin) - 1 := by field_simp; ring
      linarith
    rw [a1, a2]
    ring
  rw [same] at hr
  exact le_antisymm ((hg r hr').2 ((hr r hr').1 le_rfl)) ((hr g hg').2 ((hg g hg').1 le_rfl))

/-! ### Cases -/

/-- The rounding of `float64`, with square roots to 60 binary places. -/
def machine : Arith Rat := ⟨Verif.Score.ieee.rnd, fun x => (Nat.sqrt ⌈x * 4 ^ 60⌉.toNat : Rat) / 2 ^ 60⟩

theorem machine_lawful : Lawful machine where
  mono h := Verif.Score.ieee.mono h
  neg := Verif.Score.round64_neg
  top := by
    have := Verif.Score.ieee.nat 255 (by norm_num)
    exact_mod_cast this
  err x := by
    refine (Verif.Score.ieee.err x).trans ?_
    rw [div_eq_mul_inv]
    refine mul_le_mul_of_nonneg_left ?_ (abs_nonneg _)
    show (1 : Rat) / 2 ^ 53 ≤ (2 ^ 20)⁻¹
    norm_num
  sqrtMono {x y} _ h := by
    refine div_le_div_of_nonneg_right ?_ (by norm_num)
    exact_mod_cast Nat.sqrt_le_sqrt (Int.toNat_le_toNat (Int.ceil_le_ceil (mul_le_mul_of_nonneg_right h (by norm_num))))
  sqrtZero := by simp [machine]
  sqrtPos {x} h := by
    refine div_pos ?_ (by norm_num)
    have : 0 < ⌈x * 4 ^ 60⌉ := Int.ceil_pos.2 (by positivity)
    have : 0 < ⌈x * 4 ^ 60⌉.toNat := by omega
    exact Nat.cast_pos.2 (Nat.sqrt_pos.2 this)

/-- The ranges of the chart of half size. -/
def half : Box Rat := ⟨50, 0, 100, 100⟩

theorem half_area : Area half := ⟨by decide +kernel, by decide +kernel⟩

/-- A good point, one in the middle, and one outside. -/
example : scoreChartColorFunction machine half 90 85 = some ⟨44, 209, 0, 255⟩ ∧
    scoreChartColorFunction machine half 75 50 = some ⟨127, 127, 0, 255⟩ ∧
    scoreChartColorFunction machine half 20 50 = some ⟨114, 0, 0, 255⟩ := by decide +kernel

example : ∃ c c', scoreChartColorFunction machine half 75 50 = some c ∧ scoreChartColorFunction machine half 90 85 = some c' ∧
    c'.r ≤ c.r ∧ c.g ≤ c'.g :=
  C98_better machine_lawful half_area ⟨by decide +kernel, by decide +kernel, by decide +kernel, by decide +kernel⟩
    ⟨by decide +kernel, by decide +kernel, by decide +kernel, by decide +kernel⟩ (by norm_num) (by norm_num)

example : scoreChartColorFunction machine half 50 0 = some ⟨255, 0, 0, 255⟩ := (C98_corners machine_lawful half_area).1

/-- All the results at the right edge. -/
example : scoreChartColorFunction machine ⟨100, 0, 100, 100⟩ 100 50 = none := C98_flat machine_lawful _ (Or.inl rfl) _ _

/-- A quarter of the way to the right and three quarters of the way up. -/
example : ∃ c, scoreChartColorFunction real ⟨50, 0, 100, 100⟩ (125 / 2) 75 = some c ∧ c.r = c.g :=
  C98_muddy ⟨by norm_num, by norm_num⟩ ⟨by norm_num, by norm_num, by norm_num, by norm_num⟩ (by norm_num)

end Verif.Props.ChartColor
