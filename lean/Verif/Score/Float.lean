import Mathlib.Data.Int.Log
import Mathlib.Data.Rat.Floor
import Mathlib.Algebra.Order.Field.Power
import Mathlib.Tactic.Linarith
import Mathlib.Tactic.Positivity
import Mathlib.Tactic.NormNum
import Mathlib.Tactic.FieldSimp

/-
Floating point numbers, as far as scores need them: rational numbers that are rounded
after every operation, the two infinities, and not-a-number.

Simplified: exponents are unbounded, so that there is neither overflow nor underflow, and
there is only one zero.
-/

namespace Verif.Score

/-- How results are rounded. -/
structure Rounding where
  rnd : Rat → Rat
  /-- The largest relative error. -/
  u : Rat
  u_nonneg : 0 ≤ u
  u_lt : u < 1
  mono : ∀ {x y : Rat}, x ≤ y → rnd x ≤ rnd y
  /-- Small whole numbers are represented. -/
  nat : ∀ n : Nat, n ≤ 2 ^ 53 → rnd n = n
  err : ∀ x, |rnd x - x| ≤ |x| * u
  idem : ∀ x, rnd (rnd x) = rnd x

namespace Rounding

/-- No rounding. -/
def exact : Rounding where
  rnd x := x
  u := 0
  u_nonneg := le_refl _
  u_lt := by norm_num
  mono h := h
  nat _ _ := rfl
  err x := by simp
  idem _ := rfl

variable (R : Rounding)

theorem zero : R.rnd 0 = 0 := by simpa using R.nat 0 (by norm_num)

theorem hundred : R.rnd 100 = 100 := by simpa using R.nat 100 (by norm_num)

theorem nonneg {x : Rat} (h : 0 ≤ x) : 0 ≤ R.rnd x := by
  have := R.mono h
  rwa [R.zero] at this

/-- The largest factor of a rounding. -/
def p : Rat := 1 + R.u
/-- The smallest factor of a rounding. -/
def d : Rat := 1 - R.u

theorem p_ge : 1 ≤ R.p := by have := R.u_nonneg; unfold p; linarith
theorem d_pos : 0 < R.d := by have := R.u_lt; unfold d; linarith
theorem d_le : R.d ≤ 1 := by have := R.u_nonneg; unfold d; linarith

theorem le_up {x : Rat} (h : 0 ≤ x) : R.rnd x ≤ x * R.p := by
  have := (abs_le.1 (R.err x)).2
  rw [abs_of_nonneg h] at this
  unfold p
  linarith

theorem ge_down {x : Rat} (h : 0 ≤ x) : x * R.d ≤ R.rnd x := by
  have := (abs_le.1 (R.err x)).1
  rw [abs_of_nonneg h] at this
  unfold d
  linarith

theorem pos {x : Rat} (h : 0 < x) : 0 < R.rnd x := by
  have h1 := R.ge_down h.le
  have h2 := mul_pos h R.d_pos
  linarith

end Rounding

/-! ### Rounding to the nearest -/

/-- The nearest integer, the even one of two. -/
def nearest (x : Rat) : Int :=
  let r := x - ⌊x⌋
  if r < 1 / 2 then ⌊x⌋ else if 1 / 2 < r then ⌊x⌋ + 1 else if ⌊x⌋ % 2 = 0 then ⌊x⌋ else ⌊x⌋ + 1

theorem nearest_int (n : Int) : nearest n = n := by simp [nearest]

theorem nearest_err (x : Rat) : |(nearest x : Rat) - x| ≤ 1 / 2 := by
  have h1 := Int.floor_le x
  have h2 := Int.lt_floor_add_one x
  unfold nearest
  simp only
  rw [abs_le]
  split_ifs <;> push_cast <;> constructor <;> linarith

theorem nearest_mono {x y : Rat} (h : x ≤ y) : nearest x ≤ nearest y := by
  have hx1 := Int.floor_le x
  have hx2 := Int.lt_floor_add_one x
  have hy1 := Int.floor_le y
  have hy2 := Int.lt_floor_add_one y
  rcases (Int.floor_le_floor h).lt_or_eq with hlt | heq
  · have hle : ⌊x⌋ + 1 ≤ ⌊y⌋ := hlt
    have a : nearest x ≤ ⌊x⌋ + 1 := by unfold nearest; simp only; split_ifs <;> omega
    have b : ⌊y⌋ ≤ nearest y := by unfold nearest; simp only; split_ifs <;> omega
    omega
  · unfold nearest
    simp only
    rw [← heq] at *
    have : x - (⌊x⌋ : Rat) ≤ y - ⌊x⌋ := by linarith
    split_ifs <;> first | omega | (exfalso; linarith)

/-- The distance of floating point numbers near a positive number: 53 bits. -/
def spacing (x : Rat) : Rat := 2 ^ (Int.log 2 x - 52)

theorem spacing_pos (x : Rat) : 0 < spacing x := by unfold spacing; positivity

/-- The nearest floating point number to a positive one. -/
def roundPos (x : Rat) : Rat := nearest (x / spacing x) * spacing x

theorem spacing_le {x : Rat} (h : 0 < x) : spacing x * 2 ^ 52 ≤ x := by
  have := Int.zpow_log_le_self (b := 2) (by norm_num) h
  unfold spacing
  rw [zpow_sub₀ (by norm_num)]
  norm_num at this ⊢
  linarith

theorem lt_spacing {x : Rat} : x < spacing x * 2 ^ 53 := by
  have := Int.lt_zpow_succ_log_self (b := 2) (by norm_num) x
  unfold spacing
  rw [zpow_sub₀ (by norm_num)]
  rw [zpow_add₀ (by norm_num)] at this
  norm_num at this ⊢
  linarith

theorem roundPos_err {x : Rat} (h : 0 < x) : |roundPos x - x| ≤ x / 2 ^ 53 := by
  have hs := spacing_pos x
  have h1 := nearest_err (x / spacing x)
  have e : roundPos x - x = (nearest (x / spacing x) - x / spacing x) * spacing x := by
    unfold roundPos; field_simp
  rw [e, abs_mul, abs_of_pos hs]
  have h2 := spacing_le h
  have h3 := mul_le_mul_of_nonneg_right h1 hs.le
  have : 1 / 2 * spacing x ≤ x / 2 ^ 53 := by
    rw [le_div_iff₀ (by norm_num)]
    norm_num at h2 ⊢
    linarith
  linarith

theorem roundPos_le {x : Rat} : roundPos x ≤ spacing x * 2 ^ 53 := by
  have hs := spacing_pos x
  have : nearest (x / spacing x) ≤ nearest (((2 ^ 53 : Int) : Rat)) := by
    apply nearest_mono
    rw [div_le_iff₀ hs]
    have := (lt_spacing (x := x)).le
    push_cast
    linarith
  rw [nearest_int] at this
  have : (nearest (x / spacing x) : Rat) ≤ 2 ^ 53 := by exact_mod_cast this
  unfold roundPos
  nlinarith

theorem le_roundPos {x : Rat} (h : 0 < x) : spacing x * 2 ^ 52 ≤ roundPos x := by
  have hs := spacing_pos x
  have : nearest (((2 ^ 52 : Int) : Rat)) ≤ nearest (x / spacing x) := by
    apply nearest_mono
    rw [le_div_iff₀ hs]
    have := spacing_le h
    push_cast
    linarith
  rw [nearest_int] at this
  have : (2 ^ 52 : Rat) ≤ nearest (x / spacing x) := by exact_mod_cast this
  unfold roundPos
  nlinarith

theorem roundPos_pos {x : Rat} (h : 0 < x) : 0 < roundPos x := by
  have := le_roundPos h
  have := spacing_pos x
  have : 0 < spacing x * 2 ^ 52 := by positivity
  linarith

theorem roundPos_mono {x y : Rat} (hx : 0 < x) (h : x ≤ y) : roundPos x ≤ roundPos y := by
  have hy := hx.trans_le h
  rcases (Int.log_mono_right (b := 2) hx h).lt_or_eq with hlt | heq
  · have h1 := roundPos_le (x := x)
    have h2 := le_roundPos hy
    have h3 : spacing x * 2 ^ 53 ≤ spacing y * 2 ^ 52 := by
      unfold spacing
      have : (2 : Rat) ^ (Int.log 2 x - 52) * 2 ^ 53 = 2 ^ (Int.log 2 x - 52 + 53) := by
        rw [zpow_add₀ (by norm_num)]; norm_num
      rw [this]
      have : (2 : Rat) ^ (Int.log 2 y - 52) * 2 ^ 52 = 2 ^ (Int.log 2 y - 52 + 52) := by
        rw [zpow_add₀ (by norm_num)]; norm_num
      rw [this]
      exact zpow_le_zpow_right₀ (by norm_num) (by omega)
    linarith
  · have e : spacing x = spacing y := by unfold spacing; rw [heq]
    have hs := spacing_pos y
    unfold roundPos
    rw [e]
    have : nearest (x / spacing y) ≤ nearest (y / spacing y) := nearest_mono (div_le_div_of_nonneg_right h hs.le)
    have : (nearest (x / spacing y) : Rat) ≤ nearest (y / spacing y) := by exact_mod_cast this
    exact mul_le_mul_of_nonneg_right this hs.le

/-- Multiples of the spacing that are not too large are represented. -/
theorem roundPos_rep {m : Int} {e : Int} (hm : 0 < m) (hle : m ≤ 2 ^ 53) : roundPos (m * 2 ^ e) = m * 2 ^ e := by
  have h2 : (0 : Rat) < 2 ^ e := by positivity
  have hx : (0 : Rat) < m * 2 ^ e := by positivity
  have hmq : (m : Rat) ≤ 2 ^ 53 := by exact_mod_cast hle
  by_cases htop : m = 2 ^ 53
  · have hl : Int.log 2 ((m : Rat) * 2 ^ e) = e + 53 := by
      have : (m : Rat) * 2 ^ e = ((2 : Nat) : Rat) ^ (e + 53) := by
        rw [htop, zpow_add₀ (by norm_num)]; push_cast; ring
      rw [this, Int.log_zpow (by norm_num)]
    unfold roundPos spacing
    rw [hl]
    have : (m : Rat) * 2 ^ e / 2 ^ (e + 53 - 52) = ((2 ^ 52 : Int) : Rat) := by
      rw [htop, zpow_sub₀ (by norm_num), zpow_add₀ (by norm_num)]; field_simp; norm_num
    rw [this, nearest_int, htop, zpow_sub₀ (by norm_num), zpow_add₀ (by norm_num)]
    push_cast; ring
  · have hlt : m < 2 ^ 53 := lt_of_le_of_ne hle htop
    have hl : Int.log 2 ((m : Rat) * 2 ^ e) < e + 53 := by
      rw [← Int.lt_zpow_iff_log_lt (by norm_num) hx, zpow_add₀ (by norm_num)]
      have : (m : Rat) < 2 ^ 53 := by exact_mod_cast hlt
      have := mul_lt_mul_of_pos_right this h2
      norm_num at this ⊢
      linarith
    obtain ⟨k, hk⟩ : ∃ k : Nat, e - (Int.log 2 ((m : Rat) * 2 ^ e) - 52) = k := ⟨_, (Int.toNat_of_nonneg (by omega)).symm⟩
    unfold roundPos spacing
    have : (m : Rat) * 2 ^ e / 2 ^ (Int.log 2 ((m : Rat) * 2 ^ e) - 52) = ((m * 2 ^ k : Int) : Rat) := by
      rw [mul_div_assoc, ← zpow_sub₀ (by norm_num), hk]
      push_cast
      rw [zpow_natCast]
    rw [this, nearest_int, ← this]
    field_simp

/-- The nearest floating point number. -/
def round64 (x : Rat) : Rat := if x = 0 then 0 else if 0 < x then roundPos x else -roundPos (-x)

theorem round64_neg (x : Rat) : round64 (-x) = -round64 x := by
  unfold round64
  rcases lt_trichotomy x 0 with h | h | h
  · rw [if_neg (by linarith), if_pos (by linarith), if_neg (by linarith), if_neg (by linarith)]; ring
  · subst h; simp
  · rw [if_neg (by linarith), if_neg (by linarith), if_neg (by linarith), if_pos (by linarith)]; simp

theorem round64_pos {x : Rat} (h : 0 < x) : round64 x = roundPos x := by
  unfold round64; rw [if_neg (by linarith), if_pos h]

theorem round64_of_neg {x : Rat} (h : x < 0) : round64 x = -roundPos (-x) := by
  unfold round64; rw [if_neg (by linarith), if_neg (by linarith)]

/-- Whole multiples of powers of two are represented. -/
theorem round64_rep {m : Int} {e : Int} (h : |m| ≤ 2 ^ 53) : round64 (m * 2 ^ e) = m * 2 ^ e := by
  have h2 : (0 : Rat) < 2 ^ e := by positivity
  rcases lt_trichotomy m 0 with hm | hm | hm
  · have hp : (0 : Rat) < ((-m : Int) : Rat) * 2 ^ e := by
      have : (0 : Rat) < ((-m : Int) : Rat) := by exact_mod_cast (by omega)
      positivity
    have := roundPos_rep (m := -m) (e := e) (by omega) ((neg_le_abs m).trans h)
    rw [← neg_neg ((m : Rat) * 2 ^ e), round64_neg, show -((m : Rat) * 2 ^ e) = ((-m : Int) : Rat) * 2 ^ e by push_cast; ring,
      round64_pos hp, this]
  · subst hm; simp [round64]
  · have hp : (0 : Rat) < (m : Rat) * 2 ^ e := by positivity
    rw [round64_pos hp, roundPos_rep hm ((le_abs_self m).trans h)]

theorem round64_mono {x y : Rat} (h : x ≤ y) : round64 x ≤ round64 y := by
  rcases lt_trichotomy x 0 with hx | hx | hx
  · have h0 := roundPos_pos (x := -x) (by linarith)
    rw [round64_of_neg hx]
    rcases lt_trichotomy y 0 with hy | hy | hy
    · have := roundPos_mono (x := -y) (y := -x) (by linarith) (by linarith)
      rw [round64_of_neg hy]
      linarith
    · subst hy
      simp [round64]; linarith
    · have := roundPos_pos hy
      rw [round64_pos hy]
      linarith
  · subst hx
    rcases h.lt_or_eq with hy | hy
    · have := roundPos_pos hy
      rw [round64_pos hy]; simp [round64]; linarith
    · subst hy; rfl
  · rw [round64_pos hx, round64_pos (hx.trans_le h)]; exact roundPos_mono hx h

theorem roundPos_form {x : Rat} (h : 0 < x) : ∃ m e : Int, |m| ≤ 2 ^ 53 ∧ roundPos x = m * 2 ^ e := by
  refine ⟨nearest (x / spacing x), Int.log 2 x - 52, ?_, rfl⟩
  have hs := spacing_pos x
  have h1 := roundPos_le (x := x)
  have h2 := roundPos_pos h
  unfold roundPos at h1 h2
  have h3 : (nearest (x / spacing x) : Rat) ≤ 2 ^ 53 := by
    by_contra hc
    have := mul_lt_mul_of_pos_right (not_le.1 hc) hs
    linarith
  have h4 : (0 : Rat) ≤ (nearest (x / spacing x) : Rat) := by
    by_contra hc
    have := mul_neg_of_neg_of_pos (not_le.1 hc) hs
    linarith
  have h3 : nearest (x / spacing x) ≤ 2 ^ 53 := by exact_mod_cast h3
  have h4 : 0 ≤ nearest (x / spacing x) := by exact_mod_cast h4
  rw [abs_of_nonneg h4]; exact h3

/-- 53 bits, to the nearest, ties to even: `float64` without limits for the exponent. -/
def ieee : Rounding where
  rnd := round64
  u := 1 / 2 ^ 53
  u_nonneg := by norm_num
  u_lt := by norm_num
  mono := round64_mono
  nat n h := by
    have := round64_rep (m := n) (e := 0) (by rw [abs_of_nonneg (by omega)]; exact_mod_cast h)
    simpa using this
  err x := by
    rw [mul_one_div]
    rcases lt_trichotomy x 0 with hx | hx | hx
    · have := roundPos_err (x := -x) (by linarith)
      rw [round64_of_neg hx, abs_of_neg hx, show -roundPos (-x) - x = -(roundPos (-x) - -x) by ring, abs_neg]
      exact this
    · subst hx; simp [round64]
    · rw [round64_pos hx, abs_of_pos hx]; exact roundPos_err hx
  idem x := by
    rcases lt_trichotomy x 0 with hx | hx | hx
    · obtain ⟨m, e, hm, h⟩ := roundPos_form (x := -x) (by linarith)
      rw [round64_of_neg hx, round64_neg, h, round64_rep hm]
    · subst hx; simp [round64]
    · obtain ⟨m, e, hm, h⟩ := roundPos_form hx
      rw [round64_pos hx, h, round64_rep hm]

/-! ### Numbers -/

/-- A `float64` (`score.Value`, internal/scoring/score/axis.go:25). -/
inductive Val
  | nan
  | inf (neg : Bool)
  | fin (q : Rat)
deriving DecidableEq

namespace Val

/-- The negative. -/
def neg : Val → Val
  | nan => nan
  | inf s => inf (!s)
  | fin q => fin (-q)

/-- The sum (Go's `+` on `float64`). -/
def add (R : Rounding) : Val → Val → Val
  | fin a, fin b => fin (R.rnd (a + b))
  | nan, _ => nan
  | _, nan => nan
  | inf s, inf t => if s = t then inf s else nan
  | inf s, fin _ => inf s
  | fin _, inf t => inf t

/-- The difference (Go's `-` on `float64`). -/
def sub (R : Rounding) (a b : Val) : Val := add R a b.neg

/-- The product (Go's `*` on `float64`). -/
def mul (R : Rounding) : Val → Val → Val
  | fin a, fin b => fin (R.rnd (a * b))
  | nan, _ => nan
  | _, nan => nan
  | inf s, inf t => inf (s != t)
  | inf s, fin b => if b = 0 then nan else inf (s != decide (b < 0))
  | fin a, inf t => if a = 0 then nan else inf (t != decide (a < 0))

/-- The quotient (Go's `/` on `float64`). -/
def div (R : Rounding) : Val → Val → Val
  | fin a, fin b => if b = 0 then (if a = 0 then nan else inf (decide (a < 0))) else fin (R.rnd (a / b))
  | nan, _ => nan
  | _, nan => nan
  | inf _, inf _ => nan
  | inf s, fin b => inf (s != decide (b < 0))
  | fin _, inf _ => fin 0

/-- Whether a number is greater than zero (Go's `> 0` on `float64`). -/
def isPos : Val → Bool
  | nan => false
  | inf s => !s
  | fin q => 0 < q

/-- The conversion of an unsigned integer (Go's `float64(n)`). -/
def ofNat (R : Rounding) (n : Nat) : Val := fin (R.rnd n)

end Val

end Verif.Score
