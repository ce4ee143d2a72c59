import Verif.Score.WarnAxis
import Verif.Data.WarnCount
import Verif.Props.ScoreAverage
import Mathlib.Data.List.Nodup
import Mathlib.Algebra.Order.Ring.Nat

/-
Lemmas about the warnings axis: what the loops compute when the counts are in range.
-/

set_option linter.unusedSimpArgs false

namespace Verif.Score
open Go Verif.Warning Verif.Data Verif.Props.ScoreAverage

/-! ### Averages -/

theorem rnd_hundreds (R : Rounding) (c : Nat) (h : 100 * c ≤ 2 ^ 53) : R.rnd (100 * (c : Rat)) = 100 * c := by
  have := R.nat (100 * c) h
  push_cast at this
  exact this

/-- Averages of larger scores are not smaller, and all are percentages. -/
theorem run_mono (R : Rounding) {α : Type} (f g : α → Rat) (t : α → Nat) : ∀ (l : List α) (x y : Rat) (c : Nat),
    0 ≤ x → x ≤ y → y ≤ 100 * c → (∀ a ∈ l, 0 ≤ f a ∧ f a ≤ g a ∧ g a ≤ 100) → 100 * (c + (l.map t).sum) ≤ 2 ^ 53 →
    ∃ x' y', (l.map fun a => Op.many (f a) (t a)).foldl (Op.run R) ⟨.fin x, c⟩ = ⟨.fin x', c + (l.map t).sum⟩ ∧
      (l.map fun a => Op.many (g a) (t a)).foldl (Op.run R) ⟨.fin y, c⟩ = ⟨.fin y', c + (l.map t).sum⟩ ∧
      0 ≤ x' ∧ x' ≤ y' ∧ y' ≤ 100 * (c + (l.map t).sum : Nat)
  | [], x, y, c, h0, h1, h2, _, _ => ⟨x, y, by simp, by simp, h0, h1, by simpa using h2⟩
  | a :: l, x, y, c, h0, h1, h2, ha, hs => by
    obtain ⟨f0, fg, g1⟩ := ha a (by simp)
    simp only [List.map_cons, List.sum_cons] at hs ⊢
    have ht : (0 : Rat) ≤ t a := by positivity
    have e1 : R.rnd (t a : Rat) = t a := R.nat _ (by omega)
    have m1 : 0 ≤ R.rnd (f a * t a) := R.nonneg (mul_nonneg f0 ht)
    have m2 : R.rnd (f a * t a) ≤ R.rnd (g a * t a) := R.mono (mul_le_mul_of_nonneg_right fg ht)
    have m3 : R.rnd (g a * t a) ≤ 100 * t a := by
      have := R.mono (mul_le_mul_of_nonneg_right g1 ht)
      rwa [rnd_hundreds R (t a) (by omega)] at this
    have b3 : R.rnd (y + R.rnd (g a * t a)) ≤ 100 * (c + t a : Nat) := by
      have h : y + R.rnd (g a * t a) ≤ 100 * ((c + t a : Nat) : Rat) := by push_cast; linarith
      have := R.mono h
      rwa [rnd_hundreds R (c + t a) (by omega)] at this
    obtain ⟨x', y', ex, ey, r⟩ := run_mono R f g t l (R.rnd (x + R.rnd (f a * t a))) (R.rnd (y + R.rnd (g a * t a))) (c + t a)
      (R.nonneg (by linarith)) (R.mono (by linarith)) b3 (fun b hb => ha b (by simp [hb])) (by omega)
    refine ⟨x', y', ?_, ?_, ?_⟩
    · simp only [List.foldl_cons, Op.run, Average.addMultiple, Val.mul, Val.ofNat, Val.add, e1, ex, Nat.add_assoc]
    · simp only [List.foldl_cons, Op.run, Average.addMultiple, Val.mul, Val.ofNat, Val.add, e1, ey, Nat.add_assoc]
    · rw [← Nat.add_assoc]; exact r

/-- The same for the averages. -/
theorem average_mono (R : Rounding) {α : Type} (f g : α → Rat) (t : α → Nat) (l : List α)
    (h : ∀ a ∈ l, 0 ≤ f a ∧ f a ≤ g a ∧ g a ≤ 100) (hw : 0 < (l.map t).sum) (hs : 100 * (l.map t).sum ≤ 2 ^ 53) :
    ∃ x y, averageOf R (l.map fun a => Op.many (f a) (t a)) = .fin x ∧
      averageOf R (l.map fun a => Op.many (g a) (t a)) = .fin y ∧ 0 ≤ x ∧ x ≤ y ∧ y ≤ 100 := by
  obtain ⟨x, y, ex, ey, h0, h1, h2⟩ := run_mono R f g t l 0 0 0 (le_refl _) (le_refl _) (by simp) h (by omega)
  rw [Nat.zero_add] at ex ey h2
  have hc : (0 : Rat) < ((l.map t).sum : Nat) := by exact_mod_cast hw
  have er : R.rnd (((l.map t).sum : Nat) : Rat) = ((l.map t).sum : Nat) := R.nat _ (by omega)
  unfold averageOf Average.average
  have ex' : (l.map fun a => Op.many (f a) (t a)).foldl (Op.run R) {} = ⟨.fin x, (l.map t).sum⟩ := ex
  have ey' : (l.map fun a => Op.many (g a) (t a)).foldl (Op.run R) {} = ⟨.fin y, (l.map t).sum⟩ := ey
  rw [ex', ey']
  simp only
  by_cases h3 : (l.map t).sum > 1
  · rw [if_pos h3, if_pos h3]
    simp only [Val.ofNat, Val.div, er, if_neg hc.ne']
    refine ⟨_, _, rfl, rfl, R.nonneg (div_nonneg h0 hc.le), R.mono (div_le_div_of_nonneg_right h1 hc.le), ?_⟩
    have : y / ((l.map t).sum : Nat) ≤ 100 := by rw [div_le_iff₀ hc]; exact h2
    have := R.mono this
    rwa [R.hundred] at this
  · have h4 : (l.map t).sum = 1 := by omega
    rw [if_neg h3, if_neg h3, if_pos h4, if_pos h4]
    rw [h4] at h2
    exact ⟨_, _, rfl, rfl, h0, h1, by simpa using h2⟩

theorem run_hundred (R : Rounding) {α : Type} (t : α → Nat) : ∀ (l : List α) (c : Nat), 100 * (c + (l.map t).sum) ≤ 2 ^ 53 →
    (l.map fun a => Op.many 100 (t a)).foldl (Op.run R) ⟨.fin (100 * c), c⟩ =
      ⟨.fin (100 * (c + (l.map t).sum : Nat)), c + (l.map t).sum⟩
  | [], c, _ => by simp
  | a :: l, c, h => by
    simp only [List.map_cons, List.sum_cons] at h ⊢
    have e1 : R.rnd (t a : Rat) = t a := R.nat _ (by omega)
    have e2 : R.rnd (100 * (c : Rat) + 100 * t a) = 100 * (c + t a : Nat) := by
      have := rnd_hundreds R (c + t a) (by omega)
      push_cast at this ⊢
      rwa [mul_add] at this ⊢
    simp only [List.foldl_cons, Op.run, Average.addMultiple, Val.mul, Val.ofNat, Val.add, e1, rnd_hundreds R (t a) (by omega), e2]
    rw [run_hundred R t l (c + t a) (by omega), Nat.add_assoc]

/-- The average of nothing but 100. -/
theorem average_hundred (R : Rounding) {α : Type} (t : α → Nat) (l : List α) (hw : 0 < (l.map t).sum) (hs : 100 * (l.map t).sum ≤ 2 ^ 53) :
    averageOf R (l.map fun a => Op.many 100 (t a)) = .fin 100 := by
  have e := run_hundred R t l 0 (by omega)
  rw [Nat.zero_add] at e
  have hc : (0 : Rat) < ((l.map t).sum : Nat) := by exact_mod_cast hw
  have er : R.rnd (((l.map t).sum : Nat) : Rat) = ((l.map t).sum : Nat) := R.nat _ (by omega)
  unfold averageOf Average.average
  have e' : (l.map fun a => Op.many 100 (t a)).foldl (Op.run R) {} = ⟨.fin (100 * ((l.map t).sum : Nat)), (l.map t).sum⟩ := by
    have : (⟨.fin (100 * ((0 : Nat) : Rat)), 0⟩ : Average) = {} := by simp
    rw [this] at e; exact e
  rw [e']
  simp only
  by_cases h3 : (l.map t).sum > 1
  · rw [if_pos h3]
    simp only [Val.ofNat, Val.div, er, if_neg hc.ne']
    rw [mul_div_assoc, div_self hc.ne', mul_one, R.hundred]
  · have h4 : (l.map t).sum = 1 := by omega
    rw [if_neg h3, if_pos h4, h4]
    norm_num

/-! ### One level -/

/-- The part of a range of `H` that is left after `c`, in percent. -/
def leftOver (R : Rounding) (H c : Nat) : Rat := R.rnd (100 * ((H : Rat) - c) / H)

theorem leftOver_bounds (R : Rounding) {H c : Nat} (h : c ≤ H) (h0 : 0 < H) : 0 ≤ leftOver R H c ∧ leftOver R H c ≤ 100 := by
  have hH : (0 : Rat) < H := by exact_mod_cast h0
  have hc : (c : Rat) ≤ H := by exact_mod_cast h
  have hc0 : (0 : Rat) ≤ c := by positivity
  constructor
  · exact R.nonneg (div_nonneg (by linarith) hH.le)
  · have : 100 * ((H : Rat) - c) / H ≤ 100 := by rw [div_le_iff₀ hH]; linarith
    have := R.mono this
    rwa [R.hundred] at this

theorem leftOver_mono (R : Rounding) {H c H' c' : Nat} (h : c ≤ H) (h0 : 0 < H') (hH : H' ≤ H) (hc : H - c ≤ H' - c') (hc' : c' ≤ H') :
    leftOver R H c ≤ leftOver R H' c' := by
  refine R.mono ?_
  have a : (0 : Rat) < H' := by exact_mod_cast h0
  have b : (H' : Rat) ≤ H := by exact_mod_cast hH
  have e : ((H : Rat) - c) ≤ (H' : Rat) - c' := by
    have h1 : ((H - c : Nat) : Rat) ≤ ((H' - c' : Nat) : Rat) := by exact_mod_cast hc
    rwa [Nat.cast_sub h, Nat.cast_sub hc'] at h1
  have n : (0 : Rat) ≤ (H : Rat) - c := by
    have : (c : Rat) ≤ H := by exact_mod_cast h
    linarith
  exact div_le_div₀ (by linarith) (by linarith) a b

/-- `RangedValue` for a range from 0. -/
theorem ranged_left (R : Rounding) {H c : Nat} (h : c ≤ H) (h0 : 0 < H) (hs : 100 * H ≤ 2 ^ 53) :
    (RangeU.add ⟨0, 0⟩ H).ranged R (Val.ofNat R c) = .fin (leftOver R H c) := by
  have e : RangeU.add ⟨0, 0⟩ H = ⟨0, H⟩ := by simp [RangeU.add, h0]
  have hH : (0 : Rat) < H := by exact_mod_cast h0
  have e1 : R.rnd (H : Rat) = H := R.nat _ (by omega)
  have e2 : R.rnd (c : Rat) = c := R.nat _ (by omega)
  have e3 : R.rnd ((H : Rat) + -c) = (H - c : Nat) := by
    rw [Nat.cast_sub h, ← sub_eq_add_neg, ← Nat.cast_sub h]
    exact R.nat _ (by omega)
  have e4 : R.rnd (100 * ((H - c : Nat) : Rat)) = 100 * ((H - c : Nat) : Rat) := rnd_hundreds R _ (by omega)
  have e5 : (H + 2 ^ 64 - 0) % 2 ^ 64 = H := by omega
  rw [e]
  simp only [RangeU.ranged, RangeU.length, Val.ofNat, Val.sub, Val.neg, Val.add, Val.mul, Val.div, e5, e1, e2, e3, e4, if_neg hH.ne']
  rw [Nat.cast_sub h]
  rfl

/-- The score of a level. -/
def levelScore (R : Rounding) (reg : Nat → List Bytes) (w : Warns) (ls : Levels) (l : Nat) : Rat :=
  match ls.level l with
  | none => 100
  | some d => leftOver R (seenCount w (reg l)) d.count

/-- The counts of a level are in range. -/
def LevelFits (reg : Nat → List Bytes) (w : Warns) (ls : Levels) (l : Nat) : Prop :=
  ∀ d, ls.level l = some d → d.level = l ∧ 0 < seenCount w (reg l) ∧ d.count ≤ seenCount w (reg l) ∧ 100 * seenCount w (reg l) ≤ 2 ^ 53

theorem levelScore_bounds (R : Rounding) {reg : Nat → List Bytes} {w : Warns} {ls : Levels} {l : Nat} (h : LevelFits reg w ls l) :
    0 ≤ levelScore R reg w ls l ∧ levelScore R reg w ls l ≤ 100 := by
  unfold levelScore
  cases hd : ls.level l with
  | none => norm_num
  | some d => exact leftOver_bounds R (h d hd).2.2.1 (h d hd).2.1

theorem first_add (R : Rounding) (x : Rat) (hx : R.rnd x = x) : Average.add R {} (.fin x) = ⟨.fin x, 1⟩ := by
  simp [Average.add, Val.add, hx]

theorem levelScore_rep (R : Rounding) (reg : Nat → List Bytes) (w : Warns) (ls : Levels) (l : Nat) :
    R.rnd (levelScore R reg w ls l) = levelScore R reg w ls l := by
  unfold levelScore
  cases ls.level l with
  | none => exact R.hundred
  | some d => exact R.idem _

theorem oneLevel_eq (R : Rounding) (weights : Map Nat Nat) {reg : Nat → List Bytes} {w : Warns} {ls : Levels} {l : Nat}
    (hl : l ∈ levelOrder) (h : LevelFits reg w ls l) (hd : WarnHandler) (a : Average) (hn : hd.byLevel.get l = none) :
    ∃ hd', oneLevel R weights reg w ls (some (hd, a)) l =
        some (hd', Op.run R a (.many (levelScore R reg w ls l) (weightOf weights l))) ∧
      hd'.byLevel = hd.byLevel.set l ⟨.fin (levelScore R reg w ls l), 1⟩ ∧ hd'.scores = hd.scores ∧ hd'.byTest = hd.byTest := by
  have hadd := first_add R _ (levelScore_rep R reg w ls l)
  unfold oneLevel
  simp only
  cases hls : ls.level l with
  | none =>
    have e : levelScore R reg w ls l = 100 := by unfold levelScore; rw [hls]
    rw [e] at hadd ⊢
    refine ⟨{ hd with byLevel := hd.byLevel.set l ⟨.fin 100, 1⟩ }, ?_, rfl, rfl, rfl⟩
    simp only [WarnHandler.level, hn, Option.getD_none, hadd, Map.get_set, if_true, Option.getD_some, Average.average, Op.run]
    norm_num
  | some d =>
    obtain ⟨h1, h2, h3, h4⟩ := h d hls
    have e : levelScore R reg w ls l = leftOver R (seenCount w (reg l)) d.count := by unfold levelScore; rw [hls]
    rw [e] at hadd ⊢
    have hr : rangeOf reg w d.level = some (RangeU.add ⟨0, 0⟩ (seenCount w (reg l))) := by
      unfold rangeOf levelRange; rw [h1, if_pos hl]
    refine ⟨{ hd with counts := hd.counts.set l d.count, byLevel := hd.byLevel.set l ⟨.fin (leftOver R (seenCount w (reg l)) d.count), 1⟩ }, ?_, rfl, rfl, rfl⟩
    simp only [hr, WarnHandler.countFor, WarnHandler.level, hn, Option.getD_none, Map.get_set, if_true, Option.getD_some,
      ranged_left R h3 h2 h4, hadd, Average.average, Op.run]
    norm_num

/-- The loop over the levels. -/
theorem levels_eq (R : Rounding) (weights : Map Nat Nat) {reg : Nat → List Bytes} {w : Warns} {ls : Levels} :
    ∀ (o : List Nat) (hd : WarnHandler) (a : Average), o.Nodup → (∀ l ∈ o, l ∈ levelOrder) → (∀ l ∈ o, LevelFits reg w ls l) →
      (∀ l ∈ o, hd.byLevel.get l = none) →
    ∃ hd', o.foldl (oneLevel R weights reg w ls) (some (hd, a)) =
        some (hd', (o.map fun l => Op.many (levelScore R reg w ls l) (weightOf weights l)).foldl (Op.run R) a) ∧
      (∀ l, hd'.byLevel.get l = if l ∈ o then some ⟨.fin (levelScore R reg w ls l), 1⟩ else hd.byLevel.get l) ∧
      hd'.scores = hd.scores ∧ hd'.byTest = hd.byTest
  | [], hd, a, _, _, _, _ => ⟨hd, rfl, by simp, rfl, rfl⟩
  | l :: o, hd, a, hnd, ho, hf, hn => by
    obtain ⟨hd1, e1, b1, s1, t1⟩ := oneLevel_eq R weights (ho l (by simp)) (hf l (by simp)) hd a (hn l (by simp))
    rw [List.nodup_cons] at hnd
    obtain ⟨hd2, e2, b2, s2, t2⟩ := levels_eq R weights o hd1 (Op.run R a (.many (levelScore R reg w ls l) (weightOf weights l))) hnd.2
      (fun x hx => ho x (by simp [hx])) (fun x hx => hf x (by simp [hx])) (fun x hx => by
        rw [b1, Map.get_set, if_neg (by rintro rfl; exact hnd.1 hx)]; exact hn x (by simp [hx]))
    refine ⟨hd2, by rw [List.foldl_cons, e1, e2]; rfl, fun x => ?_, s2.trans s1, t2.trans t1⟩
    rw [b2, b1, Map.get_set]
    by_cases hx : x = l
    · subst hx; rw [if_neg hnd.1]; simp
    · simp [hx]

/-! ### The original calculation -/

theorem fold_mod {α : Type} (f : α → Nat) : ∀ (l : List α) (acc : Nat), acc + (l.map f).sum < 2 ^ 64 →
    l.foldl (fun acc a => (acc + f a) % 2 ^ 64) acc = acc + (l.map f).sum
  | [], acc, _ => by simp
  | a :: l, acc, h => by
    simp only [List.map_cons, List.sum_cons] at h ⊢
    rw [List.foldl_cons, Nat.mod_eq_of_lt (by omega), fold_mod f l (acc + f a) (by omega)]
    omega

/-- The largest possible sum of weights. -/
def fullScore (weights : Map Nat Nat) (reg : Nat → List Bytes) (w : Warns) : Nat :=
  (levelOrder.map fun l => weightOf weights l * seenCount w (reg l)).sum

/-- The sum of weights of a handler. -/
def paidScore (weights : Map Nat Nat) (ls : Levels) : Nat :=
  (levelOrder.map fun l => weightOf weights l * ((ls.level l).elim 0 DLevel.count)).sum

theorem maxScore_eq {weights : Map Nat Nat} {reg : Nat → List Bytes} {w : Warns} (h : fullScore weights reg w < 2 ^ 64) :
    maxScore weights reg w = fullScore weights reg w := by
  unfold maxScore
  rw [fold_mod (fun l => weightOf weights l * seenCount w (reg l)) levelOrder 0 (by rw [Nat.zero_add]; exact h), Nat.zero_add]
  rfl

theorem paid_sum {weights : Map Nat Nat} {ls : Levels} : ∀ o : List Nat, (∀ l ∈ o, ∀ d, ls.level l = some d → d.level = l) →
    ((o.filterMap ls.level).map fun d => weightOf weights d.level * d.count).sum =
      (o.map fun l => weightOf weights l * ((ls.level l).elim 0 DLevel.count)).sum
  | [], _ => rfl
  | l :: o, h => by
    have ih := paid_sum (weights := weights) o fun x hx => h x (by simp [hx])
    cases hl : ls.level l with
    | none => simp [hl, ih]
    | some d =>
      have hx : d.level = l := h l (by simp) d hl
      simp [hl, ih, hx]

theorem paid_le_full {weights : Map Nat Nat} {reg : Nat → List Bytes} {w : Warns} {ls : Levels} : ∀ o : List Nat,
    (∀ l ∈ o, LevelFits reg w ls l) → (o.map fun l => weightOf weights l * ((ls.level l).elim 0 DLevel.count)).sum ≤
      (o.map fun l => weightOf weights l * seenCount w (reg l)).sum
  | [], _ => le_refl _
  | l :: o, h => by
    have ih := paid_le_full (weights := weights) o fun x hx => h x (by simp [hx])
    simp only [List.map_cons, List.sum_cons]
    refine Nat.add_le_add (Nat.mul_le_mul_left _ ?_) ih
    cases hl : ls.level l with
    | none => simp
    | some d => exact (h l (by simp) d hl).2.2.1

theorem testScore_eq {weights : Map Nat Nat} {reg : Nat → List Bytes} {w : Warns} {ls : Levels} (h : fullScore weights reg w < 2 ^ 64)
    (hf : ∀ l ∈ levelOrder, LevelFits reg w ls l) : testScore weights ls = paidScore weights ls := by
  have e := paid_sum (weights := weights) (ls := ls) levelOrder fun l hl d hd => (hf l hl d hd).1
  have hle := paid_le_full (weights := weights) levelOrder hf
  unfold testScore
  rw [fold_mod (fun d : DLevel => weightOf weights d.level * d.count) _ 0, Nat.zero_add, e]
  · rfl
  · rw [Nat.zero_add, e]; exact hle.trans_lt h

/-- The original score. -/
theorem warnScore_eq (R : Rounding) {max test : Nat} (h : test ≤ max) (hs : 100 * max ≤ 2 ^ 53) :
    warnScore R max test = .fin (if max = 0 then 100 else leftOver R max test) := by
  unfold warnScore
  split_ifs with h0
  · rfl
  · have hm : (0 : Rat) < max := by exact_mod_cast Nat.pos_of_ne_zero h0
    have e1 : R.rnd (max : Rat) = max := R.nat _ (by omega)
    have e2 : usub max test = max - test := by unfold usub; omega
    have e3 : R.rnd ((max - test : Nat) : Rat) = (max - test : Nat) := R.nat _ (by omega)
    unfold leftOver
    rw [e2, ← Nat.cast_sub h]
    simp only [Val.ofNat, Val.mul, Val.div, e1, e3, if_neg hm.ne', rnd_hundreds R (max - test) (by omega)]

/-! ### All handlers -/

theorem warnSetup_get (R : Rounding) (weights : Map Nat Nat) (reg : Nat → List Bytes) (w : Warns) (P : Bytes → WarnHandler → Prop) :
    ∀ (tags : List Bytes) (m : Map Bytes WarnHandler), tags.Nodup → (∀ h ∈ tags, m.get h = none) →
      (∀ h ∈ tags, ∃ hd, oneWarnHandler R weights reg w h {} = some hd ∧ P h hd) →
    ∃ m', warnSetup R weights reg w tags m = some m' ∧ (∀ h ∈ tags, ∃ hd, m'.get h = some hd ∧ P h hd) ∧
      ∀ h, h ∉ tags → m'.get h = m.get h
  | [], m, _, _, _ => ⟨m, rfl, by simp, by simp⟩
  | t :: tags, m, hnd, hm, hP => by
    rw [List.nodup_cons] at hnd
    obtain ⟨hd, e, hp⟩ := hP t (by simp)
    obtain ⟨m', e', h1, h2⟩ := warnSetup_get R weights reg w P tags (m.set t hd) hnd.2 (fun h hh => by
      rw [Map.get_set, if_neg (by rintro rfl; exact hnd.1 hh)]; exact hm h (by simp [hh])) fun h hh => hP h (by simp [hh])
    refine ⟨m', ?_, fun h hh => ?_, fun h hh => ?_⟩
    · unfold warnSetup at e' ⊢
      rw [List.foldl_cons]
      simp only [hm t (by simp), Option.getD_none, e]
      exact e'
    · rcases List.mem_cons.1 hh with rfl | hh
      · exact ⟨hd, by rw [h2 h hnd.1, Map.get_set, if_pos rfl], hp⟩
      · exact h1 h hh
    · simp only [List.mem_cons, not_or] at hh
      rw [h2 h hh.2, Map.get_set, if_neg hh.1]

/-! ### Counting -/

theorem length_le_filter {ks names : List Bytes} (hk : ks.Nodup) (p : Bytes → Bool) (h : ∀ n ∈ ks, n ∈ names ∧ p n = true) :
    ks.length ≤ (names.filter p).length :=
  (List.subperm_of_subset hk fun n hn => List.mem_filter.2 (h n hn)).length_le

end Verif.Score
