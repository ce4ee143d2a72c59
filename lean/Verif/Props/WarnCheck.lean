import Verif.Score.WarnCheck
import Verif.Props.WarnScore
import Verif.Props.WarnViews

/-
C96: the two calculations of scores of warnings agree.
-/

namespace Verif.Props.WarnCheck
open Go Verif.Warning Verif.Data Verif.Score Verif.Props.WarnScore

/-! ### Specification -/

/-- The share of all warnings given, by weight, that a handler does not have, in percent. -/
noncomputable def pooled (weights : Map Nat Nat) (reg : Nat → List Bytes) (w : Warns) (h : Bytes) : Rat :=
  if (levelOrder.map fun l => weightOf weights l * most reg w l).sum = 0 then 100
  else 100 * (((levelOrder.map fun l => weightOf weights l * most reg w l).sum : Rat) - ((levelOrder.map fun l => weightOf weights l * count w h l).sum : Nat)) /
    ((levelOrder.map fun l => weightOf weights l * most reg w l).sum : Nat)

/-! ### Numbers -/

theorem small_p {R : Rounding} (hR : R.u ≤ 1 / 2 ^ 40) : R.p ≤ 1 + 1 / 10 ^ 9 ∧ R.p ^ 10 ≤ 1 + 1 / 10 ^ 9 := by
  have h0 : R.p ≤ 1 + 1 / 2 ^ 40 := by unfold Rounding.p; linarith
  have hp := R.p_ge
  refine ⟨h0.trans (by norm_num), (pow_le_pow_left₀ (by linarith) h0 10).trans (by norm_num)⟩

theorem small_d {R : Rounding} (hR : R.u ≤ 1 / 2 ^ 40) : 1 - 1 / 10 ^ 9 ≤ R.d ∧ 1 - 1 / 10 ^ 9 ≤ R.d ^ 10 := by
  have h0 : 1 - 1 / 2 ^ 40 ≤ R.d := by unfold Rounding.d; linarith
  exact ⟨(by norm_num : (1 : Rat) - 1 / 10 ^ 9 ≤ 1 - 1 / 2 ^ 40).trans h0,
    (by norm_num : (1 : Rat) - 1 / 10 ^ 9 ≤ (1 - 1 / 2 ^ 40) ^ 10).trans (pow_le_pow_left₀ (by norm_num) h0 10)⟩

/-- Near to a number, relatively. -/
def Near (P a : Rat) : Prop := P * (1 - 1 / 10 ^ 9) ≤ a ∧ a ≤ P * (1 + 1 / 10 ^ 9)

theorem rnd_near {R : Rounding} (hR : R.u ≤ 1 / 2 ^ 40) {x : Rat} (hx : 0 ≤ x) : Near x (R.rnd x) :=
  ⟨(mul_le_mul_of_nonneg_left (small_d hR).1 hx).trans (R.ge_down hx), (R.le_up hx).trans (mul_le_mul_of_nonneg_left (small_p hR).1 hx)⟩

theorem abs_rnd_near {R : Rounding} (hR : R.u ≤ 1 / 2 ^ 40) (x : Rat) : Near |x| |R.rnd x| := by
  have h := R.err x
  have hx := abs_nonneg x
  have h1 : |x| * R.u ≤ |x| * (1 / 2 ^ 40) := mul_le_mul_of_nonneg_left hR hx
  have h2 := abs_abs_sub_abs_le (R.rnd x) x
  have h3 := abs_le.1 (h2.trans (h.trans h1))
  constructor
  · have : |x| * (1 - 1 / 10 ^ 9) ≤ |x| * (1 - 1 / 2 ^ 40) := mul_le_mul_of_nonneg_left (by norm_num) hx
    linarith [h3.1]
  · have : |x| * (1 + 1 / 2 ^ 40) ≤ |x| * (1 + 1 / 10 ^ 9) := mul_le_mul_of_nonneg_left (by norm_num) hx
    linarith [h3.2]

theorem near_diff {P M a b : Rat} (ha : Near P a) (hb : Near M b) :
    |P - M| - (P + M) / 10 ^ 9 ≤ |a - b| ∧ |a - b| ≤ |P - M| + (P + M) / 10 ^ 9 := by
  obtain ⟨a1, a2⟩ := ha
  obtain ⟨b1, b2⟩ := hb
  constructor
  · rcases abs_cases (P - M) with ⟨e, _⟩ | ⟨e, _⟩ <;> rw [e]
    · have := le_abs_self (a - b); linarith
    · have := neg_le_abs (a - b); linarith
  · rcases abs_cases (a - b) with ⟨e, _⟩ | ⟨e, _⟩ <;> rw [e]
    · have := le_abs_self (P - M); linarith
    · have := neg_le_abs (P - M); linarith

theorem percent_eq {R : Rounding} {a b : Rat} (hne : a ≠ b) (ha : 0 ≤ a) (hb : 0 ≤ b) :
    percentDifference R (.fin a) (.fin b) = .fin (R.rnd (R.rnd (200 * |R.rnd (a - b)|) / |R.rnd (a + b)|)) := by
  have hs : 0 < a + b := by
    rcases ha.lt_or_eq with h | h
    · linarith
    · rcases hb.lt_or_eq with h' | h'
      · linarith
      · exact absurd (h.symm.trans h') hne
  have h1 : |R.rnd (a + b)| ≠ 0 := abs_ne_zero.2 (R.pos hs).ne'
  have h2 : Val.same (.fin a) (.fin b) = false := by simpa [Val.same] using hne
  unfold percentDifference
  rw [h2]
  simp only [Val.sub, Val.neg, Val.add, Val.abs, Val.mul, Val.div, if_neg h1, Bool.false_eq_true, if_false, sub_eq_add_neg]

theorem percent_near {R : Rounding} (hR : R.u ≤ 1 / 2 ^ 40) {a b P M : Rat} (ha : Near P a) (hb : Near M b) (hP : 0 ≤ P) (hM : 0 ≤ M) :
    (200 * |P - M| ≤ 499 / 100 * (P + M) → percentEqual R (.fin a) (.fin b) = true) ∧
    (P ≠ M → 501 / 100 * (P + M) ≤ 200 * |P - M| → percentEqual R (.fin a) (.fin b) = false) := by
  have ha0 : 0 ≤ a := (mul_nonneg hP (by norm_num)).trans ha.1
  have hb0 : 0 ≤ b := (mul_nonneg hM (by norm_num)).trans hb.1
  obtain ⟨d1, d2⟩ := near_diff ha hb
  have s1 : (P + M) * (1 - 1 / 10 ^ 9) ≤ a + b := by have := ha.1; have := hb.1; linarith
  have s2 : a + b ≤ (P + M) * (1 + 1 / 10 ^ 9) := by have := ha.2; have := hb.2; linarith
  obtain ⟨x1, x2⟩ := abs_rnd_near hR (a - b)
  obtain ⟨y1, y2⟩ := rnd_near hR (x := 200 * |R.rnd (a - b)|) (by positivity)
  obtain ⟨z1, z2⟩ := rnd_near hR (x := a + b) (by linarith)
  have hz : |R.rnd (a + b)| = R.rnd (a + b) := abs_of_nonneg (R.nonneg (by linarith))
  constructor
  · intro hc
    by_cases hne : a = b
    · subst hne
      simp [percentEqual, percentDifference, Val.same, Val.below]
    · unfold percentEqual
      rw [percent_eq hne ha0 hb0, hz]
      have hs : 0 < P + M := by
        rcases (add_nonneg hP hM).lt_or_eq with h | h
        · exact h
        · have e1 : P = 0 := by linarith
          have e2 : M = 0 := by linarith
          have := ha.2; have := hb.2
          rw [e1] at *; rw [e2] at *
          exact absurd (by linarith) hne
      have hpos : 0 < R.rnd (a + b) := R.pos (lt_of_lt_of_le (mul_pos hs (by norm_num)) s1)
      have hq : R.rnd (200 * |R.rnd (a - b)|) / R.rnd (a + b) ≤ 4995 / 1000 := by
        rw [div_le_iff₀ hpos]
        norm_num at *
        linarith
      have h1 := R.mono hq
      have h2 := (rnd_near hR (x := 4995 / 1000) (by norm_num)).2
      simp only [Val.below, decide_eq_true_eq]
      norm_num at *
      linarith
  · intro hPM hc
    have hd : 0 < |P - M| := abs_pos.2 (sub_ne_zero.2 hPM)
    have hs : 0 < P + M := by
      rcases (add_nonneg hP hM).lt_or_eq with h | h
      · exact h
      · exact absurd (by linarith : P = M) hPM
    have hne : a ≠ b := by
      rintro rfl
      rw [sub_self, abs_zero] at d1
      norm_num at *
      linarith
    unfold percentEqual
    rw [percent_eq hne ha0 hb0, hz]
    have hpos : 0 < R.rnd (a + b) := R.pos (lt_of_lt_of_le (mul_pos hs (by norm_num)) s1)
    have hq : 5005 / 1000 ≤ R.rnd (200 * |R.rnd (a - b)|) / R.rnd (a + b) := by
      rw [le_div_iff₀ hpos]
      norm_num at *
      linarith
    have h1 := R.mono hq
    have h2 := (rnd_near hR (x := 5005 / 1000) (by norm_num)).1
    simp only [Val.below, decide_eq_false_iff_not, not_lt]
    norm_num at *
    linarith

/-! ### Scores -/

theorem sum_congr' {f g : Nat → Nat} : ∀ {o : List Nat}, (∀ l ∈ o, f l = g l) → (o.map f).sum = (o.map g).sum := by
  intro o h
  rw [List.map_congr_left h]

theorem full_eq {weights : Map Nat Nat} {reg : Nat → List Bytes} (hu : Usable weights reg) (w : Warns) :
    (levelOrder.map fun l => weightOf weights l * most reg w l).sum = fullScore weights reg w :=
  sum_congr' fun l _ => by rw [most_eq hu w l]

theorem paid_eq (weights : Map Nat Nat) {w : Warns} (hw : Sound w) {h : Bytes} {ls : Levels} (hls : w.byHandler.get h = some ls) :
    (levelOrder.map fun l => weightOf weights l * count w h l).sum = paidScore weights ls :=
  sum_congr' fun l _ => by rw [count_eq hw hls l]

theorem original_near {R : Rounding} (hR : R.u ≤ 1 / 2 ^ 40) {weights : Map Nat Nat} {reg : Nat → List Bytes} {w : Warns} (hu : Usable weights reg)
    (hw : Sound w) (hk : Known reg w) {h : Bytes} {ls : Levels} (hls : w.byHandler.get h = some ls) :
    0 ≤ pooled weights reg w h ∧ Near (pooled weights reg w h) (originalOf R weights reg w ls) := by
  unfold pooled originalOf
  rw [full_eq hu w, paid_eq weights hw hls]
  split_ifs with h0
  · exact ⟨by norm_num, by constructor <;> norm_num⟩
  · have hle : paidScore weights ls ≤ fullScore weights reg w := paid_le_full _ (fits hu hw hk hls)
    have hle : (paidScore weights ls : Rat) ≤ fullScore weights reg w := by exact_mod_cast hle
    have hn : 0 ≤ 100 * ((fullScore weights reg w : Rat) - paidScore weights ls) / fullScore weights reg w :=
      div_nonneg (by linarith) (by positivity)
    exact ⟨hn, rnd_near hR hn⟩

/-- C96, the original score: up to rounding, the share of all warnings given by any handler, by weight, that this handler does not have. -/
theorem C96_original_partial {R : Rounding} (hR : R.u ≤ 1 / 2 ^ 40) (S : Sorter) {pick : List Bytes → List Bytes} (hp : ∀ l, (pick l).Perm l)
    {weights : Map Nat Nat} {reg : Nat → List Bytes} {w : Warns} (hu : Usable weights reg) (hw : Sound w) (hk : Known reg w) :
    ∃ m, newWarnAxis R S pick weights reg w = some m ∧ ∀ h, HasHandler w h →
      ∃ v, warnScoreFor m h .original = some (.fin v) ∧ 0 ≤ pooled weights reg w h ∧
        pooled weights reg w h * (1 - 1 / 10 ^ 9) ≤ v ∧ v ≤ pooled weights reg w h * (1 + 1 / 10 ^ 9) := by
  obtain ⟨m, e, h1, _⟩ := axis_eq R S hp hu hw hk
  refine ⟨m, e, fun h hh => ?_⟩
  obtain ⟨hd, hg, hr⟩ := h1 h hh
  obtain ⟨ls, hls⟩ := Option.isSome_iff_exists.1 hh
  obtain ⟨h0, hn⟩ := original_near hR hu hw hk hls
  exact ⟨_, by simp only [warnScoreFor, hg, Option.map_some, hr.scores ls hls]; rfl, h0, hn.1, hn.2⟩

theorem meanShare_nonneg {weights : Map Nat Nat} {reg : Nat → List Bytes} {w : Warns} (hu : Usable weights reg) (hw : Sound w) (hk : Known reg w)
    {h : Bytes} (hh : HasHandler w h) : 0 ≤ meanShare weights reg w h := by
  obtain ⟨ls, hls⟩ := Option.isSome_iff_exists.1 hh
  refine div_nonneg (List.sum_nonneg fun x hx => ?_) (by positivity)
  obtain ⟨l, hl, rfl⟩ := List.mem_map.1 hx
  exact mul_nonneg (levelScore_share .exact hu hw hk hls hl).1 (by positivity)

theorem check_some {R : Rounding} {m : Map Bytes WarnHandler} : ∀ hs : List Bytes, (∀ h ∈ hs, (m.get h).isSome = true) →
    ∃ logged, checkByData R m hs = some logged ∧ ∀ h, (∃ x, (h, x) ∈ logged) ↔
      h ∈ hs ∧ ∃ hd, m.get h = some hd ∧ percentEqual R hd.scores.original hd.scores.byData = false
  | [], _ => ⟨[], rfl, by simp⟩
  | h :: hs, hm => by
    obtain ⟨hd, hg⟩ := Option.isSome_iff_exists.1 (hm h (by simp))
    obtain ⟨logged, e, hl⟩ := check_some hs fun x hx => hm x (by simp [hx])
    unfold checkByData
    rw [hg, e]
    refine ⟨_, rfl, fun x => ?_⟩
    by_cases hp : percentEqual R hd.scores.original hd.scores.byData = true
    · rw [if_pos hp, hl, List.mem_cons]
      constructor
      · rintro ⟨a, b⟩; exact ⟨.inr a, b⟩
      · rintro ⟨rfl | a, hd', hg', hf⟩
        · rw [hg] at hg'; cases hg'; rw [hp] at hf; cases hf
        · exact ⟨a, hd', hg', hf⟩
    · rw [if_neg hp]
      rw [Bool.not_eq_true] at hp
      simp only [List.mem_cons]
      constructor
      · rintro ⟨y, hy | hy⟩
        · cases hy
          exact ⟨.inl rfl, hd, hg, hp⟩
        · obtain ⟨a, b⟩ := (hl x).1 ⟨y, hy⟩
          exact ⟨.inr a, b⟩
      · rintro ⟨rfl | a, b⟩
        · exact ⟨_, .inl rfl⟩
        · obtain ⟨y, hy⟩ := (hl x).2 ⟨a, b⟩
          exact ⟨y, .inr hy⟩

/-- C96, when the check complains: not of a handler whose two shares differ by at most 4.99 percent of their mean, and of each handler whose
shares differ by at least 5.01 percent. -/
theorem C96_check_partial {R : Rounding} (hR : R.u ≤ 1 / 2 ^ 40) (S : Sorter) {pick : List Bytes → List Bytes} (hp : ∀ l, (pick l).Perm l)
    {weights : Map Nat Nat} {reg : Nat → List Bytes} {w : Warns} (hu : Usable weights reg) (hw : Sound w) (hk : Known reg w) :
    ∃ m logged, newWarnAxis R S pick weights reg w = some m ∧ checkByData R m (warnTags S pick w) = some logged ∧
      ∀ h, HasHandler w h →
        (200 * |pooled weights reg w h - meanShare weights reg w h| ≤ 499 / 100 * (pooled weights reg w h + meanShare weights reg w h) →
          ∀ x, (h, x) ∉ logged) ∧
        (pooled weights reg w h ≠ meanShare weights reg w h →
          501 / 100 * (pooled weights reg w h + meanShare weights reg w h) ≤ 200 * |pooled weights reg w h - meanShare weights reg w h| →
          ∃ x, (h, x) ∈ logged) := by
  obtain ⟨m, e, h1, _⟩ := axis_eq R S hp hu hw hk
  obtain ⟨m', e', h2⟩ := C43_value_partial R S hp hu hw hk
  rw [e] at e'
  cases e'
  have hmem : ∀ h, h ∈ warnTags S pick w ↔ HasHandler w h := fun h => by
    unfold warnTags; rw [((S.perm _ _).trans (hp _)).mem_iff, Map.mem_keys]; rfl
  obtain ⟨logged, el, hl⟩ := check_some (R := R) (m := m) (warnTags S pick w) fun h hh => by
    obtain ⟨hd, hg, _⟩ := h1 h ((hmem h).1 hh)
    rw [hg]; rfl
  refine ⟨m, logged, e, el, fun h hh => ?_⟩
  obtain ⟨hd, hg, hr⟩ := h1 h hh
  obtain ⟨ls, hls⟩ := Option.isSome_iff_exists.1 hh
  obtain ⟨h0, hn⟩ := original_near hR hu hw hk hls
  obtain ⟨v, ev, v1, v2⟩ := h2 h hh .byData (.inr rfl)
  have hm0 := meanShare_nonneg hu hw hk hh
  have hnm : Near (meanShare weights reg w h) v :=
    ⟨(mul_le_mul_of_nonneg_left (small_d hR).2 hm0).trans v1, v2.trans (mul_le_mul_of_nonneg_left (small_p hR).2 hm0)⟩
  have e1 : hd.scores.original = .fin (originalOf R weights reg w ls) := by rw [hr.scores ls hls]
  have e2 : hd.scores.byData = .fin v := by
    simp only [warnScoreFor, hg, Option.map_some, Option.some.injEq, Scores.get] at ev
    exact ev
  obtain ⟨c1, c2⟩ := percent_near hR hn hnm h0 hm0
  constructor
  · intro hc x hx
    obtain ⟨_, hd', hg', hf⟩ := (hl h).1 ⟨x, hx⟩
    rw [hg] at hg'; cases hg'
    rw [e1, e2, c1 hc] at hf
    cases hf
  · intro hne hc
    exact (hl h).2 ⟨(hmem h).2 hh, hd, hg, by rw [e1, e2]; exact c2 hne hc⟩

theorem sum_scaled {weights : Map Nat Nat} {f : Nat → Nat} {M : Nat} : ∀ (o : List Nat), (∀ l ∈ o, 0 < weightOf weights l → f l = M) →
    (o.map fun l => weightOf weights l * f l).sum = (o.map (weightOf weights)).sum * M
  | [], _ => by simp
  | l :: o, h => by
    have ih := sum_scaled o fun x hx => h x (by simp [hx])
    simp only [List.map_cons, List.sum_cons, ih, add_mul]
    congr 1
    rcases Nat.eq_zero_or_pos (weightOf weights l) with h0 | h0
    · rw [h0]; simp
    · rw [h l (by simp) h0]

/-- C96, partial: if as many warnings were given of each level that has weight, the two shares are the same. -/
theorem shares_same {weights : Map Nat Nat} {reg : Nat → List Bytes} {w : Warns} (hu : Usable weights reg) (hw : Sound w) (hk : Known reg w)
    {M : Nat} (hM : ∀ l ∈ levelOrder, 0 < weightOf weights l → most reg w l = M) {h : Bytes} (hh : HasHandler w h) :
    pooled weights reg w h = meanShare weights reg w h := by
  obtain ⟨ls, hls⟩ := Option.isSome_iff_exists.1 hh
  have hW : (0 : Rat) < weightSum weights := by exact_mod_cast hu.pos
  have hc : ∀ l ∈ levelOrder, count w h l ≤ most reg w l := by
    intro l hl
    rw [most_eq hu w l, count_eq hw hls l]
    cases hd : ls.level l with
    | none => exact Nat.zero_le _
    | some d => exact (fits hu hw hk hls l hl d hd).2.2.1
  unfold pooled meanShare
  rw [sum_scaled levelOrder hM]
  change (if weightSum weights * M = 0 then (100 : Rat) else _) = _
  rcases Nat.eq_zero_or_pos M with rfl | hpos
  · rw [if_pos (by simp)]
    have : ∀ o : List Nat, (∀ l ∈ o, l ∈ levelOrder) → (o.map fun l => share reg w h l * (weightOf weights l : Rat)).sum = 100 * ((o.map (weightOf weights)).sum : Nat) := by
      intro o
      induction o with
      | nil => simp
      | cons l o ih =>
        intro ho
        have i := ih fun x hx => ho x (by simp [hx])
        simp only [List.map_cons, List.sum_cons, i]
        push_cast
        rcases Nat.eq_zero_or_pos (weightOf weights l) with h0 | h0
        · rw [h0]; push_cast; ring
        · have h1 := hM l (ho l (by simp)) h0
          have h2 := hc l (ho l (by simp))
          have h3 : count w h l = 0 := by omega
          unfold share
          rw [if_pos h3]; ring
    rw [this levelOrder fun _ h => h]
    change (100 : Rat) = 100 * (weightSum weights : Nat) / weightSum weights
    rw [mul_div_assoc, div_self hW.ne', mul_one]
  · have hMq : (0 : Rat) < M := by exact_mod_cast hpos
    have hne : ¬ weightSum weights * M = 0 := (Nat.mul_pos hu.pos hpos).ne'
    rw [if_neg hne]
    have : ∀ o : List Nat, (∀ l ∈ o, l ∈ levelOrder) → (o.map fun l => share reg w h l * (weightOf weights l : Rat)).sum * M =
        100 * (((o.map (weightOf weights)).sum : Nat) * M - ((o.map fun l => weightOf weights l * count w h l).sum : Nat)) := by
      intro o
      induction o with
      | nil => simp
      | cons l o ih =>
        intro ho
        have i := ih fun x hx => ho x (by simp [hx])
        simp only [List.map_cons, List.sum_cons]
        rw [add_mul, i]
        push_cast
        rcases Nat.eq_zero_or_pos (weightOf weights l) with h0 | h0
        · rw [h0]; push_cast; ring
        · have h1 := hM l (ho l (by simp)) h0
          have h4 : share reg w h l * M = 100 * ((M : Rat) - count w h l) := by
            unfold share
            rw [h1]
            split_ifs with h3
            · rw [h3]; push_cast; ring
            · rw [div_mul_cancel₀ _ hMq.ne']
          have : share reg w h l * weightOf weights l * M = 100 * ((M : Rat) - count w h l) * weightOf weights l := by
            rw [← h4]; ring
          rw [this]; ring
    have h5 := this levelOrder fun _ h => h
    rw [div_eq_div_iff (by exact_mod_cast hne) hW.ne']
    push_cast at h5 ⊢
    change 100 * ((weightSum weights : Rat) * M - _) * weightSum weights = _ * ((weightSum weights : Rat) * M)
    rw [show (levelOrder.map fun l => share reg w h l * (weightOf weights l : Rat)).sum * ((weightSum weights : Rat) * M) =
      (levelOrder.map fun l => share reg w h l * (weightOf weights l : Rat)).sum * M * weightSum weights by ring, h5]
    rfl

/-- C96, partial: if as many warnings were given of each level that has weight, the check complains of nothing. -/
theorem C96_even_partial {R : Rounding} (hR : R.u ≤ 1 / 2 ^ 40) (S : Sorter) {pick : List Bytes → List Bytes} (hp : ∀ l, (pick l).Perm l)
    {weights : Map Nat Nat} {reg : Nat → List Bytes} {w : Warns} (hu : Usable weights reg) (hw : Sound w) (hk : Known reg w)
    {M : Nat} (hM : ∀ l ∈ levelOrder, 0 < weightOf weights l → most reg w l = M) :
    ∃ m, newWarnAxis R S pick weights reg w = some m ∧ checkByData R m (warnTags S pick w) = some [] := by
  obtain ⟨m, e, h1, _⟩ := axis_eq R S hp hu hw hk
  obtain ⟨m', logged, e', el, hl⟩ := C96_check_partial hR S hp hu hw hk
  rw [e] at e'
  cases e'
  have hmem : ∀ h, h ∈ warnTags S pick w ↔ HasHandler w h := fun h => by
    unfold warnTags; rw [((S.perm _ _).trans (hp _)).mem_iff, Map.mem_keys]; rfl
  obtain ⟨logged', el', hl'⟩ := check_some (R := R) (m := m) (warnTags S pick w) fun h hh => by
    obtain ⟨hd, hg, _⟩ := h1 h ((hmem h).1 hh)
    rw [hg]; rfl
  rw [el] at el'
  cases el'
  refine ⟨m, e, ?_⟩
  rw [el]
  match logged, hl, hl' with
  | [], _, _ => rfl
  | (h, x) :: logged, hl, hl' =>
    have hh := (hmem h).1 ((hl' h).1 ⟨x, by simp⟩).1
    refine absurd (List.mem_cons_self) ((hl h hh).1 ?_ x)
    have hs := shares_same hu hw hk hM hh
    have h0 := meanShare_nonneg hu hw hk hh
    rw [hs, sub_self, abs_zero]
    linarith

/-- C96 in full: the check never complains. -/
def C96_statement : Prop := ∀ (E : Verif.Data.Env) (S : Sorter) (pick : List Bytes → List Bytes) (weights : Map Nat Nat) (reg : Nat → List Bytes)
  (w : Warns), (∀ l, (pick l).Perm l) → Usable weights reg → WarnViews.Read E w → Known reg w →
  ∃ m, newWarnAxis ieee S pick weights reg w = some m ∧ checkByData ieee m (warnTags S pick w) = some []

theorem case_pooled : pooled caseWeights caseReg (readCase caseText) b!"a" = 800 / 18 ∧ meanShare caseWeights caseReg (readCase caseText) b!"a" = 60 := by
  have hs := parse_sound sound_new read_case
  have hp : ∀ l : List Bytes, (id l).Perm l := fun l => .refl l
  obtain ⟨m, e, h1⟩ := C43_value_exact_partial someSorter hp case_usable hs case_known
  obtain ⟨m', e', h2⟩ := axis_eq .exact someSorter hp case_usable hs case_known
  rw [e] at e'
  cases e'
  have hh : HasHandler (readCase caseText) b!"a" := by decide +kernel
  obtain ⟨ls, hls⟩ := Option.isSome_iff_exists.1 hh
  have hc := case_scores
  rw [e] at hc
  simp only [Option.map_some, Option.some.injEq, Prod.mk.injEq] at hc
  have hm := h1 b!"a" hh .default (.inl rfl)
  rw [hc.1] at hm
  obtain ⟨hd, hg, hr⟩ := h2.1 b!"a" hh
  have ho := hc.2.2
  simp only [warnScoreFor, hg, Option.map_some, hr.scores ls hls, Scores.get, Option.some.injEq, Val.fin.injEq] at ho
  refine ⟨?_, by simpa using hm.symm⟩
  unfold pooled
  rw [full_eq case_usable, paid_eq caseWeights hs hls]
  exact ho

/-- C96 does not hold in full: two of the three warnings given are of one level. -/
theorem C96_fails : ¬ C96_statement := by
  intro h
  have hs := parse_sound sound_new read_case
  have hp : ∀ l : List Bytes, (id l).Perm l := fun l => .refl l
  obtain ⟨m, e, hc⟩ := h caseEnv someSorter id caseWeights caseReg (readCase caseText) hp case_usable (.more .new read_case) case_known
  obtain ⟨m', logged, e', el, hl⟩ := C96_check_partial (R := ieee) (by norm_num [ieee]) someSorter hp case_usable hs case_known
  rw [e] at e'
  cases e'
  rw [hc] at el
  cases el
  obtain ⟨e1, e2⟩ := case_pooled
  obtain ⟨x, hx⟩ := (hl b!"a" (by decide +kernel)).2 (by rw [e1, e2]; norm_num) (by rw [e1, e2]; norm_num)
  cases hx

/-- A case for `C96_even_partial`: only the first level has weight. -/
example : ∃ m, newWarnAxis ieee someSorter id [(4, 8)] caseReg (readCase caseText) = some m ∧
    checkByData ieee m (warnTags someSorter id (readCase caseText)) = some [] := by
  refine C96_even_partial (by norm_num [ieee]) someSorter (fun l => .refl l) ⟨by decide, by decide, by decide, by decide, case_usable.nodup⟩
    (parse_sound sound_new read_case) case_known (M := most caseReg (readCase caseText) 4) fun l hl h0 => ?_
  have : l = 4 := by
    by_contra hne
    have : weightOf [(4, 8)] l = 0 := by simp [weightOf, Map.get_cons, Map.get_nil, Ne.symm hne]
    omega
  rw [this]

end Verif.Props.WarnCheck
