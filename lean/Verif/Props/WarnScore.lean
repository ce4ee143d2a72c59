import Verif.Score.WarnScores
import Verif.Props.WarnMore
import Verif.Props.WarnRegistry
import Mathlib.Data.Set.Card
import Mathlib.Data.Finset.Card

/-
C43: scores for warnings.
-/

set_option linter.unusedSimpArgs false

namespace Verif.Props.WarnScore
open Go Verif.Warning Verif.Data Verif.Score Verif.Props.ScoreAverage Verif.Props.WarnReport

/-! ### Specification -/

/-- The data says that a handler has a warning of a level. -/
def Has (w : Warns) (h : Bytes) (l : Nat) (n : Bytes) : Prop := (w.look h (levelText l) n).isSome = true

/-- The data says that a warning was given by some handler. -/
def Given (w : Warns) (n : Bytes) : Prop := ∃ wx, w.byWarning.get n = some wx ∧ wx.count ≠ []

/-- How many warnings of a level a handler has. -/
noncomputable def count (w : Warns) (h : Bytes) (l : Nat) : Nat := Set.ncard {n | Has w h l n}

/-- How many warnings of a level were given by some handler. -/
noncomputable def most (reg : Nat → List Bytes) (w : Warns) (l : Nat) : Nat := Set.ncard {n | n ∈ reg l ∧ Given w n}

/-- The share of the warnings of a level that a handler does not have, in percent. -/
noncomputable def share (reg : Nat → List Bytes) (w : Warns) (h : Bytes) (l : Nat) : Rat :=
  if count w h l = 0 then 100 else 100 * ((most reg w l : Rat) - count w h l) / most reg w l

/-- The sum of weights. -/
def weightSum (weights : Map Nat Nat) : Nat := (levelOrder.map (weightOf weights)).sum

/-- The mean of the shares. -/
noncomputable def meanShare (weights : Map Nat Nat) (reg : Nat → List Bytes) (w : Warns) (h : Bytes) : Rat :=
  (levelOrder.map fun l => share reg w h l * weightOf weights l).sum / weightSum weights

/-- Weights and lists of warnings that scores can be computed with: the weights are not
all zero, and nothing is so large that whole numbers are rounded. -/
structure Usable (weights : Map Nat Nat) (reg : Nat → List Bytes) : Prop where
  pos : 0 < weightSum weights
  sum : 100 * weightSum weights ≤ 2 ^ 53
  names : ∀ l ∈ levelOrder, 100 * (reg l).length ≤ 2 ^ 53
  both : 100 * (levelOrder.map fun l => weightOf weights l * (reg l).length).sum ≤ 2 ^ 53
  nodup : ∀ l, (reg l).Nodup

/-- The warnings of handlers are registered, and each has an instance. -/
structure Known (reg : Nat → List Bytes) (w : Warns) : Prop where
  registered : ∀ h l n, l ∈ levelOrder → Has w h l n → n ∈ reg l
  instances : ∀ h l n x, l ∈ levelOrder → w.look h (levelText l) n = some x → x.instances ≠ []

/-- The data has a handler. -/
def HasHandler (w : Warns) (h : Bytes) : Prop := (w.byHandler.get h).isSome = true

instance (w : Warns) (h : Bytes) : Decidable (HasHandler w h) := by unfold HasHandler; infer_instance

/-- The scores of an axis made for warning data are percentages. -/
def Percentages (m : Map Bytes WarnHandler) (w : Warns) : Prop :=
  ∀ h, HasHandler w h → ∀ t, ∃ v, warnScoreFor m h t = some (.fin v) ∧ 0 ≤ v ∧ v ≤ 100

/-- C43 as stated, first part: whatever text is read, the scores of its handlers are
percentages. -/
def C43_statement : Prop := ∀ (E : Verif.Data.Env) (S : Sorter) (pick : List Bytes → List Bytes) (weights : Map Nat Nat) (reg : Nat → List Bytes)
  (source text : Bytes) (lookup : Map Bytes Bytes) (w : Warns), (∀ l, (pick l).Perm l) → Usable weights reg →
  parseWarningData E source lookup {} text = some (w, false) →
  ∃ m, newWarnAxis ieee S pick weights reg w = some m ∧ Percentages m w

/-! ### Counting -/

theorem levelText_inj {l k : Nat} (hl : l ∈ levelOrder) (h : levelText k = levelText l) : k = l := by
  by_cases hk : k ∈ levelOrder
  · revert h
    have : ∀ a ∈ levelOrder, ∀ b ∈ levelOrder, levelText a = levelText b → a = b := by decide
    exact this k hk l hl
  · exfalso
    have hn : levelName k = none := by
      unfold levelName
      simp only [levelOrder, List.mem_cons, List.not_mem_nil, or_false, not_or] at hk
      rw [if_neg (by omega), if_neg (by omega), if_neg (by omega), if_neg (by omega)]
    have hh : (levelText k).head? = some 0x55 := by unfold levelText; rw [hn]; rfl
    rw [h] at hh
    have : ∀ a ∈ levelOrder, (levelText a).head? ≠ some 0x55 := by decide
    exact this l hl hh

theorem has_iff {w : Warns} (hw : Sound w) {h : Bytes} {ls : Levels} (hl : w.byHandler.get h = some ls) (l : Nat) (n : Bytes) :
    Has w h l n ↔ ∃ d, ls.level l = some d ∧ n ∈ d.lookup.keys := by
  have e : Has w h l n ↔ (w.hid h (levelText l) n).isSome = true := by
    unfold Has Warns.look
    cases hi : w.hid h (levelText l) n with
    | none => simp
    | some i => simp [hw.inv.hlt h _ n i hi]
  rw [e]
  unfold Warns.hid Levels.id Levels.level
  rw [hl, Option.bind_some]
  cases hd : ls.lookup.get (levelText l) with
  | none => simp
  | some d => simp [Map.mem_keys]

theorem count_eq {w : Warns} (hw : Sound w) {h : Bytes} {ls : Levels} (hl : w.byHandler.get h = some ls) (l : Nat) :
    count w h l = (ls.level l).elim 0 DLevel.count := by
  unfold count
  cases hd : ls.level l with
  | none =>
    have : {n | Has w h l n} = ∅ := by
      ext n
      simp only [Set.mem_ofPred_eq, has_iff hw hl, hd, Set.mem_empty_iff_false, iff_false]
      rintro ⟨d, e, _⟩; cases e
    rw [this, Set.ncard_empty]; rfl
  | some d =>
    have hk := (hw.level h ls _ d hl hd).nodup
    have : {n | Has w h l n} = (d.lookup.keys.toFinset : Set Bytes) := by
      ext n
      simp only [Set.mem_ofPred_eq, has_iff hw hl, hd, Option.some.injEq, exists_eq_left', List.coe_toFinset]
    rw [this, Set.ncard_coe_finset, List.toFinset_card_of_nodup hk]
    simp [DLevel.count, Map.keys]

theorem seen_iff (w : Warns) (n : Bytes) : seen w n = true ↔ Given w n := by
  unfold seen Given
  cases w.byWarning.get n with
  | none => simp
  | some wx => simp [List.length_pos_iff]

theorem most_eq {weights : Map Nat Nat} {reg : Nat → List Bytes} (hu : Usable weights reg) (w : Warns) (l : Nat) :
    most reg w l = seenCount w (reg l) := by
  unfold most seenCount
  have : {n | n ∈ reg l ∧ Given w n} = (((reg l).filter (seen w)).toFinset : Set Bytes) := by
    ext n
    simp only [Set.mem_ofPred_eq, List.coe_toFinset, List.mem_filter, seen_iff]
  rw [this, Set.ncard_coe_finset, List.toFinset_card_of_nodup ((hu.nodup l).filter _)]

theorem given_of_has {reg : Nat → List Bytes} {w : Warns} (hw : Sound w) (hk : Known reg w) {h : Bytes} {l : Nat} {n : Bytes}
    (hl : l ∈ levelOrder) (hh : Has w h l n) : Given w n := by
  obtain ⟨x, hx⟩ := Option.isSome_iff_exists.1 hh
  exact hw.counted h _ n x hx (hk.instances h l n x hl hx)

/-- The counts are in range. -/
theorem fits {weights : Map Nat Nat} {reg : Nat → List Bytes} {w : Warns} (hu : Usable weights reg) (hw : Sound w) (hk : Known reg w)
    {h : Bytes} {ls : Levels} (hls : w.byHandler.get h = some ls) : ∀ l ∈ levelOrder, LevelFits reg w ls l := by
  intro l hl d hd
  have ho := hw.level h ls _ d hls hd
  have hle : d.count ≤ seenCount w (reg l) := by
    have := length_le_filter (names := reg l) ho.nodup (seen w) fun n hn => by
      have hh : Has w h l n := (has_iff hw hls l n).2 ⟨d, hd, hn⟩
      exact ⟨hk.registered h l n hl hh, (seen_iff w n).2 (given_of_has hw hk hl hh)⟩
    simpa [Map.keys, DLevel.count, seenCount] using this
  have hpos : 0 < d.count := List.length_pos_iff.2 ho.ne
  refine ⟨levelText_inj hl ho.text, by omega, hle, ?_⟩
  have : seenCount w (reg l) ≤ (reg l).length := List.length_filter_le _ _
  have := hu.names l hl
  omega

theorem full_le {weights : Map Nat Nat} {reg : Nat → List Bytes} (w : Warns) :
    fullScore weights reg w ≤ (levelOrder.map fun l => weightOf weights l * (reg l).length).sum := by
  unfold fullScore
  have : ∀ o : List Nat, (o.map fun l => weightOf weights l * seenCount w (reg l)).sum ≤
      (o.map fun l => weightOf weights l * (reg l).length).sum := by
    intro o
    induction o with
    | nil => exact le_refl _
    | cons l o ih =>
      simp only [List.map_cons, List.sum_cons]
      exact Nat.add_le_add (Nat.mul_le_mul_left _ (List.length_filter_le _ _)) ih
  exact this _

/-! ### The axis -/

/-- The scores of a level, for averaging. -/
def ops (R : Rounding) (weights : Map Nat Nat) (reg : Nat → List Bytes) (w : Warns) (ls : Levels) : List Op :=
  levelOrder.map fun l => Op.many (levelScore R reg w ls l) (weightOf weights l)

/-- The original score. -/
def originalOf (R : Rounding) (weights : Map Nat Nat) (reg : Nat → List Bytes) (w : Warns) (ls : Levels) : Rat :=
  if fullScore weights reg w = 0 then 100 else leftOver R (fullScore weights reg w) (paidScore weights ls)

/-- What the axis says of a handler. -/
structure Result (R : Rounding) (weights : Map Nat Nat) (reg : Nat → List Bytes) (w : Warns) (h : Bytes) (hd : WarnHandler) : Prop where
  scores : ∀ ls, w.byHandler.get h = some ls → hd.scores =
    { default := averageOf R (ops R weights reg w ls), byData := averageOf R (ops R weights reg w ls)
      original := .fin (originalOf R weights reg w ls), byTest := .fin 0 }
  levels : ∀ ls, w.byHandler.get h = some ls → ∀ l ∈ levelOrder, hd.level l = ⟨.fin (levelScore R reg w ls l), 1⟩
  tests : hd.byTest = []

theorem axis_eq (R : Rounding) (S : Sorter) {pick : List Bytes → List Bytes} (hp : ∀ l, (pick l).Perm l) {weights : Map Nat Nat}
    {reg : Nat → List Bytes} {w : Warns} (hu : Usable weights reg) (hw : Sound w) (hk : Known reg w) :
    ∃ m, newWarnAxis R S pick weights reg w = some m ∧
      (∀ h, HasHandler w h → ∃ hd, m.get h = some hd ∧ Result R weights reg w h hd) ∧
      ∀ h, ¬ HasHandler w h → m.get h = none := by
  have hperm : (warnTags S pick w).Perm w.byHandler.keys := (S.perm _ _).trans (hp _)
  have hmem : ∀ h, h ∈ warnTags S pick w ↔ HasHandler w h := fun h => by
    rw [hperm.mem_iff, Map.mem_keys]; rfl
  obtain ⟨m, e, h1, h2⟩ := warnSetup_get R weights reg w (Result R weights reg w) (warnTags S pick w) []
    (hperm.nodup_iff.2 hw.keys) (by simp [Map.get_nil]) (by
      intro h hh
      obtain ⟨ls, hls⟩ := Option.isSome_iff_exists.1 ((hmem h).1 hh)
      have hf := fits hu hw hk hls
      obtain ⟨hd, e, hlv, hsc, hbt⟩ := levels_eq R weights (reg := reg) (w := w) (ls := ls) levelOrder {} {} (by decide)
        (fun _ h => h) hf (by simp [Map.get_nil])
      have hfull : 100 * fullScore weights reg w ≤ 2 ^ 53 := by
        have := full_le (weights := weights) (reg := reg) w
        have := hu.both
        omega
      have hlt : fullScore weights reg w < 2 ^ 64 := by omega
      unfold oneWarnHandler
      simp only [hls, e]
      refine ⟨_, rfl, ⟨fun ls' h' => ?_, fun ls' h' l hl => ?_, hbt⟩⟩
      · rw [hls] at h'; cases h'
        simp only [maxScore_eq hlt, testScore_eq hlt hf, hsc]
        rw [warnScore_eq R (show paidScore weights ls ≤ fullScore weights reg w from paid_le_full _ hf) hfull]
        rfl
      · rw [hls] at h'; cases h'
        unfold WarnHandler.level
        rw [hlv, if_pos hl]; rfl)
  refine ⟨m, e, fun h hh => h1 h ((hmem h).2 hh), fun h hh => ?_⟩
  rw [h2 h fun hc => hh ((hmem h).1 hc)]; rfl

theorem averageOf_bounds (R : Rounding) {weights : Map Nat Nat} {reg : Nat → List Bytes} {w : Warns} {ls : Levels}
    (hu : Usable weights reg) (hf : ∀ l ∈ levelOrder, LevelFits reg w ls l) :
    ∃ v, averageOf R (ops R weights reg w ls) = .fin v ∧ 0 ≤ v ∧ v ≤ 100 := by
  obtain ⟨x, y, e, _, h0, h1, h2⟩ := average_mono R (levelScore R reg w ls) (levelScore R reg w ls) (weightOf weights) levelOrder
    (fun l hl => ⟨(levelScore_bounds R (hf l hl)).1, le_refl _, (levelScore_bounds R (hf l hl)).2⟩) hu.pos hu.sum
  exact ⟨x, e, h0, h1.trans h2⟩

theorem original_bounds (R : Rounding) {weights : Map Nat Nat} {reg : Nat → List Bytes} {w : Warns} {ls : Levels}
    (hf : ∀ l ∈ levelOrder, LevelFits reg w ls l) : 0 ≤ originalOf R weights reg w ls ∧ originalOf R weights reg w ls ≤ 100 := by
  unfold originalOf
  split_ifs with h
  · norm_num
  · exact leftOver_bounds R (paid_le_full _ hf) (Nat.pos_of_ne_zero h)

/-- What holds of the first part of C43: if the warnings in the data are registered at
their levels and have instances, then all scores of all handlers, of all types and for
all levels, are percentages, whatever the rounding. Missing: data with unregistered
warnings (`C43_fails`) or warnings without instances. -/
theorem C43_percentages_partial (R : Rounding) (S : Sorter) {pick : List Bytes → List Bytes} (hp : ∀ l, (pick l).Perm l)
    {weights : Map Nat Nat} {reg : Nat → List Bytes} {w : Warns} (hu : Usable weights reg) (hw : Sound w) (hk : Known reg w) :
    ∃ m, newWarnAxis R S pick weights reg w = some m ∧ Percentages m w ∧
      ∀ h, HasHandler w h → ∀ l ∈ levelOrder, ∃ v, warnScoreForLevel R m h l = some (.fin v) ∧ 0 ≤ v ∧ v ≤ 100 := by
  obtain ⟨m, e, h1, _⟩ := axis_eq R S hp hu hw hk
  refine ⟨m, e, fun h hh t => ?_, fun h hh l hl => ?_⟩
  · obtain ⟨hd, hg, hr⟩ := h1 h hh
    obtain ⟨ls, hls⟩ := Option.isSome_iff_exists.1 hh
    have hf := fits hu hw hk hls
    obtain ⟨v, ev, hv⟩ := averageOf_bounds R hu hf
    simp only [warnScoreFor, hg, Option.map_some, hr.scores ls hls]
    cases t with
    | default => exact ⟨v, by simp [Scores.get, ev], hv⟩
    | byData => exact ⟨v, by simp [Scores.get, ev], hv⟩
    | original => exact ⟨_, rfl, original_bounds R hf⟩
    | byTest => exact ⟨0, rfl, by norm_num⟩
  · obtain ⟨hd, hg, hr⟩ := h1 h hh
    obtain ⟨ls, hls⟩ := Option.isSome_iff_exists.1 hh
    have hf := fits hu hw hk hls
    simp only [warnScoreForLevel, hg, Option.map_some, hr.levels ls hls l hl]
    exact ⟨_, by simp [Average.average], levelScore_bounds R (hf l hl)⟩

/-- The second part of C43: under the same conditions a handler without warnings has 100
in every type of score that is computed, and for every level and every test. -/
theorem C43_none_partial (R : Rounding) (S : Sorter) {pick : List Bytes → List Bytes} (hp : ∀ l, (pick l).Perm l)
    {weights : Map Nat Nat} {reg : Nat → List Bytes} {w : Warns} (hu : Usable weights reg) (hw : Sound w) (hk : Known reg w)
    (h : Bytes) (hh : HasHandler w h) (h0 : ∀ l ∈ levelOrder, ∀ n, ¬ Has w h l n) :
    ∃ m, newWarnAxis R S pick weights reg w = some m ∧
      (∀ t, t ≠ .byTest → warnScoreFor m h t = some (.fin 100)) ∧
      (∀ l ∈ levelOrder, warnScoreForLevel R m h l = some (.fin 100)) ∧
      ∀ t, warnScoreForTest R m h t = some (.fin 100) := by
  obtain ⟨m, e, h1, _⟩ := axis_eq R S hp hu hw hk
  obtain ⟨hd, hg, hr⟩ := h1 h hh
  obtain ⟨ls, hls⟩ := Option.isSome_iff_exists.1 hh
  have hnone : ∀ l ∈ levelOrder, ls.level l = none := by
    intro l hl
    cases hd : ls.level l with
    | none => rfl
    | some d =>
      have ho := hw.level h ls _ d hls hd
      cases hk : d.lookup with
      | nil => exact absurd hk ho.ne
      | cons a s => exact absurd ((has_iff hw hls l a.1).2 ⟨d, hd, by simp [hk, Map.keys]⟩) (h0 l hl a.1)
  have hls100 : ∀ l ∈ levelOrder, levelScore R reg w ls l = 100 := fun l hl => by unfold levelScore; rw [hnone l hl]
  have havg : averageOf R (ops R weights reg w ls) = .fin 100 := by
    have : ops R weights reg w ls = levelOrder.map fun l => Op.many 100 (weightOf weights l) :=
      List.map_congr_left fun l hl => by rw [hls100 l hl]
    rw [this]
    exact average_hundred R _ _ hu.pos hu.sum
  have hpaid : paidScore weights ls = 0 := by
    have : (levelOrder.map fun l => weightOf weights l * ((ls.level l).elim 0 DLevel.count)) = levelOrder.map fun _ => 0 :=
      List.map_congr_left fun l hl => by rw [hnone l hl]; simp
    unfold paidScore
    rw [this]; rfl
  have horig : originalOf R weights reg w ls = 100 := by
    unfold originalOf
    split_ifs with h
    · rfl
    · have hpos : (fullScore weights reg w : Rat) ≠ 0 := by exact_mod_cast h
      unfold leftOver
      rw [hpaid, Nat.cast_zero, sub_zero, mul_div_assoc, div_self hpos, mul_one, R.hundred]
  refine ⟨m, e, fun t ht => ?_, fun l hl => ?_, fun t => ?_⟩
  · simp only [warnScoreFor, hg, Option.map_some, hr.scores ls hls]
    cases t with
    | default => simp [Scores.get, havg]
    | byData => simp [Scores.get, havg]
    | original => simp [Scores.get, horig]
    | byTest => exact absurd rfl ht
  · simp [warnScoreForLevel, hg, Option.map_some, hr.levels ls hls l hl, hls100 l hl, Average.average]
  · simp [warnScoreForTest, hg, hr.tests, Map.get_nil]

/-- The score by test of every handler is 0, also without warnings, and the score for a
single test is always 100. -/
theorem C43_tests (R : Rounding) (S : Sorter) {pick : List Bytes → List Bytes} (hp : ∀ l, (pick l).Perm l)
    {weights : Map Nat Nat} {reg : Nat → List Bytes} {w : Warns} (hu : Usable weights reg) (hw : Sound w) (hk : Known reg w) :
    ∃ m, newWarnAxis R S pick weights reg w = some m ∧ ∀ h, HasHandler w h →
      warnScoreFor m h .byTest = some (.fin 0) ∧ ∀ t, warnScoreForTest R m h t = some (.fin 100) := by
  obtain ⟨m, e, h1, _⟩ := axis_eq R S hp hu hw hk
  refine ⟨m, e, fun h hh => ?_⟩
  obtain ⟨hd, hg, hr⟩ := h1 h hh
  obtain ⟨ls, hls⟩ := Option.isSome_iff_exists.1 hh
  exact ⟨by simp [warnScoreFor, hg, hr.scores ls hls, Scores.get], fun t => by simp [warnScoreForTest, hg, hr.tests, Map.get_nil]⟩

/-- Asking for the score of a handler that the warning data does not have panics. -/
theorem C43_unknown_handler (R : Rounding) (S : Sorter) {pick : List Bytes → List Bytes} (hp : ∀ l, (pick l).Perm l)
    {weights : Map Nat Nat} {reg : Nat → List Bytes} {w : Warns} (hu : Usable weights reg) (hw : Sound w) (hk : Known reg w) :
    ∃ m, newWarnAxis R S pick weights reg w = some m ∧ ∀ h, ¬ HasHandler w h → ∀ t, warnScoreFor m h t = none := by
  obtain ⟨m, e, _, h2⟩ := axis_eq R S hp hu hw hk
  exact ⟨m, e, fun h hh t => by simp [warnScoreFor, h2 h hh]⟩

/-! ### The value -/

theorem levelScore_share (R : Rounding) {weights : Map Nat Nat} {reg : Nat → List Bytes} {w : Warns} (hu : Usable weights reg) (hw : Sound w)
    (hk : Known reg w) {h : Bytes} {ls : Levels} (hls : w.byHandler.get h = some ls) {l : Nat} (hl : l ∈ levelOrder) :
    0 ≤ share reg w h l ∧ share reg w h l * R.d ≤ levelScore R reg w ls l ∧ levelScore R reg w ls l ≤ share reg w h l * R.p := by
  have hf := fits hu hw hk hls l hl
  have hc := count_eq hw hls l
  unfold share levelScore
  rw [most_eq hu w l]
  cases hd : ls.level l with
  | none =>
    rw [hd] at hc
    have hc : count w h l = 0 := hc
    have := R.d_le
    have := R.p_ge
    simp only [hc, if_true]
    refine ⟨by norm_num, ?_, ?_⟩ <;> linarith
  | some d =>
    obtain ⟨_, h1, h2, _⟩ := hf d hd
    have hpos : 0 < d.count := List.length_pos_iff.2 (hw.level h ls _ d hls hd).ne
    rw [hd] at hc
    have hc : count w h l = d.count := hc
    have hne : ¬ d.count = 0 := by omega
    simp only [hc, if_neg hne]
    have hn : 0 ≤ 100 * ((seenCount w (reg l) : Rat) - d.count) / seenCount w (reg l) := by
      have : (d.count : Rat) ≤ seenCount w (reg l) := by exact_mod_cast h2
      exact div_nonneg (by linarith) (by positivity)
    exact ⟨hn, R.ge_down hn, R.le_up hn⟩

/-- Which number the score is: up to rounding, the mean over the levels, by weight, of the
share of the warnings given by any handler that this handler does not have. -/
theorem C43_value_partial (R : Rounding) (S : Sorter) {pick : List Bytes → List Bytes} (hp : ∀ l, (pick l).Perm l)
    {weights : Map Nat Nat} {reg : Nat → List Bytes} {w : Warns} (hu : Usable weights reg) (hw : Sound w) (hk : Known reg w) :
    ∃ m, newWarnAxis R S pick weights reg w = some m ∧ ∀ h, HasHandler w h → ∀ t, t = .default ∨ t = .byData →
      ∃ v, warnScoreFor m h t = some (.fin v) ∧
        meanShare weights reg w h * R.d ^ 10 ≤ v ∧ v ≤ meanShare weights reg w h * R.p ^ 10 := by
  obtain ⟨m, e, h1, _⟩ := axis_eq R S hp hu hw hk
  refine ⟨m, e, fun h hh t ht => ?_⟩
  obtain ⟨hd, hg, hr⟩ := h1 h hh
  obtain ⟨ls, hls⟩ := Option.isSome_iff_exists.1 hh
  have hb := fun l (hl : l ∈ levelOrder) => levelScore_share R hu hw hk hls hl
  have hwt : weight (ops R weights reg w ls) = weightSum weights := by
    unfold weight ops weightSum; rw [List.map_map]; rfl
  obtain ⟨q, eq, q1, q2⟩ := C41_error_partial R (ops R weights reg w ls) (by
    intro o ho
    obtain ⟨l, hl, rfl⟩ := List.mem_map.1 ho
    exact (levelScore_bounds R (fits hu hw hk hls l hl)).1) (by rw [hwt]; exact hu.pos) (by rw [hwt]; have := hu.sum; omega)
  have hlen : 2 * (ops R weights reg w ls).length + 1 = 9 := by simp [ops, levelOrder]
  rw [hlen] at q1 q2
  have hsum : ∀ o : List Nat, (∀ l ∈ o, l ∈ levelOrder) →
      (o.map fun l => share reg w h l * weightOf weights l).sum * R.d ≤ (o.map fun l => levelScore R reg w ls l * (weightOf weights l : Rat)).sum ∧
      (o.map fun l => levelScore R reg w ls l * (weightOf weights l : Rat)).sum ≤ (o.map fun l => share reg w h l * weightOf weights l).sum * R.p := by
    intro o
    induction o with
    | nil => simp
    | cons l o ih =>
      intro ho
      obtain ⟨i1, i2⟩ := ih fun x hx => ho x (by simp [hx])
      obtain ⟨_, b1, b2⟩ := hb l (ho l (by simp))
      have hwl : (0 : Rat) ≤ weightOf weights l := by positivity
      have c1 := mul_le_mul_of_nonneg_right b1 hwl
      have c2 := mul_le_mul_of_nonneg_right b2 hwl
      simp only [List.map_cons, List.sum_cons, add_mul]
      constructor
      · have : share reg w h l * weightOf weights l * R.d = share reg w h l * R.d * weightOf weights l := by ring
        linarith
      · have : share reg w h l * weightOf weights l * R.p = share reg w h l * R.p * weightOf weights l := by ring
        linarith
  have hmean : mean (ops R weights reg w ls) = (levelOrder.map fun l => levelScore R reg w ls l * (weightOf weights l : Rat)).sum / weightSum weights := by
    unfold mean
    rw [hwt]
    unfold total ops
    rw [List.map_map]; rfl
  have hW : (0 : Rat) < weightSum weights := by exact_mod_cast hu.pos
  obtain ⟨s1, s2⟩ := hsum levelOrder fun _ h => h
  have m1 : meanShare weights reg w h * R.d ≤ mean (ops R weights reg w ls) := by
    rw [hmean, meanShare, div_mul_eq_mul_div]
    exact div_le_div_of_nonneg_right s1 hW.le
  have m2 : mean (ops R weights reg w ls) ≤ meanShare weights reg w h * R.p := by
    rw [hmean, meanShare, div_mul_eq_mul_div]
    exact div_le_div_of_nonneg_right s2 hW.le
  have hd9 : (0 : Rat) ≤ R.d ^ 9 := pow_nonneg R.d_pos.le _
  have hp9 : (0 : Rat) ≤ R.p ^ 9 := pow_nonneg (by linarith [R.p_ge]) _
  refine ⟨q, ?_, ?_, ?_⟩
  · simp only [warnScoreFor, hg, Option.map_some, hr.scores ls hls]
    rcases ht with rfl | rfl <;> simp [Scores.get, eq]
  · have := mul_le_mul_of_nonneg_right m1 hd9
    have e10 : meanShare weights reg w h * R.d ^ 10 = meanShare weights reg w h * R.d * R.d ^ 9 := by ring
    linarith
  · have := mul_le_mul_of_nonneg_right m2 hp9
    have e10 : meanShare weights reg w h * R.p ^ 10 = meanShare weights reg w h * R.p * R.p ^ 9 := by ring
    linarith

/-- Without rounding it is that mean. -/
theorem C43_value_exact_partial (S : Sorter) {pick : List Bytes → List Bytes} (hp : ∀ l, (pick l).Perm l)
    {weights : Map Nat Nat} {reg : Nat → List Bytes} {w : Warns} (hu : Usable weights reg) (hw : Sound w) (hk : Known reg w) :
    ∃ m, newWarnAxis .exact S pick weights reg w = some m ∧ ∀ h, HasHandler w h → ∀ t, t = .default ∨ t = .byData →
      warnScoreFor m h t = some (.fin (meanShare weights reg w h)) := by
  obtain ⟨m, e, h⟩ := C43_value_partial .exact S hp hu hw hk
  refine ⟨m, e, fun x hx t ht => ?_⟩
  obtain ⟨v, ev, v1, v2⟩ := h x hx t ht
  simp only [Rounding.d, Rounding.p, Rounding.exact] at v1 v2
  norm_num at v1 v2
  rw [ev, le_antisymm v2 v1]

/-! ### Fewer warnings -/

/-- Names are registered once, and the warnings counted are those that handlers have. -/
structure Tidy (reg : Nat → List Bytes) (w : Warns) : Prop where
  given : ∀ l ∈ levelOrder, ∀ n ∈ reg l, Given w n → ∃ h l', l' ∈ levelOrder ∧ Has w h l' n

/-- A handler has some warnings less, and nothing else differs. -/
structure Fewer (h : Bytes) (w w' : Warns) : Prop where
  less : ∀ l ∈ levelOrder, ∀ n, Has w' h l n → Has w h l n
  others : ∀ h', h' ≠ h → ∀ l ∈ levelOrder, ∀ n, Has w' h' l n ↔ Has w h' l n

/-- The counts after warnings of a handler were removed. -/
theorem fewer_counts {weights : Map Nat Nat} {reg : Nat → List Bytes} {w w' : Warns} (hu : Usable weights reg)
    (hreg : ∀ l ∈ levelOrder, ∀ l' ∈ levelOrder, ∀ n, n ∈ reg l → n ∈ reg l' → l = l') (hw : Sound w) (hw' : Sound w')
    (hk : Known reg w) (hk' : Known reg w') (ht : Tidy reg w) (ht2 : Tidy reg w') {h : Bytes} {ls ls' : Levels} (hls : w.byHandler.get h = some ls)
    (hls' : w'.byHandler.get h = some ls') (hf : Fewer h w w') {l : Nat} (hl : l ∈ levelOrder) :
    seenCount w' (reg l) ≤ seenCount w (reg l) ∧ count w' h l ≤ count w h l ∧ count w h l ≤ seenCount w (reg l) ∧
      count w' h l ≤ seenCount w' (reg l) ∧
      seenCount w (reg l) - count w h l ≤ seenCount w' (reg l) - count w' h l := by
  classical
  have fin : ∀ (x : Warns) (y : Levels), Sound x → x.byHandler.get h = some y → ∃ N : Finset Bytes, N.card = count x h l ∧
      ∀ n, n ∈ N ↔ Has x h l n := by
    intro x y hx hy
    cases hd : y.level l with
    | none =>
      refine ⟨∅, by rw [count_eq hx hy, hd]; rfl, fun n => ?_⟩
      rw [has_iff hx hy, hd]; simp
    | some d =>
      refine ⟨d.lookup.keys.toFinset, ?_, fun n => ?_⟩
      · rw [count_eq hx hy, hd, List.toFinset_card_of_nodup (hx.level h y _ d hy hd).nodup]; simp [DLevel.count, Map.keys]
      · rw [has_iff hx hy, hd]; simp
  have finU : ∀ x : Warns, ∃ U : Finset Bytes, U.card = seenCount x (reg l) ∧ ∀ n, n ∈ U ↔ n ∈ reg l ∧ Given x n := by
    intro x
    refine ⟨((reg l).filter (seen x)).toFinset, by rw [List.toFinset_card_of_nodup ((hu.nodup l).filter _)]; rfl, fun n => ?_⟩
    simp [List.mem_filter, seen_iff]
  obtain ⟨N, cN, mN⟩ := fin w ls hw hls
  obtain ⟨N', cN', mN'⟩ := fin w' ls' hw' hls'
  obtain ⟨U, cU, mU⟩ := finU w
  obtain ⟨U', cU', mU'⟩ := finU w'
  have ht' : ∀ n, n ∈ reg l → Given w n → ∃ h', Has w h' l n := by
    intro n hn hg
    obtain ⟨h', l', hl', hh⟩ := ht.given l hl n hn hg
    have : l = l' := hreg l hl l' hl' n hn (hk.registered h' l' n hl' hh)
    exact ⟨h', this ▸ hh⟩
  have hN : N' ⊆ N := fun n hn => (mN n).2 (hf.less l hl n ((mN' n).1 hn))
  have hNU : N ⊆ U := fun n hn => by
    have := (mN n).1 hn
    exact (mU n).2 ⟨hk.registered h l n hl this, given_of_has hw hk hl this⟩
  have hNU' : N' ⊆ U' := fun n hn => by
    have := (mN' n).1 hn
    exact (mU' n).2 ⟨hk'.registered h l n hl this, given_of_has hw' hk' hl this⟩
  have hdiff : U \ N ⊆ U' \ N' := by
    intro n hn
    rw [Finset.mem_sdiff] at hn ⊢
    obtain ⟨hn1, hn2⟩ := hn
    have hn3 : n ∉ N' := fun hc => hn2 (hN hc)
    obtain ⟨hr, hg⟩ := (mU n).1 hn1
    obtain ⟨h', hh⟩ := ht' n hr hg
    have hne : h' ≠ h := by rintro rfl; exact hn2 ((mN n).2 hh)
    have hh' : Has w' h' l n := (hf.others h' hne l hl n).2 hh
    exact ⟨(mU' n).2 ⟨hr, given_of_has hw' hk' hl hh'⟩, hn3⟩
  have c1 := Finset.card_le_card hdiff
  have c2 := Finset.card_le_card hN
  have c3 := Finset.card_le_card hNU
  have c4 := Finset.card_le_card hNU'
  rw [Finset.card_sdiff_of_subset hNU, Finset.card_sdiff_of_subset hNU'] at c1
  have hU : U' ⊆ U := by
    intro n hn
    obtain ⟨hr, hg⟩ := (mU' n).1 hn
    obtain ⟨h', l', hl', hh⟩ := ht2.given l hl n hr hg
    have hh' : Has w h' l' n := by
      by_cases e : h' = h
      · subst e; exact hf.less l' hl' n hh
      · exact (hf.others h' e l' hl' n).1 hh
    exact (mU n).2 ⟨hr, given_of_has hw hk hl' hh'⟩
  have c5 := Finset.card_le_card hU
  omega

/-- What holds of the third part of C43: under the same conditions, removing warnings of a
handler never lowers a score of this handler. Missing: the scores of other handlers
(`C43_other_falls`). -/
theorem C43_removal_partial (R : Rounding) (S : Sorter) {pick : List Bytes → List Bytes} (hp : ∀ l, (pick l).Perm l)
    {weights : Map Nat Nat} {reg : Nat → List Bytes} {w w' : Warns} (hu : Usable weights reg)
    (hreg : ∀ l ∈ levelOrder, ∀ l' ∈ levelOrder, ∀ n, n ∈ reg l → n ∈ reg l' → l = l') (hw : Sound w) (hw' : Sound w')
    (hk : Known reg w) (hk' : Known reg w') (ht : Tidy reg w) (ht' : Tidy reg w') (h : Bytes) (hh : HasHandler w h)
    (hh' : HasHandler w' h) (hf : Fewer h w w') :
    ∃ m m', newWarnAxis R S pick weights reg w = some m ∧ newWarnAxis R S pick weights reg w' = some m' ∧
      ∀ t, ∃ v v', warnScoreFor m h t = some (.fin v) ∧ warnScoreFor m' h t = some (.fin v') ∧ v ≤ v' := by
  obtain ⟨m, e, h1, _⟩ := axis_eq R S hp hu hw hk
  obtain ⟨m', e', h1', _⟩ := axis_eq R S hp hu hw' hk'
  obtain ⟨hd, hg, hr⟩ := h1 h hh
  obtain ⟨hd', hg', hr'⟩ := h1' h hh'
  obtain ⟨ls, hls⟩ := Option.isSome_iff_exists.1 hh
  obtain ⟨ls', hls'⟩ := Option.isSome_iff_exists.1 hh'
  have hfit := fits hu hw hk hls
  have hfit' := fits hu hw' hk' hls'
  have hcnt := fun l (hl : l ∈ levelOrder) => fewer_counts hu hreg hw hw' hk hk' ht ht' hls hls' hf hl
  have hlv : ∀ l ∈ levelOrder, levelScore R reg w ls l ≤ levelScore R reg w' ls' l := by
    intro l hl
    obtain ⟨c1, c2, c3, c4, c5⟩ := hcnt l hl
    rw [count_eq hw hls] at c2 c3 c5
    rw [count_eq hw' hls'] at c2 c4 c5
    cases hd' : ls'.level l with
    | none =>
      have : levelScore R reg w' ls' l = 100 := by unfold levelScore; rw [hd']
      rw [this]; exact (levelScore_bounds R (hfit l hl)).2
    | some d' =>
      have hpos : 0 < d'.count := List.length_pos_iff.2 (hw'.level h ls' _ d' hls' hd').ne
      rw [hd'] at c2 c4 c5
      cases hd : ls.level l with
      | none => rw [hd] at c2; simp at c2; omega
      | some d =>
        rw [hd] at c2 c3 c5
        simp only [Option.elim_some] at c2 c3 c4 c5
        unfold levelScore
        rw [hd, hd']
        exact leftOver_mono R c3 (by omega) c1 c5 c4
  obtain ⟨x, y, ex, ey, _, hxy, _⟩ := average_mono R (levelScore R reg w ls) (levelScore R reg w' ls') (weightOf weights) levelOrder
    (fun l hl => ⟨(levelScore_bounds R (hfit l hl)).1, hlv l hl, (levelScore_bounds R (hfit' l hl)).2⟩) hu.pos hu.sum
  have hsums : ∀ o : List Nat, (∀ l ∈ o, l ∈ levelOrder) →
      (o.map fun l => weightOf weights l * seenCount w' (reg l)).sum ≤ (o.map fun l => weightOf weights l * seenCount w (reg l)).sum ∧
      (o.map fun l => weightOf weights l * seenCount w (reg l)).sum + (o.map fun l => weightOf weights l * ((ls'.level l).elim 0 DLevel.count)).sum ≤
        (o.map fun l => weightOf weights l * seenCount w' (reg l)).sum + (o.map fun l => weightOf weights l * ((ls.level l).elim 0 DLevel.count)).sum := by
    intro o
    induction o with
    | nil => simp
    | cons l o ih =>
      intro ho
      obtain ⟨i1, i2⟩ := ih fun x hx => ho x (by simp [hx])
      obtain ⟨c1, c2, c3, c4, c5⟩ := hcnt l (ho l (by simp))
      rw [count_eq hw hls] at c2 c3 c5
      rw [count_eq hw' hls'] at c2 c4 c5
      simp only [List.map_cons, List.sum_cons]
      have a1 := Nat.mul_le_mul_left (weightOf weights l) c1
      have a2 : weightOf weights l * (seenCount w (reg l) + (ls'.level l).elim 0 DLevel.count) ≤
          weightOf weights l * (seenCount w' (reg l) + (ls.level l).elim 0 DLevel.count) := Nat.mul_le_mul_left _ (by omega)
      rw [Nat.mul_add, Nat.mul_add] at a2
      constructor <;> omega
  have horig : originalOf R weights reg w ls ≤ originalOf R weights reg w' ls' := by
    obtain ⟨s1, s2⟩ := hsums levelOrder fun _ h => h
    have p1 := paid_le_full (weights := weights) levelOrder hfit
    have p2 := paid_le_full (weights := weights) levelOrder hfit'
    by_cases h0 : fullScore weights reg w' = 0
    · have : originalOf R weights reg w' ls' = 100 := by unfold originalOf; rw [if_pos h0]
      rw [this]; exact (original_bounds R hfit).2
    · have h1 : fullScore weights reg w ≠ 0 := by unfold fullScore at h0 ⊢; omega
      unfold originalOf
      rw [if_neg h0, if_neg h1]
      exact leftOver_mono R p1 (Nat.pos_of_ne_zero h0) s1 (by unfold fullScore paidScore; omega) p2
  refine ⟨m, m', e, e', fun t => ?_⟩
  simp only [warnScoreFor, hg, hg', Option.map_some, hr.scores ls hls, hr'.scores ls' hls']
  have ex' : averageOf R (ops R weights reg w ls) = .fin x := ex
  have ey' : averageOf R (ops R weights reg w' ls') = .fin y := ey
  cases t with
  | default => exact ⟨x, y, by simp [Scores.get, ex'], by simp [Scores.get, ey'], hxy⟩
  | byData => exact ⟨x, y, by simp [Scores.get, ex'], by simp [Scores.get, ey'], hxy⟩
  | original => exact ⟨_, _, rfl, rfl, horig⟩
  | byTest => exact ⟨0, 0, rfl, rfl, le_refl _⟩

/-! ### Where the conditions come from -/

/-- The names that `WarningsForLevel` lists. -/
def registry (S : Sorter) (us : List Use) (l : Nat) : List Bytes :=
  (warningsForLevel S (Registry.run S {} us) l).2.map Warning.name

/-- After any use of the registry no name is listed twice, neither at one level nor at
two. -/
theorem C43_registry (S : Sorter) (us : List Use) :
    (∀ l, (registry S us l).Nodup) ∧ ∀ l l' n, n ∈ registry S us l → n ∈ registry S us l' → l = l' := by
  constructor
  · intro l
    unfold registry
    rw [List.Nodup, List.pairwise_map]
    refine (WarnRegistry.C28_lists_frozen S us l).1.imp ?_
    intro a b hab e
    rw [e, less_irrefl] at hab; cases hab
  · intro l l' n h h'
    obtain ⟨a, ha, ea⟩ := List.mem_map.1 h
    obtain ⟨b, hb, eb⟩ := List.mem_map.1 h'
    have h1 := ((WarnRegistry.C28_lists_frozen S us l).2 a).1 ha
    have h2 := ((WarnRegistry.C28_lists_frozen S us l').2 b).1 hb
    rw [← h1.1, ← h2.1]
    have e := h1.2
    rw [ea, ← eb, h2.2] at e
    rw [Option.some.inj e]

/-- From the managers to the scores: if every warning that the managers report is
registered at its level, then the reports are read without error and all scores of the
handlers in them are percentages. -/
theorem C43_reported_partial {E : Verif.Data.Env} (hL : LowersLib E.lib) (R : Rounding) (S : Sorter) {pick : List Bytes → List Bytes}
    (hp : ∀ l, (pick l).Perm l) {weights : Map Nat Nat} {reg : Nat → List Bytes} (hu : Usable weights reg) (source : Bytes)
    (lookup : Map Bytes Bytes) (rs : List Run) (hr : ∀ r ∈ rs, OkRun E.lib lookup r)
    (hd : (rs.map fun r => tagOf lookup r.name).Nodup) (head text tail : Bytes) (hb : Before head)
    (ht : text = (rs.map fun r => (r.manager.showWarnings S pick).2).flatten) (hs : ∀ l ∈ splitLines text, l.length < 65536)
    (ha : After tail) (hreg : ∀ r ∈ rs, ∀ n i, WarnManager.reported r.events n = some i → n ∈ reg i.level) :
    ∃ w m, parseWarningData E source lookup {} (head ++ text ++ tail) = some (w, false) ∧
      newWarnAxis R S pick weights reg w = some m ∧ Percentages m w ∧
      ∀ r ∈ rs, ∀ n i, WarnManager.reported r.events n = some i →
        HasHandler w (tagOf lookup r.name) ∧ Has w (tagOf lookup r.name) i.level n := by
  obtain ⟨w, hw, h1, h2⟩ := C38_round_trip_partial hL S pick hp source lookup rs hr hd head text tail hb ht hs ha
  have hsound : Sound w := parse_sound sound_new hw
  have hk : Known reg w := by
    refine ⟨fun h l n hl hh => ?_, fun h l n x hl hx => ?_⟩
    · obtain ⟨r, hr', _, i, hi, e⟩ := h2 h _ n hh
      have e : i.level = l := levelText_inj hl e.symm
      exact e ▸ hreg r hr' n i hi
    · obtain ⟨r, hr', rfl, i, hi, e⟩ := h2 h _ n (by rw [hx]; rfl)
      have := h1 r hr' n i hi
      rw [← e, hx] at this
      cases this
      unfold WarnManager.reported at hi
      split at hi
      · cases hi
      · cases hi; simp [found]
  obtain ⟨m, e, hP, _⟩ := C43_percentages_partial R S hp hu hsound hk
  refine ⟨w, m, hw, e, hP, fun r hr' n i hi => ?_⟩
  have hx := h1 r hr' n i hi
  refine ⟨?_, by unfold Has; rw [hx]; rfl⟩
  unfold HasHandler
  cases hb : w.byHandler.get (tagOf lookup r.name) with
  | none => simp [Warns.look, Warns.hid, hb] at hx
  | some ls => rfl

/-! ### A case -/

theorem has_cases {w : Warns} {h : Bytes} {l : Nat} {n : Bytes} (hh : Has w h l n) :
    ∃ e ∈ w.byHandler, e.1 = h ∧ ∃ f ∈ e.2.lookup, f.1 = levelText l ∧ n ∈ f.2.lookup.keys := by
  unfold Has Warns.look Warns.hid Levels.id at hh
  cases h1 : w.byHandler.get h with
  | none => simp [h1] at hh
  | some ls =>
    cases h2 : ls.lookup.get (levelText l) with
    | none => simp [h1, h2] at hh
    | some d =>
      cases h3 : d.lookup.get n with
      | none => simp [h1, h2, h3] at hh
      | some i => exact ⟨_, Map.mem_of_get h1, rfl, _, Map.mem_of_get h2, rfl, (Map.mem_keys _ _).2 (by rw [h3]; rfl)⟩

/-- Everything to be checked about the warnings of all handlers. -/
def everyWarning (w : Warns) (p : Bytes → Nat → Bytes → Bool) : Bool :=
  w.byHandler.all fun e => levelOrder.all fun l => e.2.lookup.all fun f => f.1 != levelText l || f.2.lookup.keys.all fun n => p e.1 l n

theorem every_has {w : Warns} {p : Bytes → Nat → Bytes → Bool} (hp : everyWarning w p = true) {h : Bytes} {l : Nat} {n : Bytes}
    (hl : l ∈ levelOrder) (hh : Has w h l n) : p h l n = true := by
  obtain ⟨e, he, rfl, f, hf, hfl, hn⟩ := has_cases hh
  simp only [everyWarning, List.all_eq_true] at hp
  have := hp e he l hl f hf
  simp only [hfl, bne_self_eq_false, Bool.false_or, List.all_eq_true] at this
  exact this n hn

/-- The environment of the cases. -/
def caseEnv : Verif.Data.Env := ⟨someLib, fun _ => [], fun _ => none⟩

/-- The default weights (internal/scoring/keeper/default.go:55-60). -/
def caseWeights : Map Nat Nat := [(4, 8), (3, 4), (2, 2), (1, 1)]

/-- Three registered warnings. -/
def caseReg (l : Nat) : List Bytes := if l = 4 then [b!"Alpha", b!"Beta"] else if l = 2 then [b!"Gamma"] else []

/-- A report: handlers a and b have a required warning each, a also has a suggested one. -/
def caseText : Bytes :=
  b!"Warnings for a:\n Required\n 1 [Alpha] x\n TestOne: t\n Suggested\n 1 [Gamma] x\n TestOne: t\nWarnings for b:\n Required\n 1 [Beta] x\n TestOne: t\n"

/-- The same when b has no warnings any more. -/
def lessText : Bytes :=
  b!"Warnings for a:\n Required\n 1 [Alpha] x\n TestOne: t\n Suggested\n 1 [Gamma] x\n TestOne: t\nWarnings for b:\n None\n"

/-- The data read from a text. -/
def readCase (text : Bytes) : Warns := ((parseWarningData caseEnv [] [] {} text).map Prod.fst).getD {}

theorem read_case : parseWarningData caseEnv [] [] {} caseText = some (readCase caseText, false) := by decide +kernel
theorem read_less : parseWarningData caseEnv [] [] {} lessText = some (readCase lessText, false) := by decide +kernel

theorem case_usable : Usable caseWeights caseReg where
  pos := by decide
  sum := by decide
  names := by decide
  both := by decide
  nodup := by intro l; unfold caseReg; split_ifs <;> decide

/-- What `Known` needs, as a test. -/
def knownTest (reg : Nat → List Bytes) (w : Warns) : Bool :=
  everyWarning w fun h l n => decide (n ∈ reg l) && ((w.look h (levelText l) n).all fun x => decide (x.instances ≠ []))

theorem known_of {reg : Nat → List Bytes} {w : Warns} (h : knownTest reg w = true) : Known reg w where
  registered x l n hl hh := by
    have := every_has h hl hh
    simp only [Bool.and_eq_true, decide_eq_true_eq] at this
    exact this.1
  instances x l n d hl hd := by
    have := every_has h hl (show Has w x l n by unfold Has; rw [hd]; rfl)
    simp only [hd, Bool.and_eq_true, decide_eq_true_eq, Option.all_some] at this
    exact this.2

/-- What `Tidy` needs, as a test. -/
def tidyTest (reg : Nat → List Bytes) (w : Warns) : Bool :=
  levelOrder.all fun l => (reg l).all fun n => !(seen w n) ||
    (w.byHandler.keys.any fun h => levelOrder.any fun l' => (w.look h (levelText l') n).isSome)

theorem tidy_of {reg : Nat → List Bytes} {w : Warns} (h : tidyTest reg w = true) : Tidy reg w where
  given l hl n hn hg := by
    simp only [tidyTest, List.all_eq_true] at h
    have := h l hl n hn
    rw [(seen_iff w n).2 hg] at this
    simp only [Bool.not_true, Bool.false_or, List.any_eq_true] at this
    obtain ⟨x, _, l', hl', hx⟩ := this
    exact ⟨x, l', hl', hx⟩

theorem case_known : Known caseReg (readCase caseText) := known_of (by decide +kernel)
theorem less_known : Known caseReg (readCase lessText) := known_of (by decide +kernel)
theorem case_tidy : Tidy caseReg (readCase caseText) := tidy_of (by decide +kernel)
theorem less_tidy : Tidy caseReg (readCase lessText) := tidy_of (by decide +kernel)

theorem case_fewer : Fewer b!"b" (readCase caseText) (readCase lessText) where
  less l hl n hh := by
    have := every_has (w := readCase lessText) (p := fun h _ _ => h != b!"b") (by decide +kernel) hl hh
    simp at this
  others h hne l hl n := by
    constructor
    · intro hh
      exact every_has (w := readCase lessText) (p := fun h l n => ((readCase caseText).look h (levelText l) n).isSome) (by decide +kernel) hl hh
    · intro hh
      have := every_has (w := readCase caseText)
        (p := fun h l n => h == b!"b" || ((readCase lessText).look h (levelText l) n).isSome) (by decide +kernel) hl hh
      simp only [Bool.or_eq_true, beq_iff_eq, hne, false_or] at this
      exact this

/-- The conditions of `C43_percentages_partial`, `C43_value_partial` and
`C43_unknown_handler` hold for the case, whose scores are 60 and 73 and 1/3 when exact
(`case_scores`). -/
example : ∃ m, newWarnAxis ieee someSorter id caseWeights caseReg (readCase caseText) = some m ∧ Percentages m (readCase caseText) := by
  obtain ⟨m, e, h, _⟩ := C43_percentages_partial ieee someSorter (fun l => .refl (id l)) case_usable (parse_sound sound_new read_case) case_known
  exact ⟨m, e, h⟩

theorem case_scores : ((newWarnAxis .exact someSorter id caseWeights caseReg (readCase caseText)).map fun m =>
    (warnScoreFor m b!"a" .default, warnScoreFor m b!"b" .default, warnScoreFor m b!"a" .original)) =
      some (some (.fin 60), some (.fin (220 / 3)), some (.fin (800 / 18))) := by decide +kernel

/-- A handler without warnings, in the case. -/
example : ∃ m, newWarnAxis ieee someSorter id caseWeights caseReg (readCase lessText) = some m ∧
    warnScoreFor m b!"b" .original = some (.fin 100) := by
  obtain ⟨m, e, h, _⟩ := C43_none_partial ieee someSorter (fun l => .refl (id l)) case_usable (parse_sound sound_new read_less) less_known b!"b"
    (by decide +kernel) (fun l hl n hh => by
      have := every_has (w := readCase lessText) (p := fun h _ _ => h != b!"b") (by decide +kernel) hl hh
      simp at this)
  exact ⟨m, e, h _ (by decide)⟩

/-- Removing the warning of b does not lower its scores. -/
example : ∃ m m', newWarnAxis ieee someSorter id caseWeights caseReg (readCase caseText) = some m ∧
    newWarnAxis ieee someSorter id caseWeights caseReg (readCase lessText) = some m' ∧
    ∀ t, ∃ v v', warnScoreFor m b!"b" t = some (.fin v) ∧ warnScoreFor m' b!"b" t = some (.fin v') ∧ v ≤ v' :=
  C43_removal_partial ieee someSorter (fun l => .refl (id l)) case_usable (by
    intro l hl l' hl' n h h'
    revert h h'
    simp only [levelOrder, List.mem_cons, List.not_mem_nil, or_false] at hl hl'
    rcases hl with rfl | rfl | rfl | rfl <;> rcases hl' with rfl | rfl | rfl | rfl <;> simp [caseReg] <;>
      (rintro (rfl | rfl) <;> decide))
    (parse_sound sound_new read_case) (parse_sound sound_new read_less) case_known less_known case_tidy less_tidy b!"b"
    (by decide +kernel) (by decide +kernel) case_fewer

/-- The conditions of `C43_reported_partial` hold for the run of `C38_round_trip_partial`. -/
example (camel : Bytes → List Bytes) (indent : Bytes → Option Bytes) (S : Sorter) (text : Bytes)
    (ht : text = (someRun.manager.showWarnings S id).2) (hs : ∀ l ∈ splitLines text, l.length < 65536) :
    ∃ w m, parseWarningData ⟨someLib, camel, indent⟩ b!"Verify" [] {} text = some (w, false) ∧
      newWarnAxis ieee S id caseWeights (fun l => if l = 4 then [b!"Duplicates"] else if l = 1 then [b!"Unused"] else []) w = some m ∧
      Percentages m w ∧ HasHandler w b!"phsym/zerolog" := by
  obtain ⟨w, m, h1, h2, h3, h4⟩ := C43_reported_partial (E := ⟨someLib, camel, indent⟩) ⟨_, Verif.Letters.some_lowers⟩ ieee S (pick := id) (fun l => .refl l)
    (weights := caseWeights) (reg := fun l => if l = 4 then [b!"Duplicates"] else if l = 1 then [b!"Unused"] else [])
    ⟨by decide, by decide, by decide, by decide, by intro l; split_ifs <;> decide⟩ b!"Verify" []
    [someRun] (by intro r hr; simp only [List.mem_singleton] at hr; subst hr; exact some_ok) (by simp) [] text [] before_nil (by simpa using ht) hs .nothing
    (by
      intro r hr n i h
      simp only [List.mem_singleton] at hr; subst hr
      rw [some_events] at h
      unfold WarnManager.reported WarnManager.under at h
      by_cases h1 : n = b!"Duplicates"
      · subst h1; cases Option.some.inj h; simp
      · by_cases h2 : n = b!"Unused"
        · subst h2; cases Option.some.inj h; simp
        · have h1 : ¬ b!"Duplicates" = n := fun e => h1 e.symm
          have h2 : ¬ b!"Unused" = n := fun e => h2 e.symm
          simp only [List.filter_cons, h1, h2, decide_false, Bool.false_eq_true, if_false, List.filter_nil] at h
          cases h)
  rw [List.append_nil] at h1
  exact ⟨w, m, h1, h2, h3, (h4 someRun (by simp) b!"Duplicates" _ (by rw [some_events]; rfl)).1⟩

/-! ### What does not hold -/

/-- The third part of C43 read literally: removing a warning of one handler does not lower
the score of any. -/
def C43_removal_statement : Prop := ∀ (S : Sorter) (pick : List Bytes → List Bytes) (weights : Map Nat Nat) (reg : Nat → List Bytes)
  (w w' : Warns) (h g : Bytes) (m m' : Map Bytes WarnHandler) (v v' : Rat), (∀ l, (pick l).Perm l) → Usable weights reg → Sound w → Sound w' →
  Known reg w → Known reg w' → Tidy reg w → Tidy reg w' → Fewer h w w' →
  newWarnAxis ieee S pick weights reg w = some m → newWarnAxis ieee S pick weights reg w' = some m' →
  warnScoreFor m g .default = some (.fin v) → warnScoreFor m' g .default = some (.fin v') → v ≤ v'

/-- When b loses its only warning, the score of a falls, from 60 to 100/3. -/
theorem C43_other_falls : ¬ C43_removal_statement := by
  intro hst
  have hc : ((newWarnAxis ieee someSorter id caseWeights caseReg (readCase caseText)).bind fun m => warnScoreFor m b!"a" .default) =
      some (.fin 60) := by decide +kernel
  have hc' : (((newWarnAxis ieee someSorter id caseWeights caseReg (readCase lessText)).bind fun m => warnScoreFor m b!"a" .default).map
      fun v => match v with | .fin q => decide (q < 34) | _ => false) = some true := by decide +kernel
  obtain ⟨m, em, hm⟩ := Option.bind_eq_some_iff.1 hc
  obtain ⟨v, hv, hlt⟩ := Option.map_eq_some_iff.1 hc'
  obtain ⟨m', em', hm'⟩ := Option.bind_eq_some_iff.1 hv
  cases v with
  | nan => cases hlt
  | inf s => cases hlt
  | fin q =>
    have := hst someSorter id caseWeights caseReg _ _ b!"b" b!"a" m m' 60 q (fun l => .refl (id l)) case_usable
      (parse_sound sound_new read_case) (parse_sound sound_new read_less) case_known less_known case_tidy less_tidy case_fewer em em' hm hm'
    have hq : q < 34 := of_decide_eq_true hlt
    linarith

theorem fails_concrete : ((parseWarningData caseEnv [] [] {} b!"Warnings for a:\n Required\n 1 [Delta] x\n TestOne: t\n").bind fun r =>
    (newWarnAxis ieee someSorter id caseWeights caseReg r.1).map fun m =>
      (r.2, (r.1.byHandler.get b!"a").isSome, warnScoreFor m b!"a" .default)) = some (false, true, some (.inf true)) := by
  decide +kernel

/-- C43 is false as stated: a handler with a warning that is not registered (here: the
only one) has a score of minus infinity. -/
theorem C43_fails : ¬ C43_statement := by
  intro hst
  have hc := fails_concrete
  cases hp : parseWarningData caseEnv [] [] {} b!"Warnings for a:\n Required\n 1 [Delta] x\n TestOne: t\n" with
  | none => rw [hp] at hc; cases hc
  | some r =>
    obtain ⟨w, e⟩ := r
    rw [hp] at hc
    simp only [Option.bind_some, Option.map_eq_some_iff, Prod.mk.injEq] at hc
    obtain ⟨m, em, rfl, h1, h2⟩ := hc
    obtain ⟨m', em', hP⟩ := hst caseEnv someSorter id caseWeights caseReg [] _ [] w (fun l => .refl (id l)) case_usable hp
    rw [em] at em'
    cases em'
    obtain ⟨v, ev, _⟩ := hP b!"a" h1 .default
    rw [h2] at ev
    cases ev

end Verif.Props.WarnScore
