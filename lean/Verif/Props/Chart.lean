import Verif.Server.Chart
import Verif.Spec.Numeral
import Mathlib.Tactic.Linarith
import Mathlib.Tactic.IntervalCases

/-
C46: the geometry of charts.
-/

namespace Verif.Props.Chart

open Verif Verif.Go Verif.Score Verif.Server

/-! ### The size in the URL -/

theorem digits_read : ∀ (s : Bytes) (n : Nat), digitsValue s n = s.foldl (fun acc b => acc.bind fun n =>
    if Json.isDigit b then some (n * 10 + (b.toNat - 0x30)) else none) (some n)
  | [], n => rfl
  | a :: s, n => by
    rw [digitsValue, List.foldl_cons, Option.bind_some]
    by_cases h : Json.isDigit a = true
    · rw [if_pos h, digits_read s]
      have h' : (decide (0x30 ≤ a) && decide (a ≤ 0x39)) = true := h
      rw [if_pos h']
    · have h' : ¬ (decide (0x30 ≤ a) && decide (a ≤ 0x39)) = true := h
      rw [if_neg h, if_neg h']
      have : ∀ s : Bytes, s.foldl (fun acc b => acc.bind fun n =>
          if Json.isDigit b then some (n * 10 + (b.toNat - 0x30)) else none) (none : Option Nat) = none := by
        intro s; induction s with
        | nil => rfl
        | cons _ _ ih => exact ih
      rw [this]

/-- Every text asks for one of the four charts. -/
theorem C46_size_defined (s : Bytes) : 0 ≤ scoreChartSize s ∧ scoreChartSize s < sizes.length := by
  unfold scoreChartSize
  split
  · dsimp only
    generalize (match atoi s with
      | some n => n
      | none => 0) = n
    have : (sizes.length : Int) = 4 := rfl
    rw [this]
    split <;> split <;> try split
    all_goals omega
  · exact ⟨by decide, by decide⟩

/-- A number, printed in decimal, asks for the chart of that number, or for the last one if it is greater. -/
theorem C46_size_number (n : Nat) (h : n < 2 ^ 63) : scoreChartSize (Slog.decNat n) = min n 3 := by
  have hd := Slog.decNat_digits n
  have hr := Slog.readNat_decNat n
  have hne : Slog.decNat n ≠ [] := by rw [Slog.decNat]; split <;> simp
  have ha : atoi (Slog.decNat n) = some (n : Int) := by
    unfold atoi
    have hm : signOf (Slog.decNat n) = (false, Slog.decNat n) := by
      generalize Slog.decNat n = s at hd
      cases s with
      | nil => rfl
      | cons a s =>
        rw [List.all_cons, Bool.and_eq_true] at hd
        have h1 : a ≠ 0x2D := fun e => by rw [e] at hd; exact absurd hd.1 (by decide)
        have h2 : a ≠ 0x2B := fun e => by rw [e] at hd; exact absurd hd.1 (by decide)
        unfold signOf
        split
        · rename_i e; cases e; exact absurd rfl h1
        · rename_i e; cases e; exact absurd rfl h2
        · rfl
    rw [hm]
    dsimp only
    rw [if_neg hne, digits_read]
    unfold Slog.readNat at hr
    rw [hr]
    simp only [Bool.false_eq_true, if_false, if_pos h]
  unfold scoreChartSize
  rw [if_pos hne, ha]
  dsimp only
  have : (sizes.length : Int) = 4 := rfl
  rw [this]
  split <;> split <;> try split
  all_goals omega

/-- No parameter, or one that is no number, asks for the full chart; so does a negative number. -/
theorem C46_size_other (s : Bytes) (h : s = [] ∨ atoi s = none ∨ ∃ n, atoi s = some n ∧ n < 0) : scoreChartSize s = 0 := by
  unfold scoreChartSize
  rcases h with rfl | h | ⟨n, h, hn⟩
  · rfl
  · rw [h]; simp
  · rw [h]; simp [hn]

example : scoreChartSize b!"2" = 2 ∧ scoreChartSize b!"+3" = 3 ∧ scoreChartSize b!"17" = 3 ∧ scoreChartSize b!"-1" = 0 ∧
    scoreChartSize b!"1x" = 0 ∧ scoreChartSize b!"99999999999999999999" = 0 ∧ scoreChartSize b!"" = 0 := by decide +kernel

/-! ### The smallest size that shows all -/

/-- A handler is within the chart of a size: neither score is below its lowest values. -/
def Within (k : Scored) (h : Bytes) (s : Size) : Prop := lt (k.y h) (.fin s.y) = false ∧ lt (k.x h) (.fin s.x) = false

/-- All handlers are. -/
def AllWithin (k : Scored) (s : Size) : Prop := ∀ h ∈ k.tags, Within k h s

theorem outside_iff (k : Scored) (s : Size) : outside k s = false ↔ AllWithin k s := by
  unfold outside AllWithin Within
  simp

theorem lt_trans' {v : Val} {a b : Rat} (hab : a ≤ b) (h : lt v (.fin b) = false) : lt v (.fin a) = false := by
  cases v with
  | nan => rfl
  | inf s => exact h
  | fin q =>
    simp only [lt, decide_eq_false_iff_not, not_lt] at *
    linarith

theorem within_smaller {k : Scored} {s t : Size} (hx : s.x ≤ t.x) (hy : s.y ≤ t.y) (h : AllWithin k t) : AllWithin k s :=
  fun a ha => ⟨lt_trans' hy (h a ha).1, lt_trans' hx (h a ha).2⟩

/-- The size chosen is one of the four. It is the greatest of the numbers of sizes, i.e. the smallest chart, in which all handlers
are within (or 0). -/
theorem C46_smallest (k : Scored) :
    smallestChartSize k < sizes.length ∧
      ∀ i, 0 < i → i < sizes.length → (AllWithin k (size i) ↔ i ≤ smallestChartSize k) := by
  have s1 : size 1 = ⟨25, 25⟩ := rfl
  have s2 : size 2 = ⟨50, 50⟩ := rfl
  have s3 : size 3 = ⟨75, 75⟩ := rfl
  have w32 : AllWithin k ⟨75, 75⟩ → AllWithin k ⟨50, 50⟩ := within_smaller (by norm_num) (by norm_num)
  have w21 : AllWithin k ⟨50, 50⟩ → AllWithin k ⟨25, 25⟩ := within_smaller (by norm_num) (by norm_num)
  have key : smallestChartSize k = if outside k ⟨25, 25⟩ then 0 else if outside k ⟨50, 50⟩ then 1 else if outside k ⟨75, 75⟩ then 2 else 3 := by
    rfl
  rw [← outside_iff, ← outside_iff] at w32 w21
  have conv : ∀ i, 0 < i → i < sizes.length → (outside k (size i) = false ↔ i ≤ smallestChartSize k) := by
    intro i h0 hi
    have hi : i < 4 := hi
    rw [key]
    rcases show i = 1 ∨ i = 2 ∨ i = 3 by omega with rfl | rfl | rfl
    · rw [s1]
      cases h1 : outside k ⟨25, 25⟩ <;> cases h2 : outside k ⟨50, 50⟩ <;> cases h3 : outside k ⟨75, 75⟩ <;> simp_all
    · rw [s2]
      cases h1 : outside k ⟨25, 25⟩ <;> cases h2 : outside k ⟨50, 50⟩ <;> cases h3 : outside k ⟨75, 75⟩ <;> simp_all
    · rw [s3]
      cases h1 : outside k ⟨25, 25⟩ <;> cases h2 : outside k ⟨50, 50⟩ <;> cases h3 : outside k ⟨75, 75⟩ <;> simp_all
  constructor
  · rw [key]
    have : sizes.length = 4 := rfl
    rw [this]
    split
    · omega
    · split
      · omega
      · split <;> omega
  · intro i h0 hi
    rw [← outside_iff]
    exact conv i h0 hi

/-- More data never chooses a smaller chart: if every point of `k` is one of `k'`, the number chosen for `k'` is not greater. -/
theorem C46_wider (k k' : Scored) (h : ∀ a ∈ k.tags, ∃ b ∈ k'.tags, k'.x b = k.x a ∧ k'.y b = k.y a) :
    smallestChartSize k' ≤ smallestChartSize k := by
  have h1 := C46_smallest k
  have h2 := C46_smallest k'
  by_cases hz : smallestChartSize k' = 0
  · omega
  · apply (h1.2 _ (by omega) h2.1).1
    have := (h2.2 _ (by omega) h2.1).2 (Nat.le_refl _)
    intro a ha
    obtain ⟨b, hb, ex, ey⟩ := h a ha
    have := this b hb
    unfold Within at *
    rw [ex, ey] at this
    exact this

/-! ### What is shown in a chart -/

/-- The handlers shown, with their points: those whose first score reaches the lowest value, unless they are handlers of the warnings
whose second score does not. -/
theorem C46_shown (k : Scored) (warnTags : List Bytes) (s : Size) (h : Bytes) :
    (chartHandlers k warnTags s).get h =
      if h ∈ k.tags ∧ ge (k.y h) (.fin s.y) = true then
        if h ∈ warnTags then (if ge (k.x h) (.fin s.x) = true then some ⟨k.x h, k.y h⟩ else none)
        else some ⟨.fin 0, k.y h⟩
      else none := by
  have first : ∀ (tags : List Bytes) (m : Map Bytes Coords),
      (tags.foldl (fun m h => if ge (k.y h) (.fin s.y) then m.set h ⟨.fin 0, k.y h⟩ else m) m).get h =
        if h ∈ tags ∧ ge (k.y h) (.fin s.y) = true then some ⟨.fin 0, k.y h⟩ else m.get h := by
    intro tags
    induction tags with
    | nil => intro m; simp
    | cons t tags ih =>
      intro m
      rw [List.foldl_cons, ih]
      by_cases hg : ge (k.y h) (.fin s.y) = true
      · by_cases hm : h ∈ tags
        · simp [hg, hm]
        · by_cases e : h = t
          · subst e
            simp [hg, hm, Map.get_set]
          · simp only [hm, false_and, if_false, List.mem_cons, e, false_or]
            split
            · rw [Map.get_set, if_neg e]
            · rfl
      · simp only [hg]
        simp only [and_false, if_false, Bool.false_eq_true]
        by_cases e : h = t
        · subst e; rw [if_neg hg]
        · split
          · rw [Map.get_set, if_neg e]
          · rfl
  have second : ∀ (tags : List Bytes) (m : Map Bytes Coords),
      (tags.foldl (addX k s) m).get h =
        if h ∈ tags then (if ge (k.x h) (.fin s.x) = true then (m.get h).map fun c => { c with x := k.x h } else none) else m.get h := by
    intro tags
    induction tags with
    | nil => intro m; simp
    | cons t tags ih =>
      intro m
      rw [List.foldl_cons, ih]
      by_cases e : h = t
      · subst e
        simp only [List.mem_cons, true_or, if_true]
        cases hm : m.get h with
        | none => simp [addX, hm]
        | some c =>
          by_cases hg : ge (k.x h) (.fin s.x) = true
          · simp [addX, hm, hg, Map.get_set]
          · simp [addX, hm, hg, Map.get_del]
      · have : (addX k s m t).get h = m.get h := by
          unfold addX
          split
          · rfl
          · split
            · rw [Map.get_set, if_neg e]
            · rw [Map.get_del, if_neg e]
        rw [this]
        simp [e]
  unfold chartHandlers
  dsimp only
  rw [second, first]
  simp only [Map.get_nil]
  split <;> split <;> simp_all

/-- In the chart of the size chosen no handler with scores that are numbers is missing. -/
theorem C46_all_shown (k : Scored) (warnTags : List Bytes) (hw : ∀ h ∈ k.tags, h ∈ warnTags)
    (hn : ∀ h ∈ k.tags, k.x h ≠ .nan ∧ k.y h ≠ .nan)
    (h0 : ∀ h ∈ k.tags, Within k h ⟨0, 0⟩) (h : Bytes) (hh : h ∈ k.tags) :
    (chartHandlers k warnTags (size (smallestChartSize k))).get h = some ⟨k.x h, k.y h⟩ := by
  have hge : ∀ (v : Val) (q : Rat), v ≠ .nan → lt v (.fin q) = false → ge v (.fin q) = true := by
    intro v q hv hl
    cases v with
    | nan => exact absurd rfl hv
    | inf s => simp [ge, hl]
    | fin r => simp [ge, hl]
  have hall : AllWithin k (size (smallestChartSize k)) := by
    by_cases hz : smallestChartSize k = 0
    · rw [hz]; exact h0
    · exact ((C46_smallest k).2 _ (by omega) (C46_smallest k).1).2 (Nat.le_refl _)
  rw [C46_shown]
  have := hall h hh
  rw [if_pos ⟨hh, hge _ _ (hn h hh).2 this.1⟩, if_pos (hw h hh), if_pos (hge _ _ (hn h hh).1 this.2)]

/-- Three handlers. -/
def sample : Scored :=
  { tags := [b!"a", b!"b", b!"c"], x := fun h => if h = b!"b" then .fin 60 else .fin 90, y := fun h => if h = b!"c" then .fin 50 else .fin 80 }

example : smallestChartSize sample = 2 ∧ (chartHandlers sample [b!"a", b!"b", b!"c"] (size 2)).keys.length = 3 ∧
    (chartHandlers sample [b!"a", b!"b", b!"c"] (size 3)).keys = [b!"a"] := by decide +kernel

example : (∀ h ∈ sample.tags, sample.x h ≠ .nan ∧ sample.y h ≠ .nan) ∧ ∀ h ∈ sample.tags, Within sample h ⟨0, 0⟩ := by
  constructor
  · decide +kernel
  · unfold Within; decide +kernel

/-- Without the point in the middle a smaller chart does. -/
example : smallestChartSize { sample with tags := [b!"a"] } = 3 := by decide +kernel

/-! ### Ticks -/

theorem nextTick_dvd {d : Nat} (t : Nat) : d ∣ nextTick d t := by
  unfold nextTick
  split
  · rename_i h
    exact Nat.dvd_add (Nat.dvd_of_mod_eq_zero h) (Nat.dvd_refl d)
  · exact Nat.dvd_mul_left _ _

theorem nextTick_least {d t u : Nat} (hd : 0 < d) (hu : d ∣ u) (h : t < u) : nextTick d t ≤ u := by
  obtain ⟨c, rfl⟩ := hu
  unfold nextTick
  split
  · rename_i hm
    obtain ⟨b, rfl⟩ := Nat.dvd_of_mod_eq_zero hm
    have : b < c := Nat.lt_of_mul_lt_mul_left h
    calc d * b + d = d * (b + 1) := by rw [Nat.mul_add, Nat.mul_one]
      _ ≤ d * c := Nat.mul_le_mul_left _ this
  · rw [Nat.mul_comm d c]
    apply Nat.mul_le_mul_right
    rw [Nat.div_le_iff_le_mul_add_pred hd]
    omega

theorem mem_ticksFrom {d : Nat} (hd : 0 < d) (u : Nat) : ∀ t, u ∈ ticksFrom d t ↔ u ≤ 100 ∧ (u = t ∨ (t < u ∧ d ∣ u)) := by
  intro t
  induction ht : 101 - t using Nat.strongRecOn generalizing t with
  | _ n ih =>
    rw [ticksFrom]
    split
    · rename_i h
      have hgt := nextTick_gt hd t
      rw [List.mem_cons, ih (101 - nextTick d t) (by omega) (nextTick d t) rfl]
      constructor
      · rintro (rfl | ⟨h1, rfl | ⟨h2, h3⟩⟩)
        · exact ⟨h.1, .inl rfl⟩
        · exact ⟨h1, .inr ⟨hgt, nextTick_dvd t⟩⟩
        · exact ⟨h1, .inr ⟨by omega, h3⟩⟩
      · rintro ⟨h1, rfl | ⟨h2, h3⟩⟩
        · exact .inl rfl
        · refine .inr ⟨h1, ?_⟩
          have := nextTick_least hd h3 h2
          rcases Nat.lt_or_eq_of_le this with h | h
          · exact .inr ⟨h, h3⟩
          · exact .inl h.symm
    · rename_i h
      simp only [List.not_mem_nil, false_iff]
      omega

theorem sorted_ticksFrom {d : Nat} (hd : 0 < d) : ∀ t, (ticksFrom d t).Pairwise (· < ·) := by
  intro t
  induction ht : 101 - t using Nat.strongRecOn generalizing t with
  | _ n ih =>
    rw [ticksFrom]
    split
    · rename_i h
      have hgt := nextTick_gt hd t
      refine List.Pairwise.cons ?_ (ih (101 - nextTick d t) (by omega) (nextTick d t) rfl)
      intro u hu
      rw [mem_ticksFrom hd] at hu
      omega
    · exact List.Pairwise.nil

/-- The ticks of an axis from `low` to 100 are `low` and the multiples of the distance after it, in order, up to 100, which is one;
there are at most 14. -/
theorem C46_ticks (low : Nat) (h : low ≤ 100) :
    (scoreChartTicks low).Pairwise (· < ·) ∧ (scoreChartTicks low).head? = some low ∧ 100 ∈ scoreChartTicks low ∧
      (∀ u, u ∈ scoreChartTicks low ↔ u ≤ 100 ∧ (u = low ∨ (low < u ∧ tickDistance low ∣ u))) ∧
      (scoreChartTicks low).length ≤ 14 := by
  have hd : 0 < tickDistance low ∧ tickDistance low ∣ 100 := by
    unfold tickDistance
    split
    · decide
    · split
      · decide
      · split <;> decide
  refine ⟨sorted_ticksFrom hd.1 low, ?_, ?_, fun u => mem_ticksFrom hd.1 u low, ?_⟩
  · unfold scoreChartTicks
    rw [ticksFrom, dif_pos ⟨h, hd.1⟩]
    rfl
  · refine (mem_ticksFrom hd.1 100 low).2 ⟨Nat.le_refl _, ?_⟩
    rcases Nat.lt_or_eq_of_le h with h | h
    · exact .inr ⟨h, hd.2⟩
    · exact .inl h.symm
  · revert h
    have : ∀ n : Fin 101, (scoreChartTicks n).length ≤ 14 := by decide +kernel
    intro h
    exact this ⟨low, by omega⟩

example : scoreChartTicks 0 = [0, 10, 20, 30, 40, 50, 60, 70, 80, 90, 100] ∧
    scoreChartTicks 75 = [75, 76, 78, 80, 82, 84, 86, 88, 90, 92, 94, 96, 98, 100] := by decide +kernel

/-! ### Reversal -/

theorem reverseLoop_get {α : Type} (a : Array α) (i j : Nat) (hj : j < a.size) :
    (reverseLoop a i j).size = a.size ∧
      ∀ n, (reverseLoop a i j)[n]? = if i ≤ n ∧ n ≤ j then a[i + j - n]? else a[n]? := by
  induction hk : j - i using Nat.strongRecOn generalizing a i j with
  | _ k ih =>
    rw [reverseLoop]
    split
    · rename_i h
      have hs : ((a.set i a[j]).set j (a[i]'(by omega)) (by simp; omega)).size = a.size := by simp
      obtain ⟨h1, h2⟩ := ih ((j - 1) - (i + 1)) (by omega) ((a.set i a[j]).set j (a[i]'(by omega)) (by simp; omega)) (i + 1) (j - 1)
        (by rw [hs]; omega) rfl
      refine ⟨by rw [h1, hs], ?_⟩
      have hi : i < a.size := by omega
      have sw : ∀ m, ((a.set i a[j]).set j (a[i]'(by omega)) (by simp; omega))[m]? =
          if j = m then a[i]? else if i = m then a[j]? else a[m]? := by
        intro m
        rw [Array.getElem?_set, Array.getElem?_set, Array.getElem?_eq_getElem hi, Array.getElem?_eq_getElem hj]
      intro n
      rw [h2, sw, sw]
      by_cases hn : i + 1 ≤ n ∧ n ≤ j - 1
      · rw [if_pos hn, if_neg (show ¬ j = i + 1 + (j - 1) - n by omega),
          if_neg (show ¬ i = i + 1 + (j - 1) - n by omega), if_pos (show i ≤ n ∧ n ≤ j by omega),
          show i + 1 + (j - 1) - n = i + j - n by omega]
      · rw [if_neg hn]
        by_cases hnj : j = n
        · subst hnj
          rw [if_pos rfl, if_pos (by omega), show i + j - j = i by omega]
        · rw [if_neg hnj]
          by_cases hni : i = n
          · subst hni
            rw [if_pos rfl, if_pos (by omega), show i + j - i = j by omega]
          · rw [if_neg hni, if_neg (by omega)]
    · rename_i h
      refine ⟨rfl, fun n => ?_⟩
      split
      · rw [show i + j - n = n by omega]
      · rfl

/-- Reversal turns the series round, and twice gives back the original. -/
theorem C46_reverse {α : Type} (a : Array α) : (reverse a).toList = a.toList.reverse ∧ reverse (reverse a) = a := by
  have key : ∀ a : Array α, (reverse a).toList = a.toList.reverse := by
    intro a
    by_cases hz : a.size = 0
    · have : a = #[] := Array.eq_empty_of_size_eq_zero hz
      subst this
      unfold reverse
      rw [reverseLoop]
      simp
    · obtain ⟨h1, h2⟩ := reverseLoop_get a 0 (a.size - 1) (by omega)
      apply List.ext_getElem?
      intro n
      rw [Array.getElem?_toList, reverse, h2]
      by_cases hn : n < a.size
      · rw [if_pos (by omega), List.getElem?_reverse (by simpa using hn)]
        simp
      · rw [if_neg (by omega), Array.getElem?_eq_none (by omega), List.getElem?_eq_none (by simp; omega)]
  refine ⟨key a, ?_⟩
  apply Array.toList_inj.1
  rw [key, key, List.reverse_reverse]

example : reverse #[1, 2, 3, 4, 5] = #[5, 4, 3, 2, 1] ∧ reverse (#[] : Array Nat) = #[] ∧ reverse #[1, 2] = #[2, 1] := by decide +kernel

end Verif.Props.Chart
