import Verif.Server.ScoreChart
import Verif.Props.Chart
import Mathlib.Tactic.Linarith
import Mathlib.Tactic.Ring

/-
C87: what the chart of scores shows.
-/

namespace Verif.Props.ScoreChart

open Verif Verif.Go Verif.Score Verif.Server

/-! ### Sorting -/

theorem insertBy_agree {α : Type} {lt lt' : α → α → Bool} (a : α) (l : List α) (h : ∀ b ∈ l, lt a b = lt' a b) :
    insertBy lt a l = insertBy lt' a l := by
  induction l with
  | nil => rfl
  | cons b l ih =>
    unfold insertBy
    rw [h b (by simp), ih fun c hc => h c (by simp [hc])]

/-- There is such a function. -/
def somePairSorter : PairSorter where
  toSorter := someSorter
  agree := fun lt lt' l h => by
    change l.foldr (insertBy lt) [] = l.foldr (insertBy lt') []
    induction l with
    | nil => rfl
    | cons a l ih =>
      rw [List.pairwise_cons] at h
      rw [List.foldr_cons, List.foldr_cons, ih h.2]
      exact insertBy_agree a _ fun b hb => (h.1 b ((someSorter.perm lt' l).mem_iff.1 hb)).1

/-- One above the other. -/
def above (a b : Item) : Bool := decide (b.y < a.y)

theorem above_weak : StrictWeak above where
  irrefl := fun a => by simp [above]
  trans := fun a b c h1 h2 => by
    simp only [above, decide_eq_true_eq] at *
    exact lt_trans h2 h1
  incomp := fun a b c h1 h2 => by
    simp only [above, decide_eq_false_iff_not, not_lt] at *
    exact le_trans h1 h2

theorem sorted_desc (S : PairSorter) (l : List Item) (h : l.Pairwise fun a b => a.y ≠ b.y) :
    (S.sort notBelow l).Pairwise fun a b => b.y < a.y := by
  have e : S.sort notBelow l = S.sort above l := by
    apply S.agree
    refine h.imp fun {a b} hab => ?_
    unfold notBelow above
    rcases lt_or_gt_of_ne hab with h1 | h1
    · simp [h1, not_le.2 h1, h1.le, not_lt.2 h1.le]
    · simp [h1, not_le.2 h1, h1.le, not_lt.2 h1.le]
  have hs := S.sorted above l above_weak
  have hd : (S.sort above l).Pairwise fun a b => a.y ≠ b.y :=
    (S.perm above l).symm.pairwise h fun {a b} hab => Ne.symm hab
  rw [e]
  refine (hs.and hd).imp fun {a b} hab => ?_
  have := hab.1
  simp only [above, decide_eq_false_iff_not, not_lt] at this
  exact lt_of_le_of_ne this (Ne.symm hab.2)

/-! ### Labels and lines -/

theorem place_items (d : SizeData) : ∀ (l : List Item) (top : Rat),
    (placeLabels d l top).1 = l.mapIdx fun n i => { i with labelY := top - n * (d.adjustY + 1) }
  | [], _ => rfl
  | i :: l, top => by
    rw [placeLabels, List.mapIdx_cons]
    dsimp only
    rw [place_items d l]
    congr 1
    · simp
    · congr 1
      funext n i
      congr 1
      push_cast
      ring

theorem place_lines (d : SizeData) : ∀ (l : List Item) (top : Rat),
    (placeLabels d l top).2 = l.mapIdx fun n i => .line [(i.x, i.y), (.fin d.labelX, top - n * (d.adjustY + 1))]
  | [], _ => rfl
  | i :: l, top => by
    rw [placeLabels, List.mapIdx_cons]
    dsimp only
    rw [place_lines d l]
    congr 1
    · simp
    · congr 1
      funext n i
      congr 4
      push_cast
      ring

/-! ### The handlers of the chart -/

theorem handlers_nodup (k : Scored) (warnTags : List Bytes) (s : Size) : (chartHandlers k warnTags s).keys.Nodup := by
  unfold chartHandlers
  have h1 : ∀ (tags : List Bytes) (m : Map Bytes Coords), m.keys.Nodup →
      (tags.foldl (fun m h => if ge (k.y h) (.fin s.y) then m.set h ⟨.fin 0, k.y h⟩ else m) m).keys.Nodup := by
    intro tags
    induction tags with
    | nil => intro m h; exact h
    | cons t tags ih =>
      intro m h
      rw [List.foldl_cons]
      apply ih
      split
      · exact Map.nodup_set h _ _
      · exact h
  have h2 : ∀ (tags : List Bytes) (m : Map Bytes Coords), m.keys.Nodup → (tags.foldl (addX k s) m).keys.Nodup := by
    intro tags
    induction tags with
    | nil => intro m h; exact h
    | cons t tags ih =>
      intro m h
      rw [List.foldl_cons]
      apply ih
      unfold addX
      split
      · exact h
      · split
        · exact Map.nodup_set h _ _
        · exact Map.nodup_del h _
  exact h2 _ _ (h1 _ _ List.nodup_nil)

/-- A map, as a list over some keys that have all of its own. -/
theorem map_perm {V : Type} (m : Map Bytes V) (hm : m.keys.Nodup) (tags : List Bytes) (ht : tags.Nodup)
    (hs : ∀ h ∈ m.keys, h ∈ tags) : m.Perm (tags.filterMap fun h => (m.get h).map fun v => (h, v)) := by
  rw [List.perm_ext_iff_of_nodup (List.Nodup.of_map Prod.fst hm)]
  · rintro ⟨h, v⟩
    rw [List.mem_filterMap]
    constructor
    · intro he
      exact ⟨h, hs h (List.mem_map.2 ⟨_, he, rfl⟩), by rw [Map.get_of_mem hm he]; rfl⟩
    · rintro ⟨h', _, he⟩
      cases hg : m.get h' with
      | none => rw [hg] at he; cases he
      | some v' =>
        rw [hg] at he
        cases he
        exact Map.mem_of_get hg
  · refine List.Nodup.filterMap (fun a b c hc hc' => ?_) ht
    cases ha : m.get a <;> cases hb : m.get b <;> simp [ha, hb] at hc hc'
    rw [← hc'] at hc
    exact (Prod.ext_iff.1 hc).1

/-! ### What should be shown -/

/-- The point that is shown for a handler, with its name: its scores, if they are within the size and the second is not 0, or nearly.
A handler that the warnings do not have is at 0. -/
def point (name : Bytes → Bytes) (k : Scored) (warnTags : List Bytes) (s : Size) (h : Bytes) : Option (Bytes × Val × Rat) :=
  match k.y h with
  | .fin q =>
    if s.y ≤ q ∧ 1 / 100000 < q then
      if h ∈ warnTags then (if ge (k.x h) (.fin s.x) then some (name h, k.x h, q) else none)
      else some (name h, .fin 0, q)
    else none
  | _ => none

/-- An item without the place of its label. -/
def bare (i : Item) : Bytes × Val × Rat := (i.label, i.x, i.y)

theorem point_eq (name : Bytes → Bytes) (k : Scored) (warnTags : List Bytes) (s : Size) (h : Bytes) (hh : h ∈ k.tags) :
    (((chartHandlers k warnTags s).get h).map fun v => (h, v)).bind (fun e => (itemOf name e).map bare) = point name k warnTags s h := by
  rw [Props.Chart.C46_shown]
  unfold point
  cases hy : k.y h with
  | nan => simp [ge]
  | inf b =>
    simp only [hh, true_and]
    split
    · split
      · split <;> simp [itemOf]
      · simp [itemOf]
    · rfl
  | fin q =>
    have hg : ge (.fin q) (.fin s.y) = true ↔ s.y ≤ q := by simp [ge, lt]
    simp only [hh, true_and, hg]
    by_cases h1 : s.y ≤ q
    · by_cases h2 : (1 : Rat) / 100000 < q
      · simp only [h1, h2, and_self, if_true]
        split
        · split
          · simp only [Option.map_some, Option.bind_some, itemOf]
            rw [if_pos h2]; rfl
          · rfl
        · simp only [Option.map_some, Option.bind_some, itemOf]
          rw [if_pos h2]; rfl
      · simp only [h1, h2, and_false, if_false, if_true]
        split
        · split
          · simp only [Option.map_some, Option.bind_some, itemOf]
            rw [if_neg h2]; rfl
          · rfl
        · simp only [Option.map_some, Option.bind_some, itemOf]
          rw [if_neg h2]; rfl
    · simp [h1]

/-- The items of a chart are the points of the handlers. -/
theorem items_perm (name : Bytes → Bytes) (k : Scored) (ht : k.tags.Nodup) (warnTags : List Bytes) (s : Size)
    (order : List (Bytes × Coords)) (ho : order.Perm (chartHandlers k warnTags s)) :
    ((order.filterMap (itemOf name)).map bare).Perm (k.tags.filterMap (point name k warnTags s)) := by
  have hm := map_perm _ (handlers_nodup k warnTags s) k.tags ht fun h hh => by
    rw [Map.mem_keys, Props.Chart.C46_shown] at hh
    by_contra hc
    simp [hc] at hh
  have h1 := ((ho.trans hm).filterMap (itemOf name)).map bare
  refine h1.trans (List.Perm.of_eq ?_)
  rw [List.filterMap_filterMap, List.map_filterMap]
  apply List.filterMap_congr
  intro h hh
  rw [← point_eq name k warnTags s h hh, Option.map_bind]
  rfl

/-- The lines and labels of a chart, for points in some order: the label of the point with number `n` is `n` steps below the first
one, at the right edge; a line joins the point and its label. -/
def picture (d : SizeData) (top : Rat) (ps : List (Bytes × Val × Rat)) : List Series :=
  (ps.mapIdx fun n p => .line [p.2, (.fin d.labelX, top - n * (d.adjustY + 1))]) ++ sizeMarkers d ++
    [.dots (ps.map Prod.snd), .labels (ps.mapIdx fun n p => (p.1, d.labelX, top - n * (d.adjustY + 1)))]

/-- The greatest and least of the second coordinates. -/
theorem span_spec : ∀ (l : List Item) (t b : Rat),
    (l.foldl spanItem (t, b)).1 = max t (l.foldl (fun m i => max m i.y) t) ∧
      (l.foldl spanItem (t, b)).2 = min b (l.foldl (fun m i => min m i.y) b)
  | [], t, b => by simp
  | i :: l, t, b => by
    have ht : (if t < i.y then i.y else t) = max t i.y := by
      by_cases h : t < i.y
      · rw [if_pos h, max_eq_right h.le]
      · rw [if_neg h, max_eq_left (not_lt.1 h)]
    have hb : (if i.y < b then i.y else b) = min b i.y := by
      by_cases h : i.y < b
      · rw [if_pos h, min_eq_right h.le]
      · rw [if_neg h, min_eq_left (not_lt.1 h)]
    have mono1 : ∀ (l : List Item) (t : Rat), t ≤ l.foldl (fun m i => max m i.y) t := by
      intro l
      induction l with
      | nil => intro t; exact le_refl _
      | cons j l ih => intro t; exact le_trans (le_max_left _ _) (ih _)
    have mono2 : ∀ (l : List Item) (t : Rat), l.foldl (fun m i => min m i.y) t ≤ t := by
      intro l
      induction l with
      | nil => intro t; exact le_refl _
      | cons j l ih => intro t; exact le_trans (ih _) (min_le_left _ _)
    rw [List.foldl_cons, List.foldl_cons, List.foldl_cons]
    have := span_spec l (max t i.y) (min b i.y)
    unfold spanItem at this ⊢
    dsimp only at this ⊢
    rw [ht, hb]
    rw [this.1, this.2]
    constructor
    · rw [max_eq_right (mono1 l _), max_eq_right (le_trans (le_max_left t i.y) (mono1 l _))]
    · rw [min_eq_right (mono2 l _), min_eq_right (le_trans (mono2 l _) (min_le_left b i.y))]

/-- The middle of the points: between the greatest and the least second coordinate. -/
def Middle (ps : List (Bytes × Val × Rat)) (m : Rat) : Prop :=
  ∃ hi ∈ ps.map (·.2.2), ∃ lo ∈ ps.map (·.2.2), (∀ y ∈ ps.map (·.2.2), lo ≤ y ∧ y ≤ hi) ∧ m = (hi + lo) / 2

theorem top_spec (d : SizeData) (n : Nat) (l : List Item) (hl : ∀ i ∈ l, 0 ≤ i.y ∧ i.y ≤ 100) (m : Rat)
    (hm : Middle (l.map bare) m) : labelTop d n l = min 100 (m + necessary d n / 2) := by
  obtain ⟨hi, h1, lo, h2, h3, rfl⟩ := hm
  have hys : (l.map bare).map (·.2.2) = l.map (·.y) := by rw [List.map_map]; rfl
  rw [hys] at h1 h2 h3
  have hmax : ∀ (l : List Item) (t : Rat), (∀ i ∈ l, i.y ≤ hi) → t ≤ hi → (t = hi ∨ hi ∈ l.map (·.y)) →
      l.foldl (fun m i => max m i.y) t = hi := by
    intro l
    induction l with
    | nil => intro t _ _ h; simpa using h
    | cons i l ih =>
      intro t hl ht h
      rw [List.foldl_cons]
      have hi' := hl i (by simp)
      apply ih _ (fun j hj => hl j (by simp [hj])) (max_le ht hi')
      rcases h with h | h
      · exact .inl (by rw [h]; exact max_eq_left hi')
      · rw [List.map_cons, List.mem_cons] at h
        rcases h with h | h
        · exact .inl (by rw [← h]; exact max_eq_right ht)
        · exact .inr h
  have hmin : ∀ (l : List Item) (t : Rat), (∀ i ∈ l, lo ≤ i.y) → lo ≤ t → (t = lo ∨ lo ∈ l.map (·.y)) →
      l.foldl (fun m i => min m i.y) t = lo := by
    intro l
    induction l with
    | nil => intro t _ _ h; simpa using h
    | cons i l ih =>
      intro t hl ht h
      rw [List.foldl_cons]
      have hi' := hl i (by simp)
      apply ih _ (fun j hj => hl j (by simp [hj])) (le_min ht hi')
      rcases h with h | h
      · exact .inl (by rw [h]; exact min_eq_left hi')
      · rw [List.map_cons, List.mem_cons] at h
        rcases h with h | h
        · exact .inl (by rw [← h]; exact min_eq_right ht)
        · exact .inr h
  obtain ⟨i1, hi1, e1⟩ := List.mem_map.1 h1
  obtain ⟨i2, hi2, e2⟩ := List.mem_map.1 h2
  have a := hmax l 0 (fun i hi => (h3 _ (List.mem_map.2 ⟨i, hi, rfl⟩)).2) (by rw [← e1]; exact (hl _ hi1).1) (.inr h1)
  have b := hmin l 100 (fun i hi => (h3 _ (List.mem_map.2 ⟨i, hi, rfl⟩)).1) (by rw [← e2]; exact (hl _ hi2).2) (.inr h2)
  have hs := span_spec l 0 100
  rw [a, b] at hs
  rw [max_eq_right (by rw [← e1]; exact (hl _ hi1).1), min_eq_right (by rw [← e2]; exact (hl _ hi2).2)] at hs
  unfold labelTop
  dsimp only
  rw [hs.1, hs.2]
  by_cases hc : 100 < (hi + lo) / 2 + necessary d n / 2
  · rw [if_pos hc, min_eq_left hc.le]
  · rw [if_neg hc, min_eq_right (not_lt.1 hc)]

theorem generate_eq (S : Sorter) (name : Bytes → Bytes) (d : SizeData) (order : List (Bytes × Coords)) :
    generate S name d order = picture d (labelTop d order.length (order.filterMap (itemOf name)))
      ((S.sort notBelow (order.filterMap (itemOf name))).map bare) := by
  unfold generate dataMarkers picture annotations
  dsimp only
  rw [place_items, place_lines]
  generalize S.sort notBelow (order.filterMap (itemOf name)) = l
  generalize labelTop d order.length (order.filterMap (itemOf name)) = top
  congr 1
  · congr 1
    apply List.ext_getElem <;> simp [bare]
  · congr 1
    · congr 1
      apply List.ext_getElem <;> simp [bare]
    · congr 2
      apply List.ext_getElem <;> simp [bare]

/-- **C87**. In the chart of a size there are: for each handler whose scores are within the size, except those whose second score is
not above 0.00001, one point at its scores (at 0 if the warnings do not have it), one label with its name and one line that joins
them; and nothing else but the marks of smaller sizes. The labels are at the right edge in one column, at the same distances, which
are one more than the height of a label, and none is above 100. If no two points have the same height the labels are in the order of
the points. -/
theorem C87_drawn (S : PairSorter) (name : Bytes → Bytes) (k : Scored) (ht : k.tags.Nodup) (warnTags : List Bytes) (d : SizeData)
    (order : List (Bytes × Coords)) (ho : order.Perm (chartHandlers k warnTags d.low)) :
    ∃ (ps : List (Bytes × Val × Rat)) (top : Rat),
      ps.Perm (k.tags.filterMap (point name k warnTags d.low)) ∧
        generate S.toSorter name d order = picture d top ps ∧
        top ≤ 100 ∧
        (∀ m, Middle ps m → (∀ p ∈ ps, p.2.2 ≤ 100) → top = min 100 (m + necessary d order.length / 2)) ∧
        ((k.tags.filterMap (point name k warnTags d.low)).Pairwise (fun p q => p.2.2 ≠ q.2.2) →
          ps.Pairwise fun p q => q.2.2 < p.2.2) := by
  have hi := items_perm name k ht warnTags d.low order ho
  have hs := S.perm notBelow (order.filterMap (itemOf name))
  refine ⟨_, _, (hs.map bare).trans hi, generate_eq S.toSorter name d order, ?_, ?_, ?_⟩
  · unfold labelTop
    dsimp only
    split
    · exact le_refl _
    · rename_i h; exact not_lt.1 h
  · intro m hm hp
    apply top_spec
    · intro i hi
      constructor
      · obtain ⟨⟨h, c⟩, _, he⟩ := List.mem_filterMap.1 hi
        unfold itemOf at he
        split at he
        · split at he
          · rename_i hq
            cases he
            dsimp only
            linarith
          · cases he
        · cases he
      · exact hp (bare i) (List.mem_map.2 ⟨i, hs.mem_iff.2 hi, rfl⟩)
    · obtain ⟨hi, h1, lo, h2, h3, e⟩ := hm
      have hmem : ∀ y, y ∈ ((order.filterMap (itemOf name)).map bare).map (·.2.2) ↔
          y ∈ ((S.sort notBelow (order.filterMap (itemOf name))).map bare).map (·.2.2) :=
        fun y => (((hs.map bare).map (·.2.2)).mem_iff).symm
      exact ⟨hi, (hmem _).2 h1, lo, (hmem _).2 h2, fun y hy => h3 y ((hmem _).1 hy), e⟩
  · intro hd
    rw [List.pairwise_map]
    refine sorted_desc S _ ?_
    have := hi.symm.pairwise hd fun {a b} hab => Ne.symm hab
    rw [List.pairwise_map] at this
    exact this

/-! ### Every handler in its place -/

/-- The point that should be shown for a handler: its scores, if they are within the size. -/
def ideal (name : Bytes → Bytes) (k : Scored) (s : Size) (h : Bytes) : Option (Bytes × Val × Rat) :=
  match k.x h, k.y h with
  | .fin p, .fin q => if s.x ≤ p ∧ s.y ≤ q then some (name h, .fin p, q) else none
  | _, _ => none

/-- All scores are from 0 to 100. -/
def Proper (k : Scored) : Prop :=
  ∀ h ∈ k.tags, ∃ p q : Rat, k.x h = .fin p ∧ k.y h = .fin q ∧ (0 ≤ p ∧ p ≤ 100) ∧ 0 ≤ q ∧ q ≤ 100

/-- The statement in full: every handler within a size is shown at its scores, with its name, and all labels are within the chart. -/
def C87_statement : Prop :=
  ∀ (S : PairSorter) (name : Bytes → Bytes) (k : Scored), k.tags.Nodup → Proper k → ∀ (warnTags : List Bytes), ∀ d ∈ sizeDatas,
    ∀ order : List (Bytes × Coords), order.Perm (chartHandlers k warnTags d.low) →
    ∃ (ps : List (Bytes × Val × Rat)) (top : Rat),
      ps.Perm (k.tags.filterMap (ideal name k d.low)) ∧
        generate S.toSorter name d order = picture d top ps ∧
        (∀ n, n < ps.length → d.low.y ≤ top - n * (d.adjustY + 1) ∧ top - n * (d.adjustY + 1) ≤ 100) ∧
        ((k.tags.filterMap (ideal name k d.low)).Pairwise (fun p q => p.2.2 ≠ q.2.2) → ps.Pairwise fun p q => q.2.2 < p.2.2)

theorem point_ideal (name : Bytes → Bytes) (k : Scored) (warnTags : List Bytes) (s : Size) (h : Bytes) (hw : h ∈ warnTags)
    (hy : ∀ q, k.y h = .fin q → 1 / 100000 < q) (hx : k.x h ≠ .inf false) :
    point name k warnTags s h = ideal name k s h := by
  unfold point ideal
  cases ey : k.y h with
  | nan => cases k.x h <;> rfl
  | inf b => cases k.x h <;> rfl
  | fin q =>
    have h2 := hy q ey
    cases ex : k.x h with
    | nan => simp [ge, hw]
    | inf b =>
      cases b with
      | false => exact absurd ex hx
      | true => simp [ge, lt, hw]
    | fin p =>
      have hg : ge (.fin p) (.fin s.x) = true ↔ s.x ≤ p := by simp [ge, lt]
      simp only [hw, if_true, hg, h2, and_true]
      by_cases ha : s.y ≤ q <;> by_cases hb : s.x ≤ p <;> simp [ha, hb]

/-- **C87**, as far as it holds: it does if the warnings have all handlers, no second score is (nearly) 0, and there is room for the
labels, i.e. all labels, one below the other, fit between 100, or half of their height above the middle of the points, and the
bottom of the chart. -/
theorem C87_partial (S : PairSorter) (name : Bytes → Bytes) (k : Scored) (ht : k.tags.Nodup) (hp : Proper k) (warnTags : List Bytes)
    (d : SizeData) (hd : d ∈ sizeDatas) (order : List (Bytes × Coords)) (ho : order.Perm (chartHandlers k warnTags d.low))
    (hw : ∀ h ∈ k.tags, h ∈ warnTags) (hy : ∀ h ∈ k.tags, ∀ q, k.y h = .fin q → 1 / 100000 < q)
    (hr : ∀ (n : Nat) (m : Rat), n = (k.tags.filterMap (ideal name k d.low)).length → Middle (k.tags.filterMap (ideal name k d.low)) m →
      d.low.y + (n - 1) * (d.adjustY + 1) ≤ min 100 (m + (n * (d.adjustY + 1) + 1) / 2)) :
    ∃ (ps : List (Bytes × Val × Rat)) (top : Rat),
      ps.Perm (k.tags.filterMap (ideal name k d.low)) ∧
        generate S.toSorter name d order = picture d top ps ∧
        (∀ n, n < ps.length → d.low.y ≤ top - n * (d.adjustY + 1) ∧ top - n * (d.adjustY + 1) ≤ 100) ∧
        ((k.tags.filterMap (ideal name k d.low)).Pairwise (fun p q => p.2.2 ≠ q.2.2) → ps.Pairwise fun p q => q.2.2 < p.2.2) := by
  obtain ⟨ps, top, h1, h2, h3, h4, h5⟩ := C87_drawn S name k ht warnTags d order ho
  have e : k.tags.filterMap (point name k warnTags d.low) = k.tags.filterMap (ideal name k d.low) := by
    apply List.filterMap_congr
    intro h hh
    apply point_ideal _ _ _ _ _ (hw h hh) (hy h hh)
    obtain ⟨p, q, hx, _⟩ := hp h hh
    rw [hx]
    exact fun h => nomatch h
  have hstep : 0 < d.adjustY + 1 := by
    simp only [sizeDatas, List.mem_cons, List.not_mem_nil, or_false] at hd
    rcases hd with rfl | rfl | rfl | rfl <;> norm_num
  rw [e] at h1 h5
  refine ⟨ps, top, h1, h2, ?_, h5⟩
  intro n hn
  -- the points
  have hne : ps.map (·.2.2) ≠ [] := by
    intro h0
    rw [List.map_eq_nil_iff] at h0
    rw [h0] at hn
    exact absurd hn (by simp)
  have hmid : ∃ m, Middle ps m := by
    have hmax : ∀ l : List Rat, l ≠ [] → ∃ hi ∈ l, ∀ y ∈ l, y ≤ hi := by
      intro l
      induction l with
      | nil => intro h; exact absurd rfl h
      | cons a l ih =>
        intro _
        by_cases hl : l = []
        · exact ⟨a, by simp, fun y hy => by rw [hl] at hy; simp at hy; rw [hy]⟩
        · obtain ⟨hi, h1, h2⟩ := ih hl
          rcases le_total a hi with h | h
          · exact ⟨hi, by simp [h1], fun y hy => by
              rcases List.mem_cons.1 hy with rfl | hy
              · exact h
              · exact h2 y hy⟩
          · exact ⟨a, by simp, fun y hy => by
              rcases List.mem_cons.1 hy with rfl | hy
              · exact le_refl _
              · exact le_trans (h2 y hy) h⟩
    have hmin : ∀ l : List Rat, l ≠ [] → ∃ lo ∈ l, ∀ y ∈ l, lo ≤ y := by
      intro l hl
      obtain ⟨a, ha, hb⟩ := hmax (l.map (-·)) (by simpa using hl)
      obtain ⟨b, hb', rfl⟩ := List.mem_map.1 ha
      refine ⟨b, hb', fun y hy => ?_⟩
      have := hb (-y) (List.mem_map.2 ⟨y, hy, rfl⟩)
      linarith
    obtain ⟨hi, a1, a2⟩ := hmax _ hne
    obtain ⟨lo, b1, b2⟩ := hmin _ hne
    exact ⟨(hi + lo) / 2, hi, a1, lo, b1, fun y hy => ⟨b2 y hy, a2 y hy⟩, rfl⟩
  obtain ⟨m, hm⟩ := hmid
  have hle : ∀ p ∈ ps, p.2.2 ≤ 100 := by
    intro p hpm
    obtain ⟨h, hh, he⟩ := List.mem_filterMap.1 (h1.mem_iff.1 hpm)
    obtain ⟨x, y, ex, ey, _, hy'⟩ := hp h hh
    unfold ideal at he
    rw [ex, ey] at he
    dsimp only at he
    split at he
    · cases he; exact hy'.2
    · cases he
  have htop := h4 m hm hle
  have hlen : ps.length ≤ order.length := by
    have := items_perm name k ht warnTags d.low order ho
    rw [e] at this
    rw [(h1.trans this.symm).length_eq, List.length_map]
    exact List.length_filterMap_le _ _
  have hm' : Middle (k.tags.filterMap (ideal name k d.low)) m := by
    obtain ⟨hi, g1, lo, g2, g3, g4⟩ := hm
    have hmem := fun y => (h1.map (·.2.2)).mem_iff (a := y)
    exact ⟨hi, (hmem _).1 g1, lo, (hmem _).1 g2, fun y hy => g3 y ((hmem _).2 hy), g4⟩
  have hroom := hr ps.length m h1.length_eq hm'
  have hn' : (n : Rat) ≤ ps.length - 1 := by
    have : n + 1 ≤ ps.length := hn
    have : ((n + 1 : Nat) : Rat) ≤ ps.length := by exact_mod_cast this
    push_cast at this
    linarith
  have hl' : (ps.length : Rat) ≤ order.length := by exact_mod_cast hlen
  have hnonneg : (0 : Rat) ≤ n := by exact_mod_cast Nat.zero_le n
  have hnec : ((ps.length : Rat) * (d.adjustY + 1) + 1) / 2 ≤ necessary d order.length / 2 := by
    unfold necessary
    have := mul_le_mul_of_nonneg_right hl' hstep.le
    linarith
  have hge : min 100 (m + ((ps.length : Rat) * (d.adjustY + 1) + 1) / 2) ≤ top := by
    rw [htop]
    exact min_le_min (le_refl _) (by linarith)
  have hmul := mul_le_mul_of_nonneg_right hn' hstep.le
  constructor
  · linarith
  · have := mul_nonneg hnonneg hstep.le
    linarith

/-- A handler that is the worst in all, and one that is the best. -/
def worst : Scored := { tags := [b!"a", b!"b"], x := fun _ => .fin 90, y := fun h => if h = b!"a" then .fin 100 else .fin 0 }

/-- **C87** fails in full: a handler whose second score is 0, the worst one, has no point and no label. -/
theorem C87_fails : ¬ C87_statement := by
  intro h
  have hp : Proper worst := by
    intro a ha
    simp only [worst, List.mem_cons, List.not_mem_nil, or_false] at ha
    rcases ha with rfl | rfl
    · exact ⟨90, 100, rfl, by decide +kernel, by norm_num, by norm_num⟩
    · exact ⟨90, 0, rfl, by decide +kernel, by norm_num, by norm_num⟩
  obtain ⟨ps, top, h1, h2, _⟩ := h somePairSorter id worst (by decide) hp [b!"a", b!"b"] (sizeDatas.head (by decide)) (List.mem_cons_self) _ (.refl _)
  have hl := h1.length_eq
  have e1 : (worst.tags.filterMap (ideal id worst (sizeDatas.head (by decide)).low)).length = 2 := by decide +kernel
  rw [e1] at hl
  have e2 : (generate somePairSorter.toSorter id (sizeDatas.head (by decide)) (chartHandlers worst [b!"a", b!"b"] (sizeDatas.head (by decide)).low)).length = 7 := by
    decide +kernel
  rw [h2] at e2
  have e3 : (sizeMarkers (sizeDatas.head (by decide))).length = 4 := by decide +kernel
  unfold picture at e2
  rw [List.length_append, List.length_append, List.length_mapIdx, hl, e3] at e2
  cases e2

/-- A handler that the warnings do not have is drawn at 0, in whatever chart: here in the smallest one, which begins at 75. -/
example : generate somePairSorter.toSorter id ⟨b!"Quarter", ⟨75, 75⟩, 9 / 5, 205 / 2, 93⟩
      (chartHandlers ⟨[b!"a"], fun _ => .fin 100, fun _ => .fin 80⟩ [] ⟨75, 75⟩) =
    [.line [(.fin 0, 80), (.fin (205 / 2), 409 / 5 + 1 / 10)], .dots [(.fin 0, 80)], .labels [(b!"a", 205 / 2, 409 / 5 + 1 / 10)]] := by
  decide +kernel

/-- Four handlers with low scores. -/
def low4 : Scored :=
  { tags := [b!"a", b!"b", b!"c", b!"d"], x := fun _ => .fin 90, y := fun h => match h with
      | [0x61] => .fin 1
      | [0x62] => .fin 2
      | [0x63] => .fin 3
      | _ => .fin 4 }

/-- Their labels begin above the middle of the points and end below the chart: the last one is at -2.5. -/
example : (generate somePairSorter.toSorter id ⟨b!"Full Size", ⟨0, 0⟩, 9 / 2, 110, 0⟩ (chartHandlers low4 low4.tags ⟨0, 0⟩)).getLast? =
    some (.labels [(b!"d", 110, 14), (b!"c", 110, 17 / 2), (b!"b", 110, 3), (b!"a", 110, -5 / 2)]) := by decide +kernel

/-- Four handlers with scores in the middle: the hypotheses of `C87_partial`. -/
def mid4 : Scored :=
  { low4 with y := fun h => match h with
      | [0x61] => .fin 41
      | [0x62] => .fin 62
      | [0x63] => .fin 43
      | _ => .fin 84 }

example : (generate somePairSorter.toSorter id ⟨b!"Full Size", ⟨0, 0⟩, 9 / 2, 110, 0⟩ (chartHandlers mid4 mid4.tags ⟨0, 0⟩)).getLast? =
    some (.labels [(b!"d", 110, 74), (b!"b", 110, 137 / 2), (b!"c", 110, 63), (b!"a", 110, 115 / 2)]) := by decide +kernel

example : mid4.tags.Nodup ∧ Proper mid4 ∧ (∀ h ∈ mid4.tags, ∀ q, mid4.y h = .fin q → 1 / 100000 < q) ∧
    ∀ (n : Nat) (m : Rat), n = (mid4.tags.filterMap (ideal id mid4 ⟨0, 0⟩)).length → Middle (mid4.tags.filterMap (ideal id mid4 ⟨0, 0⟩)) m →
      (0 : Rat) + (n - 1) * (9 / 2 + 1) ≤ min 100 (m + (n * (9 / 2 + 1) + 1) / 2) := by
  have hv : ∀ h ∈ mid4.tags, mid4.y h = .fin 41 ∨ mid4.y h = .fin 62 ∨ mid4.y h = .fin 43 ∨ mid4.y h = .fin 84 := by decide +kernel
  refine ⟨by decide, ?_, ?_, ?_⟩
  · intro h hh
    rcases hv h hh with e | e | e | e <;> exact ⟨90, _, rfl, e, by norm_num, by norm_num⟩
  · intro h hh q hq
    rcases hv h hh with e | e | e | e <;> rw [e] at hq <;> cases hq <;> norm_num
  · intro n m hn hm
    have e : mid4.tags.filterMap (ideal id mid4 ⟨0, 0⟩) =
        [(b!"a", .fin 90, 41), (b!"b", .fin 90, 62), (b!"c", .fin 90, 43), (b!"d", .fin 90, 84)] := by decide +kernel
    rw [e] at hn hm
    obtain ⟨hi, h1, lo, h2, h3, rfl⟩ := hm
    have a := h3 41 (by simp)
    have b := h3 84 (by simp)
    rw [hn]
    simp only [List.map_cons, List.map_nil, List.mem_cons, List.not_mem_nil, or_false] at h2
    rw [le_min_iff]
    norm_num
    rcases h2 with rfl | rfl | rfl | rfl <;> linarith

/-! ### Marks of smaller sizes -/

/-- The mark of a size: a line along its left and lower edge. -/
def mark (s : SizeData) : Series := .line [(.fin s.low.x, 100), (.fin s.low.x, s.low.y), (.fin 100, s.low.y)]

/-- In the chart of a size exactly the following sizes, which are smaller, are marked, each with its name at its lower edge, all
names one above the other. In the last chart there is no mark. -/
theorem C87_marks (i : Nat) (h : i < sizeDatas.length) :
    ∃ at_ : Rat, sizeMarkers sizeDatas[i] = (sizeDatas.drop (i + 1)).map mark ++
      (if i + 1 = sizeDatas.length then [] else [.labels ((sizeDatas.drop (i + 1)).map fun s => (s.name, at_, s.low.y))]) ∧
      (i + 1 < sizeDatas.length → sizeDatas[i].low.x < at_ ∧ at_ < 100) := by
  have h' : i < 4 := h
  rcases show i = 0 ∨ i = 1 ∨ i = 2 ∨ i = 3 by omega with rfl | rfl | rfl | rfl
  · exact ⟨85, by decide +kernel +revert, fun _ => by decide +kernel +revert⟩
  · exact ⟨90, by decide +kernel +revert, fun _ => by decide +kernel +revert⟩
  · exact ⟨93, by decide +kernel +revert, fun _ => by decide +kernel +revert⟩
  · exact ⟨0, by decide +kernel +revert, fun h => absurd h (by decide)⟩

example : sizeDatas.map (·.low) = sizes := rfl

/-- The marks in the chart of the second size. -/
example : sizeMarkers (sizeDatas.getD 1 ⟨[], ⟨0, 0⟩, 0, 0, 0⟩) =
    [.line [(.fin 50, 100), (.fin 50, 50), (.fin 100, 50)], .line [(.fin 75, 100), (.fin 75, 75), (.fin 100, 75)],
     .labels [(b!"Half", 90, 50), (b!"Quarter", 90, 75)]] := by decide +kernel

end Verif.Props.ScoreChart
