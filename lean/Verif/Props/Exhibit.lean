import Verif.Score.Exhibit
import Verif.Score.Filter
import Verif.Props.BenchScore

/-
C102: what is shown beside scores says how they were computed.
-/

namespace Verif.Props.Exhibit
open Go Verif.Warning Verif.Data Verif.Score Verif.Props.BenchData Verif.Props.BenchScore

/-- Weights fit into an unsigned integer. -/
def Fits {K : Type} (get : K → Option Nat) : Prop := ∀ k v, get k = some v → v < 2 ^ 64

theorem weightText_inj {a b : Nat} (ha : a < 2 ^ 64) (hb : b < 2 ^ 64) (h : weightText a = weightText b) : a = b := by
  have e : asInt a = asInt b := by
    have := congrArg Slog.readInt h
    unfold weightText at this
    rw [Slog.readInt_decInt, Slog.readInt_decInt] at this
    exact Option.some.inj this
  unfold asInt at e
  split at e <;> split at e <;> omega

theorem mem_rows {K : Type} {name : K → Bytes} {order : List K} {get : K → Option Nat} {row : List Bytes} :
    row ∈ weightRows name order get ↔ ∃ k ∈ order, ∃ v, get k = some v ∧ row = [name k, weightText v] := by
  unfold weightRows
  rw [List.mem_filterMap]
  constructor
  · rintro ⟨k, hk, e⟩
    unfold weightRow at e
    split at e
    · rename_i v hv
      exact ⟨k, hk, v, hv, (Option.some.inj e).symm⟩
    · cases e
  · rintro ⟨k, hk, v, hv, rfl⟩
    exact ⟨k, hk, by simp only [weightRow, hv]⟩

/-- A table shows which weights there are. -/
theorem rows_inj {K : Type} {name : K → Bytes} {order : List K} (hn : ∀ a ∈ order, ∀ b ∈ order, name b = name a → b = a)
    {g g' : K → Option Nat} (hg : Fits g) (hg' : Fits g') (h : weightRows name order g = weightRows name order g') :
    ∀ k ∈ order, g k = g' k := by
  have half : ∀ {g g' : K → Option Nat}, Fits g → Fits g' → weightRows name order g = weightRows name order g' →
      ∀ k ∈ order, ∀ v, g k = some v → g' k = some v := by
    intro g g' hg hg' h k hk v hv
    have hm : [name k, weightText v] ∈ weightRows name order g := mem_rows.2 ⟨k, hk, v, hv, rfl⟩
    rw [h] at hm
    obtain ⟨k', hk', v', hv', e⟩ := mem_rows.1 hm
    simp only [List.cons.injEq, and_true] at e
    have ek := hn k hk k' hk' e.1.symm
    subst ek
    have ev := weightText_inj (hg _ _ hv) (hg' _ _ hv') e.2
    rw [ev]; exact hv'
  intro k hk
  cases e : g k with
  | some v => exact (half hg hg' h k hk v e).symm
  | none =>
    cases e' : g' k with
    | none => rfl
    | some v =>
      have := half hg' hg h.symm k hk v e'
      rw [e] at this
      cases this

/-! ### Levels -/

theorem level_name : ∀ a ∈ levelOrder, ∀ b ∈ levelOrder, levelText b = levelText a → b = a := by decide

theorem warn_congr {R : Rounding} {S : Sorter} {pick : List Bytes → List Bytes} {m m' : Map Nat Nat} {reg : Nat → List Bytes} {w : Warns}
    (h : ∀ l, weightOf m l = weightOf m' l) : newWarnAxis R S pick m reg w = newWarnAxis R S pick m' reg w := by
  have h1 : ∀ ls, oneLevel R m reg w ls = oneLevel R m' reg w ls := by
    intro ls; funext st l; unfold oneLevel; simp only [h]
  have h2 : maxScore m reg w = maxScore m' reg w := by unfold maxScore; simp only [h]
  have h3 : ∀ ls, testScore m ls = testScore m' ls := by intro ls; unfold testScore; simp only [h]
  unfold newWarnAxis warnSetup oneWarnHandler
  simp only [h1, h2, h3]

/-- C102 for warnings: axes that show the same table give the same scores, whatever warnings
there are. -/
theorem C102_warnings (R : Rounding) (S : Sorter) (pick : List Bytes → List Bytes) (reg : Nat → List Bytes) (w : Warns) {m m' : Map Nat Nat}
    (hf : Fits m.get) (hf' : Fits m'.get) (hl : ∀ l v, m.get l = some v → l ∈ levelOrder)
    (hl' : ∀ l v, m'.get l = some v → l ∈ levelOrder) (h : warnExhibits [] m = warnExhibits [] m') :
    newWarnAxis R S pick m reg w = newWarnAxis R S pick m' reg w := by
  have hr : weightRows levelText levelOrder m.get = weightRows levelText levelOrder m'.get := by
    simpa [warnExhibits] using h
  have hk := rows_inj level_name hf hf' hr
  refine warn_congr fun l => ?_
  unfold weightOf
  by_cases hm : l ∈ levelOrder
  · rw [hk l hm]
  · cases e : m.get l with
    | some v => exact absurd (hl l v e) hm
    | none =>
      cases e' : m'.get l with
      | some v => exact absurd (hl' l v e') hm
      | none => rfl

/-- C102: a row is shown for every level that has a weight, and the number shown is the weight. -/
theorem C102_level_rows {m : Map Nat Nat} (hf : ∀ l v, m.get l = some v → v < 2 ^ 63) (row : List Bytes) :
    (∃ t ∈ warnExhibits [] m, ∃ c cs rs, t = .table c cs rs ∧ row ∈ rs) ↔
      ∃ l ∈ levelOrder, ∃ v : Nat, ∃ n, m.get l = some v ∧ row = [levelText l, n] ∧ n = Slog.decNat v := by
  constructor
  · rintro ⟨t, ht, c, cs, rs, rfl, hr⟩
    simp only [warnExhibits, List.nil_append, List.mem_singleton, Exhibit.table.injEq] at ht
    obtain ⟨_, _, rfl⟩ := ht
    obtain ⟨l, hl, v, hv, rfl⟩ := mem_rows.1 hr
    refine ⟨l, hl, v, _, hv, rfl, ?_⟩
    unfold weightText asInt
    rw [if_pos (hf l v hv)]
    rfl
  · rintro ⟨l, hl, v, n, hv, rfl, rfl⟩
    refine ⟨_, by unfold warnExhibits; exact List.mem_append_right _ (List.mem_singleton.2 rfl), _, _, _, rfl, ?_⟩
    refine mem_rows.2 ⟨l, hl, v, hv, ?_⟩
    unfold weightText asInt
    rw [if_pos (hf l v hv)]
    rfl

/-- The weights of the default keeper (internal/scoring/keeper/default.go:53-58). -/
def defaultLevels : Map Nat Nat := [(4, 8), (3, 4), (2, 2), (1, 1)]

theorem defaultLevels_get {l v : Nat} (h : defaultLevels.get l = some v) : l ∈ levelOrder ∧ v < 2 ^ 63 := by
  have := Map.mem_of_get h
  simp only [defaultLevels, List.mem_cons, List.not_mem_nil, or_false, Prod.mk.injEq] at this
  rcases this with ⟨rfl, rfl⟩ | ⟨rfl, rfl⟩ | ⟨rfl, rfl⟩ | ⟨rfl, rfl⟩ <;> decide

/-- A case: the weights of the default keeper, written in another order. -/
example : warnExhibits [] defaultLevels = warnExhibits [] defaultLevels.reverse ∧ Fits defaultLevels.get ∧
    warnExhibits [] defaultLevels = [.table [] [b!"Level", b!"Weight"]
      [[b!"Required", b!"8"], [b!"Implied", b!"4"], [b!"Suggested", b!"2"], [b!"Administrative", b!"1"]]] :=
  ⟨by decide +kernel, fun _ _ h => Nat.lt_trans (defaultLevels_get h).2 (by decide), by decide +kernel⟩

/-- Setting up an axis of warnings again shows its table again; the server does it once. -/
theorem C102_warnings_again (before : List Exhibit) (m : Map Nat Nat) :
    (warnExhibits before m).length = before.length + 1 := by simp [warnExhibits]

/-! ### Benchmarks -/

/-- The tests named in the lists of an axis. -/
def named (o : AxisConfig) : List Bytes := o.includes.getD [] ++ o.excludes.getD []

theorem weight_name : ∀ a ∈ weightOrder, ∀ b ∈ weightOrder, Weight.text b = Weight.text a → b = a := by decide

theorem names_inj {E : Env} {l l' : List Bytes} (h : l.map (testName E) = l'.map (testName E))
    (hi : ∀ a ∈ l, ∀ b ∈ l', testName E a = testName E b → a = b) : l = l' := by
  induction l generalizing l' with
  | nil => cases l' with
    | nil => rfl
    | cons => cases h
  | cons a l ih =>
    cases l' with
    | nil => cases h
    | cons b l' =>
      simp only [List.map_cons, List.cons.injEq] at h
      rw [hi a (by simp) b (by simp) h.1, ih h.2 fun x hx y hy => hi x (by simp [hx]) y (by simp [hy])]

theorem tests_inj {E : Env} {c : Bytes} {l l' : Option (List Bytes)} (h : testsExhibit E c l = testsExhibit E c l')
    (hi : ∀ a ∈ l.getD [], ∀ b ∈ l'.getD [], testName E a = testName E b → a = b) : l = l' := by
  cases l <;> cases l' <;> simp only [testsExhibit, List.cons.injEq, and_true, reduceCtorEq, Exhibit.list.injEq, true_and] at h ⊢
  exact congrArg some (names_inj h hi)

theorem exhibits_split {E : Env} {o o' : AxisConfig} (h : benchExhibits E o = benchExhibits E o') :
    weightRows Weight.text weightOrder o.weights.get = weightRows Weight.text weightOrder o'.weights.get ∧
    testsExhibit E b!"Included" o.includes = testsExhibit E b!"Included" o'.includes ∧
    testsExhibit E b!"Excluded" o.excludes = testsExhibit E b!"Excluded" o'.excludes := by
  unfold benchExhibits at h
  have hc : ∀ x y : List Bytes, Exhibit.list b!"Included" x ≠ Exhibit.list b!"Excluded" y := by
    intro x y e; injection e with e; exact absurd e (by decide)
  generalize o.includes = i at *
  generalize o'.includes = i' at *
  generalize o.excludes = e at *
  generalize o'.excludes = e' at *
  cases i <;> cases i' <;> cases e <;> cases e' <;>
    simp_all [testsExhibit]

/-- C102 for benchmarks: axes that show the same weights and the same lists of tests give the
same scores for the same results, if the names shown tell the tests in these lists apart. -/
theorem C102_benchmarks_partial (E : Env) (R : Rounding) (S : Sorter) (pick : List Bytes → List Bytes)
    (ordT ordT' ordH : Bytes → Map Bytes (Record Rat) → List (Bytes × Record Rat)) (b : Bench Rat) {o o' : AxisConfig}
    (hf : Fits o.weights.get) (hf' : Fits o'.weights.get)
    (hi : ∀ t ∈ named o, ∀ t' ∈ named o', testName E t = testName E t' → t = t')
    (h : benchExhibits E o = benchExhibits E o') :
    newBenchAxis R S pick o.options ordT ordT' ordH b = newBenchAxis R S pick o'.options ordT ordT' ordH b := by
  obtain ⟨h1, h2, h3⟩ := exhibits_split h
  have hw := rows_inj weight_name hf hf' h1
  have e1 := tests_inj h2 fun a ha b hb => hi a (List.mem_append_left _ ha) b (List.mem_append_left _ hb)
  have e2 := tests_inj h3 fun a ha b hb => hi a (List.mem_append_right _ ha) b (List.mem_append_right _ hb)
  have e3 : (fun w => (o.weights.get w).getD 0) = fun w => (o'.weights.get w).getD 0 := by
    funext w
    rw [hw w (by cases w <;> decide)]
  have : o.options = o'.options := by
    unfold AxisConfig.options
    rw [e1, e2, e3]
  rw [this]

/-- C102 in full: for any tests in the lists. -/
def C102_statement : Prop :=
  ∀ (E : Env) (R : Rounding) (S : Sorter) (pick : List Bytes → List Bytes)
    (ordT ordT' ordH : Bytes → Map Bytes (Record Rat) → List (Bytes × Record Rat)) (fl : Floats Rat) (texts : List Bytes) (o o' : AxisConfig),
    Fits o.weights.get → Fits o'.weights.get → benchExhibits E o = benchExhibits E o' →
    newBenchAxis R S pick o.options ordT ordT' ordH (readAll E fl texts) = newBenchAxis R S pick o'.options ordT ordT' ordH (readAll E fl texts)

/-- The weights of the default keeper (internal/scoring/keeper/default.go:61-65). -/
def defaultWeights : Map Weight Nat := [(.allocations, 1), (.allocBytes, 2), (.nanoseconds, 3)]

theorem defaultWeights_fit : Fits defaultWeights.get := by
  intro w v h
  have := Map.mem_of_get h
  simp only [defaultWeights, List.mem_cons, List.not_mem_nil, or_false, Prod.mk.injEq] at this
  rcases this with ⟨rfl, rfl⟩ | ⟨rfl, rfl⟩ | ⟨rfl, rfl⟩ <;> decide

/-- Names of one word. -/
def oneWord : Env := ⟨Letters.asciiLib, fun s => [s], fun _ => none⟩

/-- C102 fails in full: a test given without its source excludes nothing, but looks the same. -/
theorem C102_fails : ¬ C102_statement := by
  intro h
  have := h oneWord ieee someSorter id (fun _ m => m) (fun _ m => m) (fun _ m => m) whole [exampleText]
    ⟨defaultWeights, none, some [b!"Bench.Y"]⟩ ⟨defaultWeights, none, some [b!"Y"]⟩ defaultWeights_fit defaultWeights_fit (by decide +kernel)
  have := congrArg (Option.map fun m : Map Bytes HandlerData => m.map fun e => e.2.byTest.keys) this
  revert this
  decide +kernel

/-- A case of `C102_benchmarks_partial`: the tests of the size keeper
(internal/scoring/keeper/size.go:51-56). -/
example : (∀ t ∈ named ⟨defaultWeights, some largeTests, none⟩, ∀ t' ∈ named ⟨defaultWeights.reverse, some largeTests, none⟩,
      testName oneWord t = testName oneWord t' → t = t') ∧
    benchExhibits oneWord ⟨defaultWeights, some largeTests, none⟩ = benchExhibits oneWord ⟨defaultWeights.reverse, some largeTests, none⟩ ∧
    benchExhibits oneWord ⟨defaultWeights, some largeTests, none⟩ =
      [.table [] [b!"Data", b!"Weight"] [[b!"Nanoseconds", b!"3"], [b!"Alloc Bytes", b!"2"], [b!"Allocations", b!"1"]],
       .list b!"Included" [b!"BigGroup", b!"Logging"]] :=
  ⟨by decide +kernel, by decide +kernel, by decide +kernel⟩

end Verif.Props.Exhibit
