import Verif.Score.AxisAsk
import Verif.Props.BenchDepends
import Verif.Props.TagNames

/-
C89: the tables of a benchmark axis on the page of scores. C90: asking for the scores of tests while pages are served.
-/

namespace Verif.Props.AxisAsk
open Go Verif.Warning Verif.Data Verif.Score Verif.Props.BenchData Verif.Props.BenchScore Verif.Props.BenchDepends

/-! ### Specification -/

/-- The tests that have columns: those asked for that tell handlers apart by a measure that has weight. -/
def Shows (o : AxisOptions) (ds : List (Data Rat)) (t : Bytes) : Prop := Included o t ∧ ∃ w, Distinguishes ds t w ∧ 0 < o.weights w

/-- What was measured, in the unit of a table. -/
def unit (R : Rounding) (d : Data Rat) : Weight → Val
  | .nanoseconds => Val.div R (.fin d.nsOps) (.fin 1000)
  | .allocBytes => .fin d.bytesOp
  | .allocations => .fin d.allocsOp

/-- A handler that nothing is better than, in a test. -/
def BestIn (ds : List (Data Rat)) (h t : Bytes) : Prop :=
  ∀ w h' d d', lastFor ds h t = some d → lastFor ds h' t = some d' → measure d w ≤ measure d' w

/-- What a page asks an axis for. -/
inductive Ask
  | has (t : Bytes)
  | score (h t : Bytes)

/-- An axis that was asked. A question that panics changes nothing. -/
def answered (R : Rounding) (ord : Nat → List Bytes) (s : Asking) : Ask → Asking
  | .has t => (s.has ord t).2
  | .score h t => match s.score R h t with
    | none => s
    | some (_, s) => s

/-! ### Asking changes no answer -/

theorem ask_fst (hd : HandlerData) (t : Bytes) : (hd.ask t).1 = hd.test t := by
  unfold HandlerData.ask HandlerData.test
  cases hd.byTest.get t <;> rfl

theorem ask_test (hd : HandlerData) (t u : Bytes) : (hd.ask t).2.test u = hd.test u := by
  unfold HandlerData.ask HandlerData.test
  cases h : hd.byTest.get t with
  | some a => rfl
  | none =>
    simp only [Map.get_set]
    by_cases hu : u = t
    · subst hu; simp [h]
    · simp [hu]

theorem ask_scores (hd : HandlerData) (t : Bytes) : (hd.ask t).2.scores = hd.scores := by
  unfold HandlerData.ask
  cases hd.byTest.get t <;> rfl

/-- The same answers. -/
structure Like (m m' : Map Bytes HandlerData) : Prop where
  here : ∀ h, (m'.get h).isSome = (m.get h).isSome
  test : ∀ h hd hd', m.get h = some hd → m'.get h = some hd' → ∀ t, hd'.test t = hd.test t

theorem Like.refl (m : Map Bytes HandlerData) : Like m m := ⟨fun _ => rfl, fun h hd hd' e e' t => by rw [e] at e'; cases e'; rfl⟩

theorem Like.trans {a b c : Map Bytes HandlerData} (h : Like a b) (h' : Like b c) : Like a c := by
  refine ⟨fun x => (h'.here x).trans (h.here x), fun x hd hd' e e' t => ?_⟩
  have : (b.get x).isSome = true := by rw [h.here x, e]; rfl
  obtain ⟨hb, eb⟩ := Option.isSome_iff_exists.1 this
  rw [h'.test x hb hd' eb e' t, h.test x hd hb e eb t]

theorem like_ask {m : Map Bytes HandlerData} {h : Bytes} {hd : HandlerData} (e : m.get h = some hd) (t : Bytes) : Like m (m.set h (hd.ask t).2) := by
  refine ⟨fun x => ?_, fun x a a' ha ha' u => ?_⟩
  · rw [Map.get_set]
    by_cases hx : x = h
    · subst hx; rw [if_pos rfl, e]; rfl
    · rw [if_neg hx]
  · rw [Map.get_set] at ha'
    by_cases hx : x = h
    · subst hx
      rw [if_pos rfl] at ha'
      cases ha'
      rw [e] at ha
      cases ha
      exact ask_test hd t u
    · rw [if_neg hx, ha] at ha'
      cases ha'
      rfl

theorem hasTest_like (t : Bytes) : ∀ (hs : List Bytes) (m : Map Bytes HandlerData), Like m (hasTest t hs m).2 := by
  intro hs
  induction hs with
  | nil => exact Like.refl
  | cons h hs ih =>
    intro m
    unfold hasTest
    cases e : m.get h with
    | none => exact ih m
    | some hd =>
      dsimp only
      split
      · exact like_ask e t
      · exact (like_ask e t).trans (ih _)

/-- A test that someone has a score for. -/
def Scored (m : Map Bytes HandlerData) (t : Bytes) : Prop := ∃ h hd, m.get h = some hd ∧ 0 < (hd.test t).count

theorem Like.scored {m m' : Map Bytes HandlerData} (h : Like m m') (t : Bytes) : Scored m' t ↔ Scored m t := by
  constructor
  · rintro ⟨x, hd', e', hc⟩
    have : (m.get x).isSome = true := by rw [← h.here x, e']; rfl
    obtain ⟨hd, e⟩ := Option.isSome_iff_exists.1 this
    exact ⟨x, hd, e, by rw [← h.test x hd hd' e e' t]; exact hc⟩
  · rintro ⟨x, hd, e, hc⟩
    have : (m'.get x).isSome = true := by rw [h.here x, e]; rfl
    obtain ⟨hd', e'⟩ := Option.isSome_iff_exists.1 this
    exact ⟨x, hd', e', by rw [h.test x hd hd' e e' t]; exact hc⟩

theorem hasTest_iff (t : Bytes) : ∀ (hs : List Bytes) (m : Map Bytes HandlerData),
    (hasTest t hs m).1 = true ↔ ∃ h ∈ hs, ∃ hd, m.get h = some hd ∧ 0 < (hd.test t).count := by
  intro hs
  induction hs with
  | nil => intro m; simp [hasTest]
  | cons h hs ih =>
    intro m
    unfold hasTest
    cases e : m.get h with
    | none =>
      rw [ih m]
      constructor
      · rintro ⟨x, hx, r⟩; exact ⟨x, List.mem_cons_of_mem _ hx, r⟩
      · rintro ⟨x, hx, hd, ex, hc⟩
        rcases List.mem_cons.1 hx with rfl | hx
        · rw [e] at ex; cases ex
        · exact ⟨x, hx, hd, ex, hc⟩
    | some hd =>
      dsimp only
      rw [ask_fst]
      by_cases hc : (hd.test t).count > 0
      · rw [if_pos hc]
        simp only [true_iff]
        exact ⟨h, by simp, hd, e, hc⟩
      · rw [if_neg hc, ih]
        have L := like_ask e t
        constructor
        · rintro ⟨x, hx, a', ea', ha'⟩
          have : (m.get x).isSome = true := by rw [← L.here x, ea']; rfl
          obtain ⟨a, ea⟩ := Option.isSome_iff_exists.1 this
          exact ⟨x, List.mem_cons_of_mem _ hx, a, ea, by rw [← L.test x a a' ea ea' t]; exact ha'⟩
        · rintro ⟨x, hx, a, ea, ha⟩
          rcases List.mem_cons.1 hx with rfl | hx
          · rw [e] at ea; cases ea; exact absurd ha hc
          · have : ((m.set h (hd.ask t).2).get x).isSome = true := by rw [L.here x, ea]; rfl
            obtain ⟨a', ea'⟩ := Option.isSome_iff_exists.1 this
            exact ⟨x, hx, a', ea', by rw [L.test x a a' ea ea' t]; exact ha⟩

/-! ### The tables -/

section tables
variable {m : Map Bytes HandlerData} {ord : Nat → List Bytes} (hord : ∀ n h, h ∈ ord n ↔ (m.get h).isSome = true)
include hord

theorem has_spec {s : Asking} (hs : Like m s.handlers) (t : Bytes) :
    ((s.has ord t).1 = true ↔ Scored m t) ∧ Like m (s.has ord t).2.handlers := by
  constructor
  · show (hasTest t (ord s.visits) s.handlers).1 = true ↔ _
    rw [hasTest_iff, ← hs.scored t]
    constructor
    · rintro ⟨h, _, hd, e, hc⟩; exact ⟨h, hd, e, hc⟩
    · rintro ⟨h, hd, e, hc⟩
      exact ⟨h, (hord _ h).2 (by rw [← hs.here h, e]; rfl), hd, e, hc⟩
  · exact hs.trans (hasTest_like t _ _)

/-- The columns of any table: a list that does not depend on what was asked for before. -/
theorem columns_spec (f : Bytes → Bool) (hf : ∀ t, f t = true ↔ Scored m t) : ∀ (ts : List Bytes) {s : Asking}, Like m s.handlers →
    (columns ord ts s).1 = ts.filter f ∧ Like m (columns ord ts s).2.handlers := by
  intro ts
  induction ts with
  | nil => intro s hs; exact ⟨rfl, hs⟩
  | cons t ts ih =>
    intro s hs
    obtain ⟨h1, h2⟩ := has_spec hord hs t
    obtain ⟨h3, h4⟩ := ih h2
    have h5 : (s.has ord t).1 = f t := by rw [Bool.eq_iff_iff, h1, hf]
    unfold columns
    dsimp only
    rw [h3, h5, List.filter_cons]
    exact ⟨rfl, h4⟩

theorem valueCells_spec (f : Bytes → Bool) (hf : ∀ t, f t = true ↔ Scored m t) (R : Rounding) (w : Weight) (recs : Map Bytes (Record Rat)) :
    ∀ (ts : List Bytes) {s : Asking}, Like m s.handlers →
    (valueCells R ord w recs ts s).1 = (ts.filter f).map (fun t => shownValue R w (recs.get t)) ∧ Like m (valueCells R ord w recs ts s).2.handlers := by
  intro ts
  induction ts with
  | nil => intro s hs; exact ⟨rfl, hs⟩
  | cons t ts ih =>
    intro s hs
    obtain ⟨h1, h2⟩ := has_spec hord hs t
    obtain ⟨h3, h4⟩ := ih h2
    have h5 : (s.has ord t).1 = f t := by rw [Bool.eq_iff_iff, h1, hf]
    unfold valueCells
    dsimp only
    rw [h3, h5, List.filter_cons]
    refine ⟨?_, h4⟩
    by_cases hc : f t = true
    · rw [if_pos hc, if_pos hc]; rfl
    · rw [if_neg hc, if_neg hc]

theorem valueRows_spec (f : Bytes → Bool) (hf : ∀ t, f t = true ↔ Scored m t) (R : Rounding) (w : Weight) (b : Bench Rat) (ts : List Bytes) :
    ∀ (hs : List Bytes) {s : Asking}, Like m s.handlers →
    (valueRows R ord w b ts hs s).1 = hs.map (fun h => (h, (ts.filter f).map fun t => shownValue R w ((b.testRecordsFor h).get t))) ∧
      Like m (valueRows R ord w b ts hs s).2.handlers := by
  intro hs
  induction hs with
  | nil => intro s hs; exact ⟨rfl, hs⟩
  | cons h hs ih =>
    intro s hl
    obtain ⟨h1, h2⟩ := valueCells_spec hord f hf R w (b.testRecordsFor h) ts hl
    obtain ⟨h3, h4⟩ := ih h2
    unfold valueRows
    dsimp only
    rw [h1, h3]
    exact ⟨rfl, h4⟩

theorem valueTable_spec (f : Bytes → Bool) (hf : ∀ t, f t = true ↔ Scored m t) (R : Rounding) (w : Weight) (b : Bench Rat) (ts hs : List Bytes)
    {s : Asking} (hl : Like m s.handlers) :
    (valueTable R ord w b ts hs s).1 =
        ⟨ts.filter f, hs.map fun h => (h, (ts.filter f).map fun t => shownValue R w ((b.testRecordsFor h).get t))⟩ ∧
      Like m (valueTable R ord w b ts hs s).2.handlers := by
  obtain ⟨h1, h2⟩ := columns_spec hord f hf ts hl
  obtain ⟨h3, h4⟩ := valueRows_spec hord f hf R w b ts hs h2
  unfold valueTable
  dsimp only
  rw [h1, h3]
  exact ⟨rfl, h4⟩

omit hord in
theorem score_spec {s : Asking} (hs : Like m s.handlers) (R : Rounding) {h : Bytes} {hd : HandlerData} (e : m.get h = some hd) (t : Bytes) :
    ∃ s', s.score R h t = some ((hd.test t).average R, s') ∧ Like m s'.handlers := by
  have : (s.handlers.get h).isSome = true := by rw [hs.here h, e]; rfl
  obtain ⟨hd', e'⟩ := Option.isSome_iff_exists.1 this
  refine ⟨{ s with handlers := s.handlers.set h (hd'.ask t).2 }, ?_, hs.trans (like_ask e' t)⟩
  unfold Asking.score scoreForTest
  rw [e']
  dsimp only
  rw [ask_fst, hs.test h hd hd' e e' t]

theorem scoreCells_spec (f : Bytes → Bool) (hf : ∀ t, f t = true ↔ Scored m t) (R : Rounding) {h : Bytes} {hd : HandlerData} (e : m.get h = some hd) :
    ∀ (ts : List Bytes) {s : Asking}, Like m s.handlers →
    ∃ s', scoreCells R ord h ts s = some ((ts.filter f).map (fun t => (hd.test t).average R), s') ∧ Like m s'.handlers := by
  intro ts
  induction ts with
  | nil => intro s hs; exact ⟨s, rfl, hs⟩
  | cons t ts ih =>
    intro s hs
    obtain ⟨h1, h2⟩ := has_spec hord hs t
    have h5 : (s.has ord t).1 = f t := by rw [Bool.eq_iff_iff, h1, hf]
    unfold scoreCells
    dsimp only
    rw [h5, List.filter_cons]
    by_cases hc : f t = true
    · rw [if_pos hc, if_pos hc]
      obtain ⟨s1, q1, q2⟩ := score_spec h2 R e t
      obtain ⟨s2, q3, q4⟩ := ih q2
      rw [q1]
      dsimp only
      rw [q3]
      exact ⟨s2, rfl, q4⟩
    · rw [if_neg hc, if_neg hc]
      exact ih h2

theorem scoreRows_spec (f : Bytes → Bool) (hf : ∀ t, f t = true ↔ Scored m t) (R : Rounding) (ts : List Bytes) :
    ∀ (hs : List Bytes) {s : Asking}, (∀ h ∈ hs, (m.get h).isSome = true) → Like m s.handlers →
    ∃ s', scoreRows R ord ts hs s = some (hs.map (fun h => (h, (ts.filter f).map fun t => (((m.get h).getD {}).test t).average R)), s') ∧
      Like m s'.handlers := by
  intro hs
  induction hs with
  | nil => intro s _ hs; exact ⟨s, rfl, hs⟩
  | cons h hs ih =>
    intro s hk hl
    obtain ⟨hd, e⟩ := Option.isSome_iff_exists.1 (hk h (by simp))
    obtain ⟨s1, q1, q2⟩ := scoreCells_spec hord f hf R e ts hl
    obtain ⟨s2, q3, q4⟩ := ih (fun x hx => hk x (by simp [hx])) q2
    refine ⟨s2, ?_, q4⟩
    unfold scoreRows
    rw [q1]
    dsimp only
    rw [q3]
    simp [e]

end tables

/-! ### What has a score -/

theorem testSum_count (R : Rounding) (weights : Weight → Nat) (g : Ranges) (r : Record Rat) :
    0 < (testSum R weights g r).count ↔ ∃ w, counts R g w = true ∧ 0 < weights w := by
  have key : ∀ (ws : List Weight) (a : Average),
      0 < (ws.foldl (fun a w => if counts R g w then a.addMultiple R (scoreIn R g r w) (weights w) else a) a).count ↔
        0 < a.count ∨ ∃ w ∈ ws, counts R g w = true ∧ 0 < weights w := by
    intro ws
    induction ws with
    | nil => intro a; simp
    | cons w ws ih =>
      intro a
      rw [List.foldl_cons, ih]
      by_cases hc : counts R g w = true
      · rw [if_pos hc]
        simp only [Average.addMultiple, List.mem_cons, exists_eq_or_imp, hc, true_and]
        have : 0 < a.count + weights w ↔ 0 < a.count ∨ 0 < weights w := by omega
        rw [this, or_assoc]
      · rw [if_neg hc]
        simp [hc]
  unfold testSum
  rw [key]
  simp [mem_order]

/-- What a handler has for a test. -/
theorem handler_test (s : Setting) : ∃ m, s.result = some m ∧ (∀ h, (m.get h).isSome = true ↔ ∃ d ∈ s.ds, d.handler = h) ∧
    ∀ h hd, m.get h = some hd →
      (∀ t, (hd.byTest.get t).isSome = true ↔ Ran s.o s.ds h t) ∧
      (∀ t, ¬ Ran s.o s.ds h t → hd.test t = {}) ∧
      (∀ t d, lastFor s.ds h t = some d → Included s.o t → hd.test t = testSum s.R s.o.weights (s.rng t) (partRecord s.fl d)) := by
  obtain ⟨m, em, hm, hs⟩ := result_eq s
  refine ⟨m, em, hm, fun h hd hh => ?_⟩
  obtain ⟨es, hes, _, _, _, _, _, e5, _, e7⟩ := hs h hd hh
  have h1 : ∀ t, (hd.byTest.get t).isSome = true ↔ Ran s.o s.ds h t := by
    intro t
    rw [e7 t]
    constructor
    · rintro ⟨r, hr⟩
      obtain ⟨⟨d, hd, _⟩, hi⟩ := (hes t r).1 hr
      exact ⟨⟨d, hd⟩, hi⟩
    · rintro ⟨⟨d, hd⟩, hi⟩
      exact ⟨_, (hes t _).2 ⟨⟨d, hd, rfl⟩, hi⟩⟩
  refine ⟨h1, fun t ht => ?_, fun t d hd hi => ?_⟩
  · rw [← h1 t, Bool.not_eq_true, Option.isSome_eq_false_iff, Option.isNone_iff_eq_none] at ht
    unfold HandlerData.test
    rw [ht]
    rfl
  · exact e5 (t, partRecord s.fl d) ((hes t _).2 ⟨⟨d, hd, rfl⟩, hi⟩)

theorem scored_iff (s : Setting) {m : Map Bytes HandlerData} (em : s.result = some m) (t : Bytes) : Scored m t ↔ Shows s.o s.ds t := by
  obtain ⟨m', em', hm, hs⟩ := handler_test s
  rw [em] at em'
  cases em'
  constructor
  · rintro ⟨h, hd, e, hc⟩
    obtain ⟨_, h2, h3⟩ := hs h hd e
    by_cases hr : Ran s.o s.ds h t
    · obtain ⟨⟨d, hl⟩, hi⟩ := hr
      rw [h3 t d hl hi, testSum_count] at hc
      obtain ⟨w, hw, hp⟩ := hc
      exact ⟨hi, w, (facts_of s hl w).1.1 hw, hp⟩
    · rw [h2 t hr] at hc
      exact absurd hc (by decide)
  · rintro ⟨hi, w, hd, hp⟩
    obtain ⟨h, h', d, d', hl, hl', hne⟩ := hd
    have : (m.get h).isSome = true := (hm h).2 ⟨d, (lastFor_mem hl).1, (lastFor_mem hl).2.1⟩
    obtain ⟨hd, e⟩ := Option.isSome_iff_exists.1 this
    refine ⟨h, hd, e, ?_⟩
    rw [(hs h hd e).2.2 t d hl hi, testSum_count]
    exact ⟨w, (facts_of s hl w).1.2 ⟨h, h', d, d', hl, hl', hne⟩, hp⟩

/-! ### C89 -/

theorem answered_like {m : Map Bytes HandlerData} (R : Rounding) (ord : Nat → List Bytes) : ∀ (asks : List Ask) (s : Asking), Like m s.handlers →
    Like m (asks.foldl (answered R ord) s).handlers := by
  intro asks
  induction asks with
  | nil => intro s h; exact h
  | cons a asks ih =>
    intro s h
    rw [List.foldl_cons]
    refine ih _ ?_
    cases a with
    | has t => exact h.trans (hasTest_like t _ _)
    | score x t =>
      unfold answered Asking.score scoreForTest
      dsimp only
      cases e : s.handlers.get x with
      | none => exact h
      | some hd => exact h.trans (like_ask e t)

/-- The score of a handler in a test that it ran. -/
theorem score_bounds (s : Setting) {h t : Bytes} {d : Data Rat} (hl : lastFor s.ds h t = some d) (hs : Shows s.o s.ds t) :
    ∃ q, (testSum s.R s.o.weights (s.rng t) (partRecord s.fl d)).average s.R = .fin q ∧ 0 ≤ q ∧ q ≤ 100 * s.R.p ^ 9 ∧
      (BestIn s.ds h t → 100 * s.R.d ^ 9 ≤ q) := by
  have hp2 : (0 : Rat) ≤ 100 * s.R.p ^ 2 := mul_nonneg (by norm_num) (pow_nonneg (by linarith [s.R.p_ge]) _)
  have hd2 : (0 : Rat) ≤ 100 * s.R.d ^ 2 := mul_nonneg (by norm_num) (pow_nonneg s.R.d_pos.le _)
  have hw : allWeights s.o.weights ≤ 2 ^ 53 := s.weights
  have hsay : Says s.R s.o.weights s.rng (t, partRecord s.fl d) := by
    obtain ⟨_, w, hd, hp⟩ := hs
    exact ⟨w, (facts_of s hl w).1.2 hd, hp⟩
  have h1 : Within s.R s.rng 0 (100 * s.R.p ^ 2) (t, partRecord s.fl d) := by
    intro w hc
    obtain ⟨x, e, a, b, _⟩ := (facts_of s hl w).2 hc
    exact ⟨x, e, a, b⟩
  obtain ⟨q, eq, a, b⟩ := test_bounds s.R s.o.weights s.rng (le_refl 0) hp2 hw h1 hsay
  refine ⟨q, eq, by simpa using a, ?_, fun hb => ?_⟩
  · calc q ≤ 100 * s.R.p ^ 2 * s.R.p ^ 7 := b
      _ = _ := by ring
  · have h2 : Within s.R s.rng (100 * s.R.d ^ 2) (100 * s.R.p ^ 2) (t, partRecord s.fl d) := by
      intro w hc
      obtain ⟨x, e, _, b, c⟩ := (facts_of s hl w).2 hc
      exact ⟨x, e, c fun h' d' hl' => hb w h' d d' hl hl', b⟩
    obtain ⟨q', eq', a', _⟩ := test_bounds s.R s.o.weights s.rng hd2 hp2 hw h2 hsay
    rw [eq] at eq'
    cases eq'
    calc 100 * s.R.d ^ 9 = 100 * s.R.d ^ 2 * s.R.d ^ 7 := by ring
      _ ≤ q := a'

/-- The tables of an axis: columns, scores and measures. -/
def tablesOf (cols hs : List Bytes) (score : Bytes → Bytes → Val) (value : Weight → Bytes → Bytes → Val) : List Table :=
  ⟨cols, hs.map fun h => (h, cols.map (score h))⟩ ::
    [Weight.nanoseconds, .allocations, .allocBytes].map fun w => ⟨cols, hs.map fun h => (h, cols.map (value w h))⟩

/-- What holds of **C89**, however numbers are rounded. There are columns, scores and values such that whatever was asked for before and however
Go goes through maps, the tables show these, with a row for each handler of the keeper, and no method panics. The columns are the tests, in order, that are asked for
and tell handlers apart by a measure that has weight. Where a handler has a result for a test, the values are those of its last result, and the score is a
percentage, up to rounding, which is 100 for a handler that nothing is better than in the test. Where it has none, the score is not a number,
but the values are zeros. -/
theorem C89_partial (s : Setting) : ∃ m cols score value, s.result = some m ∧
    (∀ (ord : Nat → List Bytes) (asks : List Ask) (hs : List Bytes), (∀ n, (ord n).Perm m.keys) → (∀ h ∈ hs, ∃ d ∈ s.ds, d.handler = h) →
      ∃ s', axisTables s.R ord (readAll s.E s.fl s.texts) ((readAll s.E s.fl s.texts).testTags s.S s.pick).2 hs
        (asks.foldl (answered s.R ord) { handlers := m }) = some (tablesOf cols hs score value, s')) ∧
    cols.Sublist ((readAll s.E s.fl s.texts).testTags s.S s.pick).2 ∧ (∀ t, t ∈ cols ↔ Shows s.o s.ds t) ∧
    ∀ h, (∃ d ∈ s.ds, d.handler = h) → ∀ t ∈ cols,
      (∀ d, lastFor s.ds h t = some d → (∀ w, value w h t = unit s.R d w) ∧
        ∃ q, score h t = .fin q ∧ 0 ≤ q ∧ q ≤ 100 * s.R.p ^ 9 ∧ (BestIn s.ds h t → 100 * s.R.d ^ 9 ≤ q)) ∧
      (lastFor s.ds h t = none → score h t = .nan ∧ ∀ w, value w h t = .fin 0) := by
  obtain ⟨m, em, hm, ht⟩ := handler_test s
  classical
  obtain ⟨f, hf⟩ : ∃ f : Bytes → Bool, ∀ t, f t = true ↔ Scored m t := ⟨fun t => decide (Scored m t), fun t => decide_eq_true_iff⟩
  have hT := (C37_tags s.E s.fl s.S s.pick s.pick_perm s.texts s.ds s.read _ rfl).2.1
  obtain ⟨tests, eT⟩ : ∃ l, l = ((readAll s.E s.fl s.texts).testTags s.S s.pick).2 := ⟨_, rfl⟩
  rw [← eT] at hT ⊢
  refine ⟨m, tests.filter f, fun h t => (((m.get h).getD {}).test t).average s.R,
    fun w h t => shownValue s.R w (((readAll s.E s.fl s.texts).testRecordsFor h).get t), em, ?_, List.filter_sublist, ?_, ?_⟩
  · intro ord asks hs hp hh
    have hord : ∀ n h, h ∈ ord n ↔ (m.get h).isSome = true := fun n h => by rw [(hp n).mem_iff, Map.mem_keys]
    have h0 := answered_like s.R ord asks { handlers := m } (Like.refl m)
    revert h0
    generalize asks.foldl (answered s.R ord) { handlers := m } = st
    intro h0
    obtain ⟨c1, c2⟩ := columns_spec hord f hf tests h0
    obtain ⟨s1, r1, r2⟩ := scoreRows_spec hord f hf s.R tests hs (fun h hx => (hm h).2 (hh h hx)) c2
    obtain ⟨v1, v2⟩ := valueTable_spec hord f hf s.R .nanoseconds (readAll s.E s.fl s.texts) tests hs r2
    obtain ⟨v3, v4⟩ := valueTable_spec hord f hf s.R .allocations (readAll s.E s.fl s.texts) tests hs v2
    obtain ⟨v5, v6⟩ := valueTable_spec hord f hf s.R .allocBytes (readAll s.E s.fl s.texts) tests hs v4
    unfold axisTables scoreTable
    dsimp only
    rw [r1, c1]
    dsimp only
    rw [v1, v3, v5]
    exact ⟨_, rfl⟩
  · intro t
    rw [List.mem_filter, hf, scored_iff s em]
    refine ⟨fun h => h.2, fun h => ⟨?_, h⟩⟩
    obtain ⟨_, w, ⟨h, _, d, _, hl, _⟩, _⟩ := h
    exact (hT t).2 ⟨d, (lastFor_mem hl).1, (lastFor_mem hl).2.2⟩
  · intro h hh t hc
    have hS : Shows s.o s.ds t := (scored_iff s em t).1 ((hf t).1 (List.mem_filter.1 hc).2)
    obtain ⟨hd, e⟩ := Option.isSome_iff_exists.1 ((hm h).2 hh)
    obtain ⟨_, h2, h3⟩ := ht h hd e
    have hr := (records_get (E := s.E) s.read h t).2
    constructor
    · intro d hl
      constructor
      · intro w
        dsimp only
        rw [hr, hl]
        cases w <;> rfl
      · dsimp only
        rw [e, Option.getD_some, h3 t d hl hS.1]
        exact score_bounds s hl hS
    · intro hl
      constructor
      · dsimp only
        rw [e, Option.getD_some, h2 t (by rintro ⟨⟨d, hd⟩, _⟩; rw [hl] at hd; cases hd)]
        rfl
      · intro w
        dsimp only
        rw [hr, hl]
        have : Val.div s.R (.fin 0) (.fin 1000) = .fin 0 := by simp [Val.div, s.R.zero]
        cases w
        · rfl
        · rfl
        · exact this

/-- **C89** in full: as above, and where a handler has no result for a test, no number is shown. -/
def C89_statement : Prop :=
  ∀ s : Setting, ∃ m cols score value, s.result = some m ∧
    (∀ (ord : Nat → List Bytes) (asks : List Ask) (hs : List Bytes), (∀ n, (ord n).Perm m.keys) → (∀ h ∈ hs, ∃ d ∈ s.ds, d.handler = h) →
      ∃ s', axisTables s.R ord (readAll s.E s.fl s.texts) ((readAll s.E s.fl s.texts).testTags s.S s.pick).2 hs
        (asks.foldl (answered s.R ord) { handlers := m }) = some (tablesOf cols hs score value, s')) ∧
    (∀ t, t ∈ cols ↔ Shows s.o s.ds t) ∧
    ∀ h, (∃ d ∈ s.ds, d.handler = h) → ∀ t ∈ cols,
      (∀ d, lastFor s.ds h t = some d → (∀ w, value w h t = unit s.R d w) ∧ ∃ q, score h t = .fin q ∧ 0 ≤ q) ∧
      (lastFor s.ds h t = none → score h t = .nan ∧ ∀ w, value w h t = .nan)

/-- The text of a benchmark of the handlers A, B and C, of which C ran another test. -/
def gapText : Bytes :=
  exampleLine 0x41 0x58 b!"100" b!" 16 B/op 1 allocs/op" ++ b!"\n" ++ exampleLine 0x42 0x58 b!"200" b!" 32 B/op 2 allocs/op" ++ b!"\n" ++
  exampleLine 0x43 0x59 b!"100" b!" 16 B/op 1 allocs/op" ++ b!"\n"

/-- Its results. -/
def gapData : List (Data Rat) :=
  [⟨b!"A", b!"X", 8, 7, 100, 1, 16, 0⟩, ⟨b!"B", b!"X", 8, 7, 200, 2, 32, 0⟩, ⟨b!"C", b!"Y", 8, 7, 100, 1, 16, 0⟩]

theorem gap_read : History whole [gapText] gapData := by
  have hs : scanLines gapText = [exampleLine 0x41 0x58 b!"100" b!" 16 B/op 1 allocs/op", exampleLine 0x42 0x58 b!"200" b!" 32 B/op 2 allocs/op",
      exampleLine 0x43 0x59 b!"100" b!" 16 B/op 1 allocs/op"] := by decide +kernel
  have d1 : Decimal b!"100" := .inl ⟨by simp, by decide⟩
  have d2 : Decimal b!"200" := .inl ⟨by simp, by decide⟩
  have h : Reads whole (scanLines gapText) gapData [] false := by
    rw [hs]
    refine .data (exampleLine_data 0x41 0x58 (by decide) (by decide) d1 (by decide)) (by decide +kernel) (by decide +kernel) (by decide +kernel)
      (by decide +kernel) (by decide +kernel) (by decide +kernel) ?_
    refine .data (exampleLine_data 0x42 0x58 (by decide) (by decide) d2 (by decide)) (by decide +kernel) (by decide +kernel) (by decide +kernel)
      (by decide +kernel) (by decide +kernel) (by decide +kernel) ?_
    refine .data (exampleLine_data 0x43 0x59 (by decide) (by decide) d1 (by decide)) (by decide +kernel) (by decide +kernel) (by decide +kernel)
      (by decide +kernel) (by decide +kernel) (by decide +kernel) .done
  exact .text h .none

/-- Scores for it. -/
def gapSetting : Setting where
  R := ieee
  S := someSorter
  pick := id
  o := { weights := fun _ => 1 }
  ordT _ m := m
  ordT' _ m := m
  ordH _ m := m
  E := ⟨Letters.asciiLib, fun _ => [], fun _ => none⟩
  fl := whole
  texts := [gapText]
  ds := gapData
  read := gap_read
  pick_perm l := .refl l
  ordT_perm _ m := .refl m
  ordT'_perm _ m := .refl m
  ordH_perm _ m := .refl m
  nanos := by decide +kernel
  allocs := by decide +kernel
  bytes := by decide +kernel
  few := by decide
  weights := by show 1 + (1 + 1) ≤ 2 ^ 53; decide

/-- What the page shows for it. -/
def gapTables : Option (List Table) :=
  gapSetting.result.bind fun m => (axisTables ieee (fun n => if n % 2 = 0 then m.keys else m.keys.reverse) (readAll gapSetting.E whole [gapText])
    ((readAll gapSetting.E whole [gapText]).testTags someSorter id).2 [b!"A", b!"C"] { handlers := m }).map Prod.fst

/-- A case of `C89_partial`: there is no column for the test Y, which says nothing, and C has zeros for the test X. -/
theorem gap_tables : gapTables = some
    [⟨[b!"Bench.X"], [(b!"A", [.fin 100]), (b!"C", [.nan])]⟩,
     ⟨[b!"Bench.X"], [(b!"A", [.fin (ieee.rnd (1 / 10))]), (b!"C", [.fin 0])]⟩,
     ⟨[b!"Bench.X"], [(b!"A", [.fin 1]), (b!"C", [.fin 0])]⟩,
     ⟨[b!"Bench.X"], [(b!"A", [.fin 16]), (b!"C", [.fin 0])]⟩] := by
  decide +kernel

/-- **C89** fails in full: the handler C has no result for the test X, and the tables show that it took no time and no memory, which is better than
all others. -/
theorem C89_fails : ¬ C89_statement := by
  intro h
  obtain ⟨m, cols, score, value, em, ht, hc, hv⟩ := h gapSetting
  have hX : b!"Bench.X" ∈ cols := (hc _).2 ⟨⟨fun l hl => (by cases hl), (by decide)⟩, .nanoseconds,
    ⟨b!"A", b!"B", ⟨b!"A", b!"X", 8, 7, 100, 1, 16, 0⟩, ⟨b!"B", b!"X", 8, 7, 200, 2, 32, 0⟩, rfl, rfl, by decide +kernel⟩, Nat.one_pos⟩
  have h1 := ((hv b!"C" ⟨⟨b!"C", b!"Y", 8, 7, 100, 1, 16, 0⟩, by simp [gapSetting, gapData], rfl⟩ _ hX).2 rfl).2 .allocations
  obtain ⟨s', e⟩ := ht (fun n => if n % 2 = 0 then m.keys else m.keys.reverse) [] [b!"A", b!"C"]
    (fun n => by split; exacts [.refl _, List.reverse_perm _])
    (by
      intro h hh
      simp only [List.mem_cons, List.not_mem_nil, or_false] at hh
      rcases hh with rfl | rfl
      · exact ⟨⟨b!"A", b!"X", 8, 7, 100, 1, 16, 0⟩, by simp [gapSetting, gapData], rfl⟩
      · exact ⟨⟨b!"C", b!"Y", 8, 7, 100, 1, 16, 0⟩, by simp [gapSetting, gapData], rfl⟩)
  have h2 := gap_tables
  unfold gapTables at h2
  rw [em] at h2
  simp only [Option.bind_some] at h2
  replace e : axisTables ieee (fun n => if n % 2 = 0 then m.keys else m.keys.reverse) (readAll gapSetting.E whole [gapText])
    ((readAll gapSetting.E whole [gapText]).testTags someSorter id).2 [b!"A", b!"C"] { handlers := m } = _ := e
  rw [e] at h2
  simp only [Option.map_some, tablesOf, List.map_cons, List.map_nil, Option.some.injEq, List.cons.injEq, Table.mk.injEq, Prod.mk.injEq, and_true, true_and] at h2
  obtain ⟨⟨hcols, -⟩, -, ⟨-, -, h3⟩, -⟩ := h2
  rw [hcols] at h3
  simp only [List.map_cons, List.map_nil, List.cons.injEq, and_true] at h3
  rw [h1] at h3
  cases h3

/-! ### C90 -/

/-- The handlers of a list that `HasTest` asks: up to the first that has a score for the test. -/
theorem mem_asked (t : Bytes) (m : Map Bytes HandlerData) (h : Bytes) : ∀ order : List Bytes, order.Nodup → (∀ x ∈ order, (m.get x).isSome = true) →
    (h ∈ askedFor t m order ↔ ∃ pre post, order = pre ++ h :: post ∧ ∀ x ∈ pre, ∀ hd, m.get x = some hd → ¬ 0 < (hd.test t).count) := by
  intro order
  induction order with
  | nil =>
    intro _ _
    simp [askedFor]
  | cons a order ih =>
    intro hn hk
    rw [List.nodup_cons] at hn
    obtain ⟨hd, e⟩ := Option.isSome_iff_exists.1 (hk a (by simp))
    have ih := ih hn.2 fun x hx => hk x (by simp [hx])
    unfold askedFor
    rw [e]
    dsimp only
    rw [ask_fst]
    by_cases hc : (hd.test t).count > 0
    · rw [if_pos hc, List.mem_singleton]
      constructor
      · rintro rfl
        exact ⟨[], order, rfl, by simp⟩
      · rintro ⟨pre, post, eo, hp⟩
        cases pre with
        | nil => simp only [List.nil_append, List.cons.injEq] at eo; exact eo.1.symm
        | cons b pre =>
          simp only [List.cons_append, List.cons.injEq] at eo
          exact absurd hc (hp b (by simp) hd (eo.1 ▸ e))
    · rw [if_neg hc, List.mem_cons, ih]
      constructor
      · rintro (rfl | ⟨pre, post, rfl, hp⟩)
        · exact ⟨[], order, rfl, by simp⟩
        · refine ⟨a :: pre, post, rfl, fun x hx hd' e' => ?_⟩
          rcases List.mem_cons.1 hx with rfl | hx
          · rw [e] at e'; cases e'; exact hc
          · exact hp x hx hd' e'
      · rintro ⟨pre, post, eo, hp⟩
        cases pre with
        | nil => simp only [List.nil_append, List.cons.injEq] at eo; exact .inl eo.1.symm
        | cons b pre =>
          simp only [List.cons_append, List.cons.injEq] at eo
          exact .inr ⟨pre, post, eo.2, fun x hx => hp x (by simp [hx])⟩

theorem mem_reads (m : Map Bytes HandlerData) (h t : Bytes) : ∀ l : List (Bytes × List Bytes),
    t ∈ mapReads m h l ↔ ∃ order, (t, order) ∈ l ∧ h ∈ askedFor t m order := by
  intro l
  induction l with
  | nil => simp [mapReads]
  | cons e l ih =>
    obtain ⟨u, order⟩ := e
    unfold mapReads
    by_cases hc : h ∈ askedFor u m order
    · rw [if_pos hc]
      simp only [List.mem_cons, ih, Prod.mk.injEq]
      constructor
      · rintro (rfl | rfl | ⟨o, a, b⟩)
        · exact ⟨order, .inl ⟨rfl, rfl⟩, hc⟩
        · exact ⟨order, .inl ⟨rfl, rfl⟩, hc⟩
        · exact ⟨o, .inr a, b⟩
      · rintro ⟨o, ⟨rfl, rfl⟩ | a, b⟩
        · exact .inl rfl
        · exact .inr (.inr ⟨o, a, b⟩)
    · rw [if_neg hc, ih]
      simp only [List.mem_cons, Prod.mk.injEq]
      constructor
      · rintro ⟨o, a, b⟩; exact ⟨o, .inr a, b⟩
      · rintro ⟨o, ⟨rfl, rfl⟩ | a, b⟩
        · exact absurd b hc
        · exact ⟨o, a, b⟩

/-- A request: the tests it asks the axis for, each with the order in which Go goes through the handlers then. -/
abbrev Request := List (Bytes × List Bytes)

/-- A request asks handler `h` for test `t`: all handlers before it do not have a score for the test. -/
def Asks (s : Setting) (r : Request) (h t : Bytes) : Prop :=
  ∃ pre post, (t, pre ++ h :: post) ∈ r ∧ ∀ x ∈ pre, ¬ (Shows s.o s.ds t ∧ Ran s.o s.ds x t)

theorem scored_handler (s : Setting) {m : Map Bytes HandlerData} (em : s.result = some m) {h : Bytes} {hd : HandlerData} (e : m.get h = some hd)
    (t : Bytes) : 0 < (hd.test t).count ↔ Shows s.o s.ds t ∧ Ran s.o s.ds h t := by
  obtain ⟨m', em', _, hs⟩ := handler_test s
  rw [em] at em'
  cases em'
  obtain ⟨_, h2, h3⟩ := hs h hd e
  constructor
  · intro hc
    refine ⟨(scored_iff s em t).1 ⟨h, hd, e, hc⟩, ?_⟩
    by_contra hr
    rw [h2 t hr] at hc
    exact absurd hc (by decide)
  · rintro ⟨hS, ⟨d, hl⟩, hi⟩
    rw [h3 t d hl hi, testSum_count]
    obtain ⟨_, w, hd, hp⟩ := hS
    exact ⟨w, (facts_of s hl w).1.2 hd, hp⟩

theorem reads_iff (s : Setting) {m : Map Bytes HandlerData} (em : s.result = some m) (r : Request) (hr : ∀ e ∈ r, e.2.Perm m.keys)
    (hn : m.keys.Nodup) (h t : Bytes) : t ∈ mapReads m h r ↔ Asks s r h t := by
  rw [mem_reads]
  constructor
  · rintro ⟨order, ho, ha⟩
    have hp := hr _ ho
    obtain ⟨pre, post, rfl, hq⟩ := (mem_asked t m h order (hp.nodup_iff.2 hn) fun x hx => (Map.mem_keys m x).1 (hp.mem_iff.1 hx)).1 ha
    refine ⟨pre, post, ho, fun x hx hc => ?_⟩
    have : (m.get x).isSome = true := (Map.mem_keys m x).1 (hp.mem_iff.1 (by simp [hx]))
    obtain ⟨hd, e⟩ := Option.isSome_iff_exists.1 this
    exact hq x hx hd e ((scored_handler s em e t).2 hc)
  · rintro ⟨pre, post, ho, hq⟩
    have hp := hr _ ho
    refine ⟨_, ho, (mem_asked t m h _ (hp.nodup_iff.2 hn) fun x hx => (Map.mem_keys m x).1 (hp.mem_iff.1 hx)).2 ⟨pre, post, rfl, ?_⟩⟩
    intro x hx hd e hc
    exact hq x hx ((scored_handler s em e t).1 hc)

theorem keys_nodup (s : Setting) {m : Map Bytes HandlerData} (em : s.result = some m) : m.keys.Nodup := by
  unfold Setting.result newBenchAxis benchSetup at em
  dsimp only at em
  have key : ∀ (f : Map Bytes HandlerData → Bytes → Option HandlerData) (hs : List Bytes) (acc : Option (Map Bytes HandlerData)),
      (∀ m, acc = some m → m.keys.Nodup) → ∀ m, hs.foldl (fun acc h =>
        match acc with
        | none => none
        | some m =>
          match f m h with
          | none => none
          | some hd => some (m.set h hd)) acc = some m → m.keys.Nodup := by
    intro f hs
    induction hs with
    | nil => intro acc h m e; exact h m e
    | cons x hs ih =>
      intro acc h m e
      rw [List.foldl_cons] at e
      refine ih _ ?_ m e
      intro m' e'
      cases acc with
      | none => cases e'
      | some m0 =>
        dsimp only at e'
        cases hf : f m0 x with
        | none => rw [hf] at e'; cases e'
        | some hd =>
          rw [hf] at e'
          cases e'
          exact Map.nodup_set (h m0 rfl) _ _
  exact key (fun m h => oneHandler s.R s.o.weights _ _ _ ((m.get h).getD {}) (s.ordH h ((readAll s.E s.fl s.texts).testRecordsFor h))) _ _
    (fun m e => by cases e; exact List.nodup_nil) m em

/-- The map of averages of a handler, asked by requests at the same time. -/
def askedMap (m : Map Bytes HandlerData) (hd : HandlerData) (h : Bytes) (rs : Nat → Request) (ts : List Nat) : Server.NameWorld Average :=
  (Server.NameWorld.start hd.byTest fun i => mapReads m h (rs i)).run (fun _ => {}) ts

/-- **C90** in full: however requests are interleaved, the runtime does not end the program. -/
def C90_statement : Prop :=
  ∀ (s : Setting) (m : Map Bytes HandlerData) (h : Bytes) (hd : HandlerData), s.result = some m → m.get h = some hd →
    ∀ rs : Nat → Request, (∀ i, ∀ e ∈ rs i, e.2.Perm m.keys) → ∀ ts, (askedMap m hd h rs ts).dead = false

/-- **C90**, exactly when the runtime can end the program at the averages of a handler: if one request asks the handler for a test that does not
count for it, and another one asks it for any test at all. -/
theorem C90_exact (s : Setting) (m : Map Bytes HandlerData) (em : s.result = some m) (h : Bytes) (hd : HandlerData) (e : m.get h = some hd)
    (rs : Nat → Request) (hr : ∀ i, ∀ e ∈ rs i, e.2.Perm m.keys) :
    (∃ ts, (askedMap m hd h rs ts).dead = true) ↔
      ∃ i j, i ≠ j ∧ (∃ t, Asks s (rs i) h t ∧ ¬ Ran s.o s.ds h t) ∧ ∃ t, Asks s (rs j) h t := by
  have hn := keys_nodup s em
  obtain ⟨m', em', _, hs⟩ := handler_test s
  rw [em] at em'
  cases em'
  have h1 := (hs h hd e).1
  unfold askedMap
  rw [TagNames.C79_exact]
  unfold TagNames.Clash
  refine exists_congr fun i => exists_congr fun j => and_congr_right fun _ => and_congr ?_ ?_
  · refine exists_congr fun t => ?_
    rw [reads_iff s em (rs i) (hr i) hn, ← h1 t]
    refine and_congr_right fun _ => ?_
    simp
  · refine Iff.trans ⟨List.exists_mem_of_ne_nil _, fun ⟨t, ht⟩ hc => ?_⟩ (exists_congr fun t => reads_iff s em (rs j) (hr j) hn h t)
    rw [hc] at ht
    cases ht

/-- **C90**, partial: if every handler ran all tests that are asked for, and all of them are tests of the axis, no interleaving of requests ends the program. -/
theorem C90_partial (s : Setting) (m : Map Bytes HandlerData) (em : s.result = some m) (h : Bytes) (hd : HandlerData) (e : m.get h = some hd)
    (rs : Nat → Request) (hr : ∀ i, ∀ e ∈ rs i, e.2.Perm m.keys) (hall : ∀ i, ∀ e ∈ rs i, Ran s.o s.ds h e.1) (ts : List Nat) :
    (askedMap m hd h rs ts).dead = false := by
  by_contra hc
  rw [Bool.not_eq_false] at hc
  obtain ⟨i, _, _, ⟨t, ⟨pre, post, hm, _⟩, hn⟩, _⟩ := (C90_exact s m em h hd e rs hr).1 ⟨ts, hc⟩
  exact hn (hall i _ hm)

/-- **C90**: a request for the page of scores asks for all tests. If there is one that has no column, since the axis leaves it out or it tells no handlers
apart, each handler is asked for it; so two requests can end the program, at every handler for which the test does not count. -/
theorem C90_page (s : Setting) (m : Map Bytes HandlerData) (em : s.result = some m) (h : Bytes) (hd : HandlerData) (e : m.get h = some hd)
    (rs : Nat → Request) (hr : ∀ i, ∀ e ∈ rs i, e.2.Perm m.keys) (i j : Nat) (hij : i ≠ j)
    (hi : (rs i).map Prod.fst = ((readAll s.E s.fl s.texts).testTags s.S s.pick).2)
    (hj : (rs j).map Prod.fst = ((readAll s.E s.fl s.texts).testTags s.S s.pick).2)
    (t : Bytes) (ht : ∃ d ∈ s.ds, tagOf d = t) (hS : ¬ Shows s.o s.ds t) (hR : ¬ Ran s.o s.ds h t) :
    ∃ ts, (askedMap m hd h rs ts).dead = true := by
  have hT := (C37_tags s.E s.fl s.S s.pick s.pick_perm s.texts s.ds s.read _ rfl).2.1
  have hk : h ∈ m.keys := (Map.mem_keys m h).2 (by rw [e]; rfl)
  have key : ∀ i, (rs i).map Prod.fst = ((readAll s.E s.fl s.texts).testTags s.S s.pick).2 → Asks s (rs i) h t := by
    intro i hi
    have : t ∈ (rs i).map Prod.fst := by rw [hi]; exact (hT t).2 ht
    obtain ⟨⟨t', order⟩, hm, rfl⟩ := List.mem_map.1 this
    obtain ⟨pre, post, eo⟩ := List.append_of_mem ((hr i _ hm).mem_iff.2 hk)
    dsimp only at eo
    subst eo
    exact ⟨pre, post, hm, fun x _ hc => hS hc.1⟩
  exact (C90_exact s m em h hd e rs hr).2 ⟨i, j, hij, ⟨t, key i hi, hR⟩, t, key j hj⟩

/-- Two requests for the page of scores. -/
def twoRequests (m : Map Bytes HandlerData) : Nat → Request := fun i => if i < 2 then [(b!"Bench.Y", m.keys), (b!"Bench.X", m.keys)] else []

/-- **C90** fails in full: A has no result for the test Y, which two requests ask for. -/
theorem C90_fails : ¬ C90_statement := by
  intro hst
  obtain ⟨m, em, hm, _⟩ := handler_test gapSetting
  have : (m.get b!"A").isSome = true := (hm _).2 ⟨⟨b!"A", b!"X", 8, 7, 100, 1, 16, 0⟩, by simp [gapSetting, gapData], rfl⟩
  obtain ⟨hd, e⟩ := Option.isSome_iff_exists.1 this
  have hr : ∀ i, ∀ e ∈ twoRequests m i, e.2.Perm m.keys := by
    intro i e he
    unfold twoRequests at he
    split at he
    · simp only [List.mem_cons, List.not_mem_nil, or_false] at he
      rcases he with rfl | rfl <;> exact .refl _
    · cases he
  have hY : ∀ (h : Bytes) (w : Weight) d d', lastFor gapData h b!"Bench.Y" = some d → lastFor gapData d'.handler b!"Bench.Y" = some d' → measure d w = measure d' w := by
    intro h w d d' hl hl'
    have key : ∀ d ∈ gapData, tagOf d = b!"Bench.Y" → d = ⟨b!"C", b!"Y", 8, 7, 100, 1, 16, 0⟩ := by
      intro d hd ht
      simp only [gapData, List.mem_cons, List.not_mem_nil, or_false] at hd
      rcases hd with rfl | rfl | rfl
      · exact absurd ht (by decide)
      · exact absurd ht (by decide)
      · rfl
    rw [key d (lastFor_mem hl).1 (lastFor_mem hl).2.2, key d' (lastFor_mem hl').1 (lastFor_mem hl').2.2]
  have hl : lastFor gapData b!"A" b!"Bench.Y" = none := rfl
  have hT : [b!"Bench.Y", b!"Bench.X"] = ((readAll gapSetting.E gapSetting.fl gapSetting.texts).testTags gapSetting.S gapSetting.pick).2 := by
    decide +kernel
  obtain ⟨ts, hd⟩ := C90_page gapSetting m em b!"A" hd e (twoRequests m) hr 0 1 (by decide) hT hT b!"Bench.Y"
    ⟨⟨b!"C", b!"Y", 8, 7, 100, 1, 16, 0⟩, by simp [gapSetting, gapData], rfl⟩
    (by
      rintro ⟨_, w, ⟨h, h', d, d', h1, h2, hne⟩, _⟩
      have h3 := (lastFor_mem h2).2.1
      exact hne (hY h w d d' h1 (by rw [h3]; exact h2)))
    (by rintro ⟨⟨d, h1⟩, _⟩; rw [show lastFor gapSetting.ds _ _ = _ from hl] at h1; cases h1)
  rw [hst gapSetting m b!"A" _ em e (twoRequests m) hr ts] at hd
  cases hd

/-- A case of `C90_partial`: requests for the test X only, of A. -/
example : ∃ m hd, gapSetting.result = some m ∧ m.get b!"A" = some hd ∧
    ∀ ts, (askedMap m hd b!"A" (fun _ => [(b!"Bench.X", m.keys)]) ts).dead = false := by
  obtain ⟨m, em, hm, _⟩ := handler_test gapSetting
  have : (m.get b!"A").isSome = true := (hm _).2 ⟨⟨b!"A", b!"X", 8, 7, 100, 1, 16, 0⟩, by simp [gapSetting, gapData], rfl⟩
  obtain ⟨hd, e⟩ := Option.isSome_iff_exists.1 this
  refine ⟨m, hd, em, e, C90_partial gapSetting m em b!"A" hd e _ (fun _ e he => by simp only [List.mem_singleton] at he; subst he; exact .refl _) ?_⟩
  intro _ e he
  simp only [List.mem_singleton] at he
  subst he
  exact ⟨⟨⟨b!"A", b!"X", 8, 7, 100, 1, 16, 0⟩, rfl⟩, fun l hl => (by cases hl), List.not_mem_nil⟩

end Verif.Props.AxisAsk
