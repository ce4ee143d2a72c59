import Verif.Score.BenchSetup
import Verif.Score.BenchOriginal

/-
C42: the scores of benchmarks.
-/

set_option linter.unusedSimpArgs false

namespace Verif.Props.BenchScore
open Go Verif.Warning Verif.Data Verif.Score Verif.Props.BenchData

/-! ### Specification -/

/-- What was measured. -/
def measure (d : Data Rat) : Weight → Rat
  | .nanoseconds => d.nsOps
  | .allocBytes => d.bytesOp
  | .allocations => d.allocsOp

/-- A test that tells handlers apart, by a measure: the last results of two handlers
differ. -/
def Distinguishes (ds : List (Data Rat)) (t : Bytes) (w : Weight) : Prop :=
  ∃ h h' d d', lastFor ds h t = some d ∧ lastFor ds h' t = some d' ∧ measure d w ≠ measure d' w

/-- The tests that are asked for. -/
def Included (o : AxisOptions) (t : Bytes) : Prop := (∀ l, o.includes = some l → t ∈ l) ∧ t ∉ o.excludes

/-- The same, as a function. -/
def included (o : AxisOptions) (t : Bytes) : Bool := (match o.includes with | none => true | some l => decide (t ∈ l)) && !decide (t ∈ o.excludes)

theorem included_iff (o : AxisOptions) (t : Bytes) : included o t = true ↔ Included o t := by
  unfold included Included
  cases o.includes <;> simp

/-- The tests of a handler. -/
def Ran (o : AxisOptions) (ds : List (Data Rat)) (h t : Bytes) : Prop := (∃ d, lastFor ds h t = some d) ∧ Included o t

/-- A handler that nothing is better than, in its tests. -/
def BestInAll (o : AxisOptions) (ds : List (Data Rat)) (h : Bytes) : Prop :=
  ∀ t, Ran o ds h t → ∀ w h' d d', lastFor ds h t = some d → lastFor ds h' t = some d' → measure d w ≤ measure d' w

/-- All tests of the handler tell handlers apart, by a measure that has weight; and there
are some. -/
def EachTest (o : AxisOptions) (ds : List (Data Rat)) (h : Bytes) : Prop :=
  (∃ t, Ran o ds h t) ∧ ∀ t, Ran o ds h t → ∃ w, Distinguishes ds t w ∧ 0 < o.weights w

/-- By all measures there is a test of the handler that tells handlers apart; and some
measure has weight. -/
def EachMeasure (o : AxisOptions) (ds : List (Data Rat)) (h : Bytes) : Prop :=
  (∃ w, 0 < o.weights w) ∧ ∀ w, ∃ t, Ran o ds h t ∧ Distinguishes ds t w

/-- Where scores are calculated: data that was read, from benchmarks that are not too
large, and orders of maps. -/
structure Setting where
  R : Rounding
  S : Sorter
  pick : List Bytes → List Bytes
  o : AxisOptions
  ordT : Bytes → Map Bytes (Record Rat) → List (Bytes × Record Rat)
  ordT' : Bytes → Map Bytes (Record Rat) → List (Bytes × Record Rat)
  ordH : Bytes → Map Bytes (Record Rat) → List (Bytes × Record Rat)
  E : Verif.Data.Env
  fl : Floats Rat
  texts : List Bytes
  ds : List (Data Rat)
  read : History fl texts ds
  pick_perm : ∀ l, (pick l).Perm l
  ordT_perm : ∀ t m, (ordT t m).Perm m
  ordT'_perm : ∀ t m, (ordT' t m).Perm m
  ordH_perm : ∀ h m, (ordH h m).Perm m
  nanos : ∀ d ∈ ds, 0 ≤ d.nsOps ∧ d.nsOps ≤ maxFloat
  allocs : ∀ d ∈ ds, d.allocsOp ≤ 2 ^ 53
  bytes : ∀ d ∈ ds, d.bytesOp ≤ 2 ^ 53
  few : ds.length ≤ 2 ^ 53
  weights : o.weights .nanoseconds + (o.weights .allocBytes + o.weights .allocations) ≤ 2 ^ 53

/-- What is calculated for the handlers. -/
def Setting.result (s : Setting) : Option (Map Bytes HandlerData) :=
  newBenchAxis s.R s.S s.pick s.o s.ordT s.ordT' s.ordH (readAll s.E s.fl s.texts)

/-! ### Proofs -/

/-- The records of a test. -/
def Setting.records (s : Setting) (t : Bytes) : List (Record Rat) := (s.ordT t ((readAll s.E s.fl s.texts).handlerRecordsFor t)).map Prod.snd
/-- The range of a test. -/
def Setting.rng (s : Setting) (t : Bytes) : Ranges := (s.records t).foldl Ranges.add {}
/-- The tests of a handler. -/
def Setting.entries (s : Setting) (h : Bytes) : List (Bytes × Record Rat) := s.ordH h ((readAll s.E s.fl s.texts).testRecordsFor h)
/-- The tests of a handler that count. -/
def Setting.counted (s : Setting) (tags : Map Bytes Bool) (h : Bytes) : List (Bytes × Record Rat) := (s.entries h).filter fun e => isTrue tags e.1

theorem mem_perm {m : Map Bytes (Record Rat)} (hm : m.keys.Nodup) {l : List (Bytes × Record Rat)} (hp : l.Perm m) (k : Bytes) (r : Record Rat) :
    (k, r) ∈ l ↔ m.get k = some r := by
  rw [hp.mem_iff]
  exact ⟨fun h => Map.get_of_mem hm h, fun h => Map.mem_of_get h⟩

theorem mem_records (s : Setting) (t : Bytes) (r : Record Rat) : r ∈ s.records t ↔ ∃ h d, lastFor s.ds h t = some d ∧ r = fullRecord s.fl d := by
  unfold Setting.records
  rw [List.mem_map]
  constructor
  · rintro ⟨⟨h, r'⟩, hm, rfl⟩
    have := (mem_perm (records_nodup (E := s.E) s.read t).1 (s.ordT_perm t _) h r').1 hm
    rw [(records_get (E := s.E) s.read h t).1, Option.map_eq_some_iff] at this
    obtain ⟨d, hd, rfl⟩ := this
    exact ⟨h, d, hd, rfl⟩
  · rintro ⟨h, d, hd, rfl⟩
    refine ⟨(h, fullRecord s.fl d), (mem_perm (records_nodup (E := s.E) s.read t).1 (s.ordT_perm t _) h _).2 ?_, rfl⟩
    rw [(records_get (E := s.E) s.read h t).1, hd]; rfl

theorem mem_entries (s : Setting) (h t : Bytes) (r : Record Rat) : (t, r) ∈ s.entries h ↔ ∃ d, lastFor s.ds h t = some d ∧ r = partRecord s.fl d := by
  unfold Setting.entries
  rw [mem_perm (records_nodup (E := s.E) s.read h).2 (s.ordH_perm h _), (records_get (E := s.E) s.read h t).2, Option.map_eq_some_iff]
  exact ⟨fun ⟨d, a, b⟩ => ⟨d, a, b.symm⟩, fun ⟨d, a, b⟩ => ⟨d, a, b.symm⟩⟩

theorem entries_nodup (s : Setting) (h : Bytes) : ((s.entries h).map Prod.fst).Nodup := by
  have := (records_nodup (E := s.E) s.read h).2
  exact ((s.ordH_perm h _).map Prod.fst).nodup_iff.2 this

theorem entries_length (s : Setting) (h : Bytes) : (s.entries h).length ≤ s.ds.length := by
  have h1 : (s.entries h).map Prod.fst ⊆ s.ds.map tagOf := by
    intro t ht
    obtain ⟨⟨t, r⟩, hm, rfl⟩ := List.mem_map.1 ht
    obtain ⟨d, hd, _⟩ := (mem_entries s h t r).1 hm
    obtain ⟨a, _, b⟩ := lastFor_mem hd
    exact List.mem_map.2 ⟨d, a, b⟩
  have := ((entries_nodup s h).subperm h1).length_le
  simpa using this

theorem measured_full (fl : Floats Rat) (d : Data Rat) (w : Weight) : measured (fullRecord fl d) w = measure d w := by cases w <;> rfl
theorem item_part (R : Rounding) (fl : Floats Rat) (d : Data Rat) (w : Weight) :
    itemValue R (partRecord fl d) w = itemValue R (fullRecord fl d) w := by cases w <;> rfl

theorem facts_of (s : Setting) {h t : Bytes} {d : Data Rat} (hl : lastFor s.ds h t = some d) (w : Weight) :
    (counts s.R (s.rng t) w = true ↔ Distinguishes s.ds t w) ∧
    (counts s.R (s.rng t) w = true → ∃ x, scoreIn s.R (s.rng t) (partRecord s.fl d) w = .fin x ∧ 0 ≤ x ∧ x ≤ 100 * s.R.p ^ 2 ∧
      ((∀ h' d', lastFor s.ds h' t = some d' → measure d w ≤ measure d' w) → 100 * s.R.d ^ 2 ≤ x)) := by
  have hok : ∀ r ∈ s.records t, OkRecord r := by
    intro r hr
    obtain ⟨h, d, hd, rfl⟩ := (mem_records s t r).1 hr
    have hm := (lastFor_mem hd).1
    exact ⟨s.nanos d hm, s.allocs d hm, s.bytes d hm⟩
  have F := facts s.R hok ((mem_records s t _).2 ⟨h, d, hl, rfl⟩) w
  constructor
  · refine F.pos.trans ?_
    constructor
    · rintro ⟨r, hr, r', hr', hne⟩
      obtain ⟨h, d, hd, rfl⟩ := (mem_records s t r).1 hr
      obtain ⟨h', d', hd', rfl⟩ := (mem_records s t r').1 hr'
      rw [measured_full, measured_full] at hne
      exact ⟨h, h', d, d', hd, hd', hne⟩
    · rintro ⟨h, h', d, d', hd, hd', hne⟩
      refine ⟨_, (mem_records s t _).2 ⟨h, d, hd, rfl⟩, _, (mem_records s t _).2 ⟨h', d', hd', rfl⟩, ?_⟩
      rwa [measured_full, measured_full]
  · intro hc
    obtain ⟨x, e, a, b, c⟩ := F.score hc
    refine ⟨x, ?_, a, b, fun hb => c ?_⟩
    · unfold scoreIn; rw [item_part]; exact e
    · intro r hr
      obtain ⟨h', d', hd', rfl⟩ := (mem_records s t r).1 hr
      rw [measured_full, measured_full]
      exact hb h' d' hd'

/-- What is calculated. -/
theorem result_eq (s : Setting) : ∃ m : Map Bytes HandlerData, s.result = some m ∧
    (∀ h, (m.get h).isSome = true ↔ ∃ d ∈ s.ds, d.handler = h) ∧
    ∀ h hd, m.get h = some hd → ∃ es : List (Bytes × Record Rat),
      (∀ t r, (t, r) ∈ es ↔ (∃ d, lastFor s.ds h t = some d ∧ r = partRecord s.fl d) ∧ Included s.o t) ∧
      es.length ≤ s.ds.length ∧
      hd.scores.byTest = scoreByTest s.R s.o.weights s.rng es ∧ hd.scores.byData = scoreByData s.R s.o.weights s.rng es ∧
      hd.scores.default = scoreDefault s.R s.o.weights s.rng es ∧
      hd.scores.original = (es.foldl (fun o e => o.handlerTest s.R s.o.weights (s.rng e.1) e.2) ({} : Original)).score s.R ∧
      (∀ e ∈ es, hd.test e.1 = testSum s.R s.o.weights (s.rng e.1) e.2) ∧
      (es = (s.entries h).filter fun e => included s.o e.1) ∧
      ∀ t, (hd.byTest.get t).isSome = true ↔ ∃ r, (t, r) ∈ es := by
  obtain ⟨⟨hH, hHn, _⟩, ⟨hT, _, _⟩⟩ := C37_tags s.E s.fl s.S s.pick s.pick_perm s.texts s.ds s.read _ rfl
  obtain ⟨tests, eT⟩ : ∃ l, l = ((readAll s.E s.fl s.texts).testTags s.S s.pick).2 := ⟨_, rfl⟩
  obtain ⟨handlers, eH⟩ : ∃ l, l = ((readAll s.E s.fl s.texts).handlerTags s.S s.pick).2 := ⟨_, rfl⟩
  obtain ⟨tags, eG⟩ : ∃ g, g = testTagMap s.o.includes s.o.excludes tests := ⟨_, rfl⟩
  rw [← eT] at hT
  rw [← eH] at hH hHn
  have hInc : ∀ h t d, lastFor s.ds h t = some d → (isTrue tags t = true ↔ Included s.o t) := by
    intro h t d hl
    have hd := lastFor_mem hl
    rw [eG, isTrue_tags]
    unfold Included
    refine and_congr_left fun _ => ?_
    cases hi : s.o.includes with
    | none => simp [hi]; exact (hT t).2 ⟨d, hd.1, hd.2.2⟩
    | some l => simp [hi]
  have hR : ∀ h, ∀ e ∈ s.entries h, isTrue tags e.1 = true →
      (makeRanges Ranges.add s.ordT (readAll s.E s.fl s.texts) tags tests).get e.1 = some (s.rng e.1) ∧
      (makeRanges Ranges.addOriginal s.ordT' (readAll s.E s.fl s.texts) tags tests).get e.1 = some (s.rng e.1) := by
    intro h e he ht
    obtain ⟨d, hl, _⟩ := (mem_entries s h e.1 e.2).1 he
    have hd := lastFor_mem hl
    have hmem : e.1 ∈ tests := (hT e.1).2 ⟨d, hd.1, hd.2.2⟩
    have hr : s.rng e.1 = (s.ordT e.1 ((readAll s.E s.fl s.texts).handlerRecordsFor e.1)).foldl (fun r e => Ranges.add r e.2) {} := by
      unfold Setting.rng Setting.records
      rw [List.foldl_map]
    constructor
    · unfold makeRanges
      rw [makeRanges_get _ _ _ _ _ ht, if_pos hmem, hr]
    · unfold makeRanges
      rw [makeRanges_get _ _ _ _ _ ht, if_pos hmem, hr]
      have : (fun (r : Ranges) (e : Bytes × Record Rat) => Ranges.addOriginal r e.2) = fun r e => Ranges.add r e.2 := by
        funext r e; exact addOriginal_eq r e.2
      rw [this]
      exact congrArg some (ranges_perm ((s.ordT'_perm _ _).trans (s.ordT_perm _ _).symm) _)
  have hE := fun h => handler_eq s.R s.o.weights tags _ _ s.rng (s.entries h) (entries_nodup s h) (hR h)
  choose g hg using hE
  obtain ⟨m, em, hm⟩ := setup_fold
    (fun h (x : Option HandlerData) => oneHandler s.R s.o.weights tags (makeRanges Ranges.add s.ordT (readAll s.E s.fl s.texts) tags tests)
      (makeRanges Ranges.addOriginal s.ordT' (readAll s.E s.fl s.texts) tags tests) (x.getD {}) (s.entries h)) g (fun h => (hg h).1)
    (fun acc h => match acc with
      | none => none
      | some m =>
        match oneHandler s.R s.o.weights tags (makeRanges Ranges.add s.ordT (readAll s.E s.fl s.texts) tags tests)
          (makeRanges Ranges.addOriginal s.ordT' (readAll s.E s.fl s.texts) tags tests) ((m.get h).getD {})
          (s.ordH h ((readAll s.E s.fl s.texts).testRecordsFor h)) with
        | none => none
        | some hd => some (m.set h hd)) id (by
      intro m h
      simp only [Setting.entries]
      cases oneHandler s.R s.o.weights tags (makeRanges Ranges.add s.ordT (readAll s.E s.fl s.texts) tags tests)
          (makeRanges Ranges.addOriginal s.ordT' (readAll s.E s.fl s.texts) tags tests) ((m.get h).getD {})
          (s.ordH h ((readAll s.E s.fl s.texts).testRecordsFor h)) <;> rfl)
    handlers [] hHn (fun _ _ => rfl)
  refine ⟨m, ?_, ?_, ?_⟩
  · unfold Setting.result newBenchAxis benchSetup
    rw [← eT, ← eH, ← eG]
    exact em
  · intro h
    rw [hm h, ← hH h]
    by_cases hc : h ∈ handlers <;> simp [hc, Map.get]
  · intro h hd hh
    rw [hm h] at hh
    have hc : h ∈ handlers := by
      by_contra hc
      simp [hc, Map.get] at hh
    simp only [hc, if_true, id, Option.some.injEq] at hh
    subst hh
    obtain ⟨_, h1, h2, h3, h4, h5, h6⟩ := hg h
    refine ⟨(s.entries h).filter fun e => isTrue tags e.1, ?_, ?_, h1, h2, h3, h4, ?_, ?_, ?_⟩
    · intro t r
      rw [List.mem_filter, mem_entries]
      constructor
      · rintro ⟨⟨d, hl, e⟩, ht⟩
        exact ⟨⟨d, hl, e⟩, (hInc h t d hl).1 ht⟩
      · rintro ⟨⟨d, hl, e⟩, ht⟩
        exact ⟨⟨d, hl, e⟩, (hInc h t d hl).2 ht⟩
    · exact (List.length_filter_le _ _).trans (entries_length s h)
    · intro e he
      rw [List.mem_filter] at he
      exact h5 e he.1 he.2
    · apply List.filter_congr
      rintro ⟨t, r⟩ he
      obtain ⟨d, hl, _⟩ := (mem_entries s h t r).1 he
      rw [Bool.eq_iff_iff, included_iff]
      exact hInc h t d hl
    · intro t
      rw [h6 t]
      constructor
      · rintro ⟨e, he, hi, rfl⟩
        exact ⟨e.2, List.mem_filter.2 ⟨he, hi⟩⟩
      · rintro ⟨r, hr⟩
        exact ⟨(t, r), (List.mem_filter.1 hr).1, (List.mem_filter.1 hr).2, rfl⟩

/-- What the conditions on tests and measures come to. -/
structure Bridge (s : Setting) (h : Bytes) (es : List (Bytes × Record Rat)) : Prop where
  within : ∀ e ∈ es, Within s.R s.rng 0 (100 * s.R.p ^ 2) e
  best : BestInAll s.o s.ds h → ∀ e ∈ es, Within s.R s.rng (100 * s.R.d ^ 2) (100 * s.R.p ^ 2) e
  each : (es ≠ [] ∧ ∀ e ∈ es, Says s.R s.o.weights s.rng e) ↔ EachTest s.o s.ds h
  covers : (0 < allWeights s.o.weights ∧ Covers s.R s.rng es) ↔ EachMeasure s.o s.ds h

theorem bridge (s : Setting) (h : Bytes) (es : List (Bytes × Record Rat))
    (hes : ∀ t r, (t, r) ∈ es ↔ (∃ d, lastFor s.ds h t = some d ∧ r = partRecord s.fl d) ∧ Included s.o t) : Bridge s h es := by
  refine ⟨?_, ?_, ?_, ?_⟩
  · rintro ⟨t, r⟩ he w hc
    obtain ⟨⟨d, hl, rfl⟩, _⟩ := (hes t r).1 he
    obtain ⟨x, e, a, b, _⟩ := (facts_of s hl w).2 hc
    exact ⟨x, e, a, b⟩
  · rintro hb ⟨t, r⟩ he w hc
    obtain ⟨⟨d, hl, rfl⟩, hi⟩ := (hes t r).1 he
    obtain ⟨x, e, a, b, c⟩ := (facts_of s hl w).2 hc
    exact ⟨x, e, c fun h' d' hl' => hb t ⟨⟨d, hl⟩, hi⟩ w h' d d' hl hl', b⟩
  · unfold EachTest
    refine and_congr ?_ ?_
    · constructor
      · intro hne
        obtain ⟨⟨t, r⟩, he⟩ := List.exists_mem_of_ne_nil _ hne
        obtain ⟨⟨d, hl, _⟩, hi⟩ := (hes t r).1 he
        exact ⟨t, ⟨d, hl⟩, hi⟩
      · rintro ⟨t, ⟨d, hl⟩, hi⟩ rfl
        have := (hes t _).2 ⟨⟨d, hl, rfl⟩, hi⟩
        cases this
    · constructor
      · rintro hs t ⟨⟨d, hl⟩, hi⟩
        obtain ⟨w, hc, hp⟩ := hs _ ((hes t _).2 ⟨⟨d, hl, rfl⟩, hi⟩)
        exact ⟨w, (facts_of s hl w).1.1 hc, hp⟩
      · rintro hs ⟨t, r⟩ he
        obtain ⟨⟨d, hl, _⟩, hi⟩ := (hes t r).1 he
        obtain ⟨w, hw, hp⟩ := hs t ⟨⟨d, hl⟩, hi⟩
        exact ⟨w, (facts_of s hl w).1.2 hw, hp⟩
  · unfold EachMeasure
    refine and_congr ?_ ?_
    · unfold allWeights
      constructor
      · intro hp
        by_contra hc
        push Not at hc
        have := hc .nanoseconds; have := hc .allocBytes; have := hc .allocations
        omega
      · rintro ⟨w, hw⟩
        cases w <;> omega
    · unfold Covers
      refine forall_congr' fun w => ?_
      constructor
      · rintro ⟨⟨t, r⟩, he, hc⟩
        obtain ⟨⟨d, hl, _⟩, hi⟩ := (hes t r).1 he
        exact ⟨t, ⟨⟨d, hl⟩, hi⟩, (facts_of s hl w).1.1 hc⟩
      · rintro ⟨t, ⟨⟨d, hl⟩, hi⟩, hd⟩
        exact ⟨_, (hes t _).2 ⟨⟨d, hl, rfl⟩, hi⟩, (facts_of s hl w).1.2 hd⟩

/-! ### C42 -/

/-- A score: not a number, or a percentage up to `k` roundings, which is 100 up to them
when it should be. -/
def Percentage (R : Rounding) (k : Nat) (best : Prop) (v : Val) : Prop :=
  v = .nan ∨ ∃ q, v = .fin q ∧ 0 ≤ q ∧ q ≤ 100 * R.p ^ k ∧ (best → 100 * R.d ^ k ≤ q)

/-- What holds of C42, however numbers are rounded. Scores of the handlers that were
benchmarked, and of no others, are calculated without a panic. A score is a percentage,
and 100 for a handler that nothing is better than, up to rounding, or not a number. The
score by tests is a number exactly if each test asked for that the handler ran tells
handlers apart by a measure that has weight; the score by measures exactly if by each
measure some of them tells handlers apart, and some measure has weight; the default
exactly if both are. -/
theorem C42_partial (s : Setting) : ∃ m, s.result = some m ∧
    (∀ h, (m.get h).isSome = true ↔ ∃ d ∈ s.ds, d.handler = h) ∧
    ∀ h hd, m.get h = some hd →
      (hd.scores.byTest ≠ .nan ↔ EachTest s.o s.ds h) ∧
      (hd.scores.byData ≠ .nan ↔ EachMeasure s.o s.ds h) ∧
      (hd.scores.default ≠ .nan ↔ EachTest s.o s.ds h ∧ EachMeasure s.o s.ds h) ∧
      ∀ v ∈ [hd.scores.byTest, hd.scores.byData, hd.scores.default],
        Percentage s.R (2 * s.ds.length + 12) (BestInAll s.o s.ds h) v := by
  obtain ⟨m, em, hm, hs⟩ := result_eq s
  refine ⟨m, em, hm, ?_⟩
  intro h hd hh
  obtain ⟨es, hes, hlen, e1, e2, e3, _⟩ := hs h hd hh
  have B := bridge s h es hes
  have hl : es.length ≤ 2 ^ 53 := hlen.trans s.few
  have hw : allWeights s.o.weights ≤ 2 ^ 53 := s.weights
  have hp2 : (0 : Rat) ≤ 100 * s.R.p ^ 2 := mul_nonneg (by norm_num) (pow_nonneg (by linarith [s.R.p_ge]) _)
  have hd2 : (0 : Rat) ≤ 100 * s.R.d ^ 2 := mul_nonneg (by norm_num) (pow_nonneg s.R.d_pos.le _)
  have n1 := byTest_nan s.R s.o.weights s.rng hl hw (le_refl 0) hp2 B.within
  have n2 := byData_nan s.R s.o.weights s.rng hl hw (le_refl 0) hp2 B.within
  have n3 := default_nan s.R s.o.weights s.rng hl hw (le_refl 0) hp2 B.within
  rw [B.each] at n1
  rw [B.covers] at n2
  have up : ∀ {k : Nat} {q : Rat}, k ≤ 2 * es.length + 10 → q ≤ 100 * s.R.p ^ 2 * s.R.p ^ k → q ≤ 100 * s.R.p ^ (2 * s.ds.length + 12) := by
    intro k q hk hq
    refine hq.trans ?_
    rw [mul_assoc, ← pow_add]
    exact mul_le_mul_of_nonneg_left (pow_up s.R (by omega)) (by norm_num)
  have down : ∀ {k : Nat} {q : Rat}, k ≤ 2 * es.length + 10 → 100 * s.R.d ^ 2 * s.R.d ^ k ≤ q → 100 * s.R.d ^ (2 * s.ds.length + 12) ≤ q := by
    intro k q hk hq
    refine le_trans ?_ hq
    rw [mul_assoc, ← pow_add]
    exact mul_le_mul_of_nonneg_left (pow_down s.R (by omega)) (by norm_num)
  have inj : ∀ {a b : Rat}, Val.fin a = Val.fin b → a = b := fun h => by injection h
  refine ⟨?_, ?_, ?_, ?_⟩
  · rw [e1, Ne, n1, not_not]
  · rw [e2, Ne, n2, not_not]
  · rw [e3, Ne, n3, not_or, n1, n2, not_not, not_not]
  · intro v hv
    simp only [List.mem_cons, List.not_mem_nil, or_false] at hv
    rcases hv with rfl | rfl | rfl
    · rw [e1]
      by_cases hc : EachTest s.o s.ds h
      · right
        obtain ⟨hne, hsay⟩ := B.each.2 hc
        obtain ⟨q, eq, a, b⟩ := byTest_bounds s.R s.o.weights s.rng hl hw (le_refl 0) hp2 B.within hne hsay
        refine ⟨q, eq, by simpa using a, up (by omega) b, fun hb => ?_⟩
        obtain ⟨q', eq', a', _⟩ := byTest_bounds s.R s.o.weights s.rng hl hw hd2 hp2 (B.best hb) hne hsay
        obtain rfl := inj (eq.symm.trans eq')
        exact down (by omega) a'
      · left; exact n1.2 hc
    · rw [e2]
      by_cases hc : EachMeasure s.o s.ds h
      · right
        obtain ⟨hne, hsay⟩ := B.covers.2 hc
        obtain ⟨q, eq, a, b⟩ := byData_bounds s.R s.o.weights s.rng hl hw (le_refl 0) hp2 B.within hne hsay
        refine ⟨q, eq, by simpa using a, up (by omega) b, fun hb => ?_⟩
        obtain ⟨q', eq', a', _⟩ := byData_bounds s.R s.o.weights s.rng hl hw hd2 hp2 (B.best hb) hne hsay
        obtain rfl := inj (eq.symm.trans eq')
        exact down (by omega) a'
      · left; exact n2.2 hc
    · rw [e3]
      by_cases hc : EachMeasure s.o s.ds h ∧ EachTest s.o s.ds h
      · right
        obtain ⟨hne, hsay⟩ := B.covers.2 hc.1
        obtain ⟨hne', hsay'⟩ := B.each.2 hc.2
        obtain ⟨q, eq, a, b⟩ := default_bounds s.R s.o.weights s.rng hl hw (le_refl 0) hp2 B.within hne hsay hne' hsay'
        refine ⟨q, eq, by simpa using a, up (by omega) b, fun hb => ?_⟩
        obtain ⟨q', eq', a', _⟩ := default_bounds s.R s.o.weights s.rng hl hw hd2 hp2 (B.best hb) hne hsay hne' hsay'
        obtain rfl := inj (eq.symm.trans eq')
        exact down (by omega) a'
      · left
        refine n3.2 ?_
        rcases not_and_or.1 hc with hc | hc
        · exact .inr (n2.2 hc)
        · exact .inl (n1.2 hc)

/-- Without rounding: percentages, and 100 for a handler that nothing is better than. -/
theorem C42_exact_partial (s : Setting) (hR : s.R = .exact) : ∃ m, s.result = some m ∧
    ∀ h hd, m.get h = some hd → ∀ v ∈ [hd.scores.byTest, hd.scores.byData, hd.scores.default],
      v = .nan ∨ ∃ q, v = .fin q ∧ 0 ≤ q ∧ q ≤ 100 ∧ (BestInAll s.o s.ds h → q = 100) := by
  obtain ⟨m, em, _, hs⟩ := C42_partial s
  refine ⟨m, em, fun h hd hh v hv => ?_⟩
  have hp : s.R.p = 1 := by rw [hR]; simp [Rounding.p, Rounding.exact]
  have hd' : s.R.d = 1 := by rw [hR]; simp [Rounding.d, Rounding.exact]
  rcases (hs h hd hh).2.2.2 v hv with hn | ⟨q, e, a, b, c⟩
  · exact .inl hn
  · rw [hp, one_pow, mul_one] at b
    rw [hd', one_pow, mul_one] at c
    exact .inr ⟨q, e, a, b, fun hb => le_antisymm b (c hb)⟩

/-! ### The original calculation -/

theorem terms_of (s : Setting) (h : Bytes) (es : List (Bytes × Record Rat))
    (hes : ∀ t r, (t, r) ∈ es ↔ (∃ d, lastFor s.ds h t = some d ∧ r = partRecord s.fl d) ∧ Included s.o t) :
    (∀ e ∈ es, TermWithin s.R 0 (100 * s.R.p ^ 3) (s.rng e.1) e.2) ∧
    (BestInAll s.o s.ds h → ∀ e ∈ es, TermWithin s.R (100 * s.R.d ^ 3) (100 * s.R.p ^ 3) (s.rng e.1) e.2) := by
  have key : ∀ t d, lastFor s.ds h t = some d → ∀ w, TermFacts s.R (s.rng t) (s.records t) (fullRecord s.fl d) w := by
    intro t d hl w
    have hok : ∀ r ∈ s.records t, OkRecord r := by
      intro r hr
      obtain ⟨h, d, hd, rfl⟩ := (mem_records s t r).1 hr
      have hm := (lastFor_mem hd).1
      exact ⟨s.nanos d hm, s.allocs d hm, s.bytes d hm⟩
    exact termFacts s.R hok ((mem_records s t _).2 ⟨h, d, hl, rfl⟩) w
  have conv : ∀ t d w W, origTerm s.R (s.rng t) (partRecord s.fl d) w W = origTerm s.R (s.rng t) (fullRecord s.fl d) w W := by
    intro t d w W; cases w <;> rfl
  constructor
  · rintro ⟨t, r⟩ he w W hW hc
    obtain ⟨⟨d, hl, rfl⟩, _⟩ := (hes t r).1 he
    obtain ⟨y, e, a, b, _⟩ := (key t d hl w).score W hW hc
    exact ⟨y, by rw [conv]; exact e, by simpa using a, b⟩
  · rintro hb ⟨t, r⟩ he w W hW hc
    obtain ⟨⟨d, hl, rfl⟩, hi⟩ := (hes t r).1 he
    obtain ⟨y, e, a, b, c⟩ := (key t d hl w).score W hW hc
    refine ⟨y, by rw [conv]; exact e, c ?_, b⟩
    intro r hr
    obtain ⟨h', d', hd', rfl⟩ := (mem_records s t r).1 hr
    rw [measured_full, measured_full]
    exact hb t ⟨⟨d, hl⟩, hi⟩ w h' d d' hl hd'

/-- The original score comes from a total. -/
theorem original_total (s : Setting) : ∃ m, s.result = some m ∧ ∀ h hd, m.get h = some hd →
    (¬ EachTest s.o s.ds h → hd.scores.original = .nan) ∧
    (EachTest s.o s.ds h → ∃ (T : Rat) (n : Nat), 0 < n ∧ n ≤ s.ds.length ∧
      hd.scores.original = .fin (s.R.rnd (s.R.rnd (s.R.rnd (roundAway (s.R.rnd (T * 1000000000))) / 1000000000) / n)) ∧
      0 ≤ T ∧ T ≤ 100 * s.R.p ^ (n + 7) * n ∧ (BestInAll s.o s.ds h → 100 * s.R.d ^ (n + 7) * n ≤ T)) := by
  obtain ⟨m, em, hm, hs⟩ := result_eq s
  refine ⟨m, em, ?_⟩
  intro h hd hh
  obtain ⟨es, hes, hlen, _, _, _, e4, _⟩ := hs h hd hh
  have B := bridge s h es hes
  obtain ⟨t1, t2⟩ := terms_of s h es hes
  have hl : es.length ≤ 2 ^ 53 := hlen.trans s.few
  have hw : allWeights s.o.weights ≤ 2 ^ 53 := s.weights
  have hp3 : (0 : Rat) ≤ 100 * s.R.p ^ 3 := mul_nonneg (by norm_num) (pow_nonneg (by linarith [s.R.p_ge]) _)
  have hd3 : (0 : Rat) ≤ 100 * s.R.d ^ 3 := mul_nonneg (by norm_num) (pow_nonneg s.R.d_pos.le _)
  constructor
  · intro hn
    rw [e4]
    rw [← B.each] at hn
    by_cases hne : es = []
    · subst hne
      have hz : roundAway 0 = 0 := by simpa using roundAway_nat 0
      simp [Original.score, Val.round, Val.mul, Val.div, Val.ofNat, s.R.zero, hz]
    · have : ∃ e ∈ es, ¬ Says s.R s.o.weights s.rng e := by
        by_contra hc; push Not at hc; exact hn ⟨hne, hc⟩
      exact score_nan s.R _ (total_nan s.R s.o.weights (le_refl 0) hp3 s.rng hw es {} t1 (.inr this))
  · intro hE
    obtain ⟨hne, hsay⟩ := B.each.2 hE
    obtain ⟨T, e1, e2, b1, b2⟩ := tests_sum s.R s.o.weights (le_refl 0) hp3 s.rng hw es {} 0 t1 hsay rfl (by simp) (by simp)
    simp only [Nat.zero_add] at e2 b1 b2
    have hpos : 0 < es.length := List.length_pos_of_ne_nil hne
    refine ⟨T, es.length, hpos, hlen, ?_, by simpa using b1, ?_, ?_⟩
    · rw [e4, score_fin s.R _ e1 (by rw [e2]; exact hpos) (by rw [e2]; exact hl), e2]
    · calc T ≤ _ := b2
        _ = _ := by ring
    · intro hb
      obtain ⟨T', e1', _, b1', _⟩ := tests_sum s.R s.o.weights hd3 hp3 s.rng hw es {} 0 (t2 hb) hsay rfl (by simp) (by simp)
      simp only [Nat.zero_add] at b1'
      rw [e1] at e1'
      injection e1' with e1'
      subst e1'
      calc _ = 100 * s.R.d ^ 3 * s.R.d ^ 4 * es.length * s.R.d ^ es.length := by ring
        _ ≤ _ := b1'

/-- What holds of C42 for the original score: it is a number exactly if the score by tests
is, and a percentage, and 100 for a handler that nothing is better than, up to rounding to
nine digits and the rounding of numbers. -/
theorem C42_original_partial (s : Setting) : ∃ m, s.result = some m ∧ ∀ h hd, m.get h = some hd →
    (hd.scores.original ≠ .nan ↔ EachTest s.o s.ds h) ∧
    (hd.scores.original = .nan ∨ ∃ q, hd.scores.original = .fin q ∧ 0 ≤ q ∧ q ≤ (100 + 1 / 1000000000) * s.R.p ^ (s.ds.length + 11) ∧
      (BestInAll s.o s.ds h → 100 * s.R.d ^ (s.ds.length + 11) - 1 / 1000000000 ≤ q)) := by
  obtain ⟨m, em, hs⟩ := original_total s
  refine ⟨m, em, ?_⟩
  intro h hd hh
  obtain ⟨h1, h2⟩ := hs h hd hh
  by_cases hE : EachTest s.o s.ds h
  · obtain ⟨T, n, hn, hlen, e, hT, hu, hl⟩ := h2 hE
    have hp := s.R.p_ge
    have hd := s.R.d_pos
    refine ⟨⟨fun _ => hE, fun _ => by rw [e]; simp⟩, .inr ⟨_, e, ?_, ?_, ?_⟩⟩
    · exact (score_bounds s.R hn (A := 0) (B := 100 * s.R.p ^ (n + 7)) (le_refl 0) (by simpa using hT) hu).1
    · refine (score_bounds s.R hn (A := 0) (B := 100 * s.R.p ^ (n + 7)) (le_refl 0) (by simpa using hT) hu).2.1.trans ?_
      have h1 : (1 : Rat) ≤ s.R.p ^ (n + 7) := one_le_pow₀ hp
      have h4 : (0 : Rat) ≤ s.R.p ^ 4 := pow_nonneg (by linarith) _
      calc _ ≤ (100 * s.R.p ^ (n + 7) + 1 / 1000000000 * s.R.p ^ (n + 7)) * s.R.p ^ 4 := mul_le_mul_of_nonneg_right (by linarith) h4
        _ = (100 + 1 / 1000000000) * s.R.p ^ (n + 11) := by ring
        _ ≤ _ := mul_le_mul_of_nonneg_left (pow_up s.R (by omega)) (by norm_num)
    · intro hb
      have hA : (0 : Rat) ≤ 100 * s.R.d ^ (n + 7) := mul_nonneg (by norm_num) (pow_nonneg hd.le _)
      refine le_trans ?_ (score_bounds s.R hn hA (hl hb) hu).2.2
      have : 100 * s.R.d ^ (s.ds.length + 11) ≤ 100 * s.R.d ^ (n + 11) := mul_le_mul_of_nonneg_left (pow_down s.R (by omega)) (by norm_num)
      have e' : 100 * s.R.d ^ (n + 7) * s.R.d ^ 4 = 100 * s.R.d ^ (n + 11) := by ring
      linarith
  · refine ⟨⟨fun hc => absurd (h1 hE) hc, fun hc => absurd hc hE⟩, .inl (h1 hE)⟩

/-- The original score without rounding of numbers (rounding to nine digits remains): a
percentage, and 100 for a handler that nothing is better than. -/
theorem C42_original_exact_partial (s : Setting) (hR : s.R = .exact) : ∃ m, s.result = some m ∧ ∀ h hd, m.get h = some hd →
    hd.scores.original = .nan ∨ ∃ q, hd.scores.original = .fin q ∧ 0 ≤ q ∧ q ≤ 100 ∧ (BestInAll s.o s.ds h → q = 100) := by
  obtain ⟨m, em, hs⟩ := original_total s
  refine ⟨m, em, ?_⟩
  intro h hd hh
  obtain ⟨h1, h2⟩ := hs h hd hh
  by_cases hE : EachTest s.o s.ds h
  · obtain ⟨T, n, hn, hlen, e, hT, hu, hl⟩ := h2 hE
    have hp : s.R.p = 1 := by rw [hR]; simp [Rounding.p, Rounding.exact]
    have hd' : s.R.d = 1 := by rw [hR]; simp [Rounding.d, Rounding.exact]
    have hid : ∀ x, s.R.rnd x = x := by intro x; rw [hR]; rfl
    rw [hp, one_pow, mul_one] at hu
    rw [hd', one_pow, mul_one] at hl
    simp only [hid] at e
    have hnp : (0 : Rat) < n := by exact_mod_cast hn
    have hq : (0 : Rat) ≤ T * 1000000000 := by positivity
    have hr : ((roundAway (T * 1000000000) : Int) : Rat) ≤ ((100 * n * 1000000000 : Nat) : Rat) := by
      have := roundAway_int_le (n := 100 * n * 1000000000) hq (by push_cast; linarith)
      exact_mod_cast this
    have h0 : (0 : Rat) ≤ roundAway (T * 1000000000) := by exact_mod_cast roundAway_nonneg hq
    refine .inr ⟨_, e, by positivity, ?_, ?_⟩
    · rw [div_le_iff₀ hnp, div_le_iff₀ (by norm_num)]
      push_cast at hr
      exact hr
    · intro hb
      have : T = 100 * n := le_antisymm hu (hl hb)
      have e' : T * 1000000000 = ((100 * n * 1000000000 : Nat) : Rat) := by rw [this]; push_cast; ring
      rw [e', roundAway_nat]
      push_cast
      field_simp
  · exact .inl (h1 hE)

/-- C42 as stated: scores are numbers exactly if one of the handler's tests tells handlers
apart. -/
def C42_statement : Prop :=
  ∀ s : Setting, (∀ w, 0 < s.o.weights w) → ∃ m, s.result = some m ∧ ∀ h hd, m.get h = some hd →
    ∀ v ∈ [hd.scores.byTest, hd.scores.byData, hd.scores.default],
      (v ≠ .nan ↔ ∃ t w, Ran s.o s.ds h t ∧ Distinguishes s.ds t w)

/-- One handler alone gets no scores. -/
theorem C42_alone (s : Setting) (h : Bytes) (hone : ∀ d ∈ s.ds, d.handler = h) : ∃ m, s.result = some m ∧
    ∀ hd, m.get h = some hd → hd.scores.byTest = .nan ∧ hd.scores.byData = .nan ∧ hd.scores.default = .nan := by
  have hno : ∀ t w, ¬ Distinguishes s.ds t w := by
    rintro t w ⟨a, b, d, d', hd, hd', hne⟩
    have e1 := hone d (lastFor_mem hd).1
    have e2 := hone d' (lastFor_mem hd').1
    rw [(lastFor_mem hd).2.1] at e1
    rw [(lastFor_mem hd').2.1] at e2
    subst e1; subst e2
    rw [hd] at hd'
    injection hd' with hd'
    exact hne (by rw [hd'])
  obtain ⟨m, em, _, hs⟩ := C42_partial s
  refine ⟨m, em, fun hd hh => ?_⟩
  obtain ⟨a, b, c, _⟩ := hs h hd hh
  have h1 : ¬ EachTest s.o s.ds h := by
    rintro ⟨⟨t, ht⟩, hall⟩
    obtain ⟨w, hw, _⟩ := hall t ht
    exact hno t w hw
  have h2 : ¬ EachMeasure s.o s.ds h := by
    rintro ⟨_, hall⟩
    obtain ⟨t, _, hw⟩ := hall .nanoseconds
    exact hno t _ hw
  refine ⟨?_, ?_, ?_⟩
  · by_contra hc; exact h1 (a.1 hc)
  · by_contra hc; exact h2 (b.1 hc)
  · by_contra hc; exact h1 (c.1 hc).1

/-! ### An example, where C42 fails -/

/-- Decimal numbers as `strconv.ParseFloat` reads them, if they have no fraction. -/
def whole : Floats Rat where
  parse s := (Slog.readNat s).map fun n => round64 n
  zero := 0
  kilo x := round64 (x / 1000)
  mega x := round64 (x / 1000000)

/-- A line for a handler, a test, and a time; 16 bytes and an allocation for 100 ns, else
32 and two. -/
def exampleLine (h t : UInt8) (n : Bytes) (rest : Bytes) : Bytes :=
  b!"Benchmark" ++ [h] ++ b!"/Benchmark" ++ [t] ++ b!"-" ++ b!"8" ++ b!" " ++ b!"7" ++ b!" " ++ n ++ b!" " ++ b!"ns/op" ++ rest

theorem exampleLine_data (h t : UInt8) (hh : isNot 0x2F h = true) (ht : isNot 0x2D t = true) {n rest : Bytes} (hn : Decimal n)
    (hr : wordStops rest = true) : DataLine (exampleLine h t n rest) [h] [t] b!"8" b!"7" n rest :=
  DataLine.mk ⟨by simp, by simpa⟩ ⟨by simp, by simpa⟩ ⟨by simp, by decide⟩ ⟨by simp, by decide⟩ ⟨by simp, by decide⟩ ⟨by simp, by decide⟩ hn
    ⟨by simp, by decide⟩ hr

/-- The text of a benchmark of the handlers A and B with the tests X and Y. -/
def exampleText : Bytes :=
  exampleLine 0x41 0x58 b!"100" b!" 16 B/op 1 allocs/op" ++ b!"\n" ++ exampleLine 0x42 0x58 b!"200" b!" 32 B/op 2 allocs/op" ++ b!"\n" ++
  exampleLine 0x41 0x59 b!"100" b!" 16 B/op 1 allocs/op" ++ b!"\n" ++ exampleLine 0x42 0x59 b!"100" b!" 16 B/op 1 allocs/op" ++ b!"\n"

/-- Its results. -/
def exampleData : List (Data Rat) :=
  [⟨b!"A", b!"X", 8, 7, 100, 1, 16, 0⟩, ⟨b!"B", b!"X", 8, 7, 200, 2, 32, 0⟩, ⟨b!"A", b!"Y", 8, 7, 100, 1, 16, 0⟩, ⟨b!"B", b!"Y", 8, 7, 100, 1, 16, 0⟩]

theorem example_read : History whole [exampleText] exampleData := by
  have hs : scanLines exampleText = [exampleLine 0x41 0x58 b!"100" b!" 16 B/op 1 allocs/op", exampleLine 0x42 0x58 b!"200" b!" 32 B/op 2 allocs/op",
      exampleLine 0x41 0x59 b!"100" b!" 16 B/op 1 allocs/op", exampleLine 0x42 0x59 b!"100" b!" 16 B/op 1 allocs/op"] := by decide +kernel
  have d1 : Decimal b!"100" := .inl ⟨by simp, by decide⟩
  have d2 : Decimal b!"200" := .inl ⟨by simp, by decide⟩
  have h : Reads whole (scanLines exampleText) exampleData [] false := by
    rw [hs]
    refine .data (exampleLine_data 0x41 0x58 (by decide) (by decide) d1 (by decide)) (by decide +kernel) (by decide +kernel) (by decide +kernel)
      (by decide +kernel) (by decide +kernel) (by decide +kernel) ?_
    refine .data (exampleLine_data 0x42 0x58 (by decide) (by decide) d2 (by decide)) (by decide +kernel) (by decide +kernel) (by decide +kernel)
      (by decide +kernel) (by decide +kernel) (by decide +kernel) ?_
    refine .data (exampleLine_data 0x41 0x59 (by decide) (by decide) d1 (by decide)) (by decide +kernel) (by decide +kernel) (by decide +kernel)
      (by decide +kernel) (by decide +kernel) (by decide +kernel) ?_
    refine .data (exampleLine_data 0x42 0x59 (by decide) (by decide) d1 (by decide)) (by decide +kernel) (by decide +kernel) (by decide +kernel)
      (by decide +kernel) (by decide +kernel) (by decide +kernel) .done
  exact .text h .none

/-- Scores for it, without the tests given. -/
def exampleSetting (S : Sorter) (excludes : List Bytes) : Setting where
  R := ieee
  S := S
  pick := id
  o := { weights := fun _ => 1, excludes := excludes }
  ordT _ m := m
  ordT' _ m := m
  ordH _ m := m
  E := ⟨Letters.asciiLib, fun _ => [], fun _ => none⟩
  fl := whole
  texts := [exampleText]
  ds := exampleData
  read := example_read
  pick_perm l := .refl l
  ordT_perm _ m := .refl m
  ordT'_perm _ m := .refl m
  ordH_perm _ m := .refl m
  nanos := by decide +kernel
  allocs := by decide +kernel
  bytes := by decide +kernel
  few := by decide
  weights := by show 1 + (1 + 1) ≤ 2 ^ 53; decide

/-- C42 is false: A and B differ in the test X, but not in the test Y; so there is no
score by tests, and no default. -/
theorem C42_fails : ¬ C42_statement := by
  intro hst
  obtain ⟨m, em, hs⟩ := hst (exampleSetting someSorter []) (fun _ => Nat.one_pos)
  obtain ⟨m', em', hk, hs'⟩ := C42_partial (exampleSetting someSorter [])
  rw [em] at em'
  injection em' with em'
  subst em'
  have hA : (m.get b!"A").isSome = true := (hk b!"A").2 ⟨⟨b!"A", b!"X", 8, 7, 100, 1, 16, 0⟩, by simp [exampleSetting, exampleData], rfl⟩
  obtain ⟨hd, hhd⟩ := Option.isSome_iff_exists.1 hA
  have h1 := (hs b!"A" hd hhd hd.scores.byTest (by simp)).2
    ⟨b!"Bench.X", .nanoseconds, ⟨⟨⟨b!"A", b!"X", 8, 7, 100, 1, 16, 0⟩, rfl⟩, by simp [Included, exampleSetting]⟩,
      b!"A", b!"B", ⟨b!"A", b!"X", 8, 7, 100, 1, 16, 0⟩, ⟨b!"B", b!"X", 8, 7, 200, 2, 32, 0⟩, rfl, rfl, by decide +kernel⟩
  have h2 := ((hs' b!"A" hd hhd).1.1 h1).2 b!"Bench.Y" ⟨⟨⟨b!"A", b!"Y", 8, 7, 100, 1, 16, 0⟩, rfl⟩, by simp [Included, exampleSetting]⟩
  obtain ⟨w, ⟨h, h', d, d', hd1, hd2, hne⟩, _⟩ := h2
  have key : ∀ d ∈ exampleData, tagOf d = b!"Bench.Y" → ∀ w, measure d w = measure ⟨b!"A", b!"Y", 8, 7, 100, 1, 16, 0⟩ w := by
    intro d hd ht w
    simp only [exampleData, List.mem_cons, List.not_mem_nil, or_false] at hd
    rcases hd with rfl | rfl | rfl | rfl
    · exact absurd ht (by decide)
    · exact absurd ht (by decide)
    · rfl
    · cases w <;> rfl
  exact hne ((key d (lastFor_mem hd1).1 (lastFor_mem hd1).2.2 w).trans (key d' (lastFor_mem hd2).1 (lastFor_mem hd2).2.2 w).symm)

/-- A case of `C42_partial`: without the test Y, the handler A has all scores, and they
are 100 up to rounding. -/
example : ∃ m hd, (exampleSetting someSorter [b!"Bench.Y"]).result = some m ∧ m.get b!"A" = some hd ∧
    ∀ v ∈ [hd.scores.byTest, hd.scores.byData, hd.scores.default], ∃ q, v = .fin q ∧ 100 * ieee.d ^ 20 ≤ q ∧ q ≤ 100 * ieee.p ^ 20 := by
  obtain ⟨m, em, hk, hs⟩ := C42_partial (exampleSetting someSorter [b!"Bench.Y"])
  have hA : (m.get b!"A").isSome = true := (hk b!"A").2 ⟨⟨b!"A", b!"X", 8, 7, 100, 1, 16, 0⟩, by simp [exampleSetting, exampleData], rfl⟩
  obtain ⟨hd, hhd⟩ := Option.isSome_iff_exists.1 hA
  refine ⟨m, hd, em, hhd, ?_⟩
  obtain ⟨a, b, c, e⟩ := hs b!"A" hd hhd
  have hd0 : ∀ w, Distinguishes exampleData b!"Bench.X" w := fun w =>
    ⟨b!"A", b!"B", ⟨b!"A", b!"X", 8, 7, 100, 1, 16, 0⟩, ⟨b!"B", b!"X", 8, 7, 200, 2, 32, 0⟩, rfl, rfl,
      by cases w <;> decide +kernel⟩
  have hran : ∀ t, Ran (exampleSetting someSorter [b!"Bench.Y"]).o exampleData b!"A" t → t = b!"Bench.X" := by
    rintro t ⟨⟨d, hl⟩, _, hne⟩
    obtain ⟨h1, _, h3⟩ := lastFor_mem hl
    simp only [exampleData, List.mem_cons, List.not_mem_nil, or_false] at h1
    rcases h1 with rfl | rfl | rfl | rfl
    · exact h3.symm
    · exact h3.symm
    · exact absurd (by rw [← h3]; simp [exampleSetting, tagOf]) hne
    · exact absurd (by rw [← h3]; simp [exampleSetting, tagOf]) hne
  have hX : Ran (exampleSetting someSorter [b!"Bench.Y"]).o exampleData b!"A" b!"Bench.X" :=
    ⟨⟨⟨b!"A", b!"X", 8, 7, 100, 1, 16, 0⟩, rfl⟩, by simp [Included, exampleSetting]⟩
  have hT : EachTest (exampleSetting someSorter [b!"Bench.Y"]).o exampleData b!"A" :=
    ⟨⟨_, hX⟩, fun t ht => ⟨.nanoseconds, by rw [hran t ht]; exact hd0 _, Nat.one_pos⟩⟩
  have hM : EachMeasure (exampleSetting someSorter [b!"Bench.Y"]).o exampleData b!"A" :=
    ⟨⟨.nanoseconds, Nat.one_pos⟩, fun w => ⟨_, hX, hd0 w⟩⟩
  have hB : BestInAll (exampleSetting someSorter [b!"Bench.Y"]).o exampleData b!"A" := by
    intro t ht w h' d d' hl hl'
    rw [hran t ht] at hl hl'
    have e1 : d = ⟨b!"A", b!"X", 8, 7, 100, 1, 16, 0⟩ := by
      have : lastFor exampleData b!"A" b!"Bench.X" = some ⟨b!"A", b!"X", 8, 7, 100, 1, 16, 0⟩ := rfl
      rw [this] at hl; injection hl with hl; exact hl.symm
    obtain ⟨h1, _, h3⟩ := lastFor_mem hl'
    subst e1
    simp only [exampleData, List.mem_cons, List.not_mem_nil, or_false] at h1
    rcases h1 with rfl | rfl | rfl | rfl
    · exact le_refl _
    · cases w <;> decide +kernel
    · exact absurd h3 (by decide)
    · exact absurd h3 (by decide)
  have nn : ∀ v ∈ [hd.scores.byTest, hd.scores.byData, hd.scores.default], v ≠ .nan := by
    intro v hv
    simp only [List.mem_cons, List.not_mem_nil, or_false] at hv
    rcases hv with rfl | rfl | rfl
    · exact a.2 hT
    · exact b.2 hM
    · exact c.2 ⟨hT, hM⟩
  intro v hv
  rcases e v hv with hn | ⟨q, e, _, h2, h3⟩
  · exact absurd hn (nn v hv)
  · exact ⟨q, e, h3 hB, h2⟩

/-- The results of the handler A alone. -/
def aloneData : List (Data Rat) := [⟨b!"A", b!"X", 8, 7, 100, 1, 16, 0⟩, ⟨b!"A", b!"Y", 8, 7, 150, 1, 16, 0⟩]

theorem alone_read : History whole [exampleLine 0x41 0x58 b!"100" b!" 16 B/op 1 allocs/op" ++ b!"\n" ++ exampleLine 0x41 0x59 b!"150" b!" 16 B/op 1 allocs/op"]
    aloneData := by
  have hs : scanLines (exampleLine 0x41 0x58 b!"100" b!" 16 B/op 1 allocs/op" ++ b!"\n" ++ exampleLine 0x41 0x59 b!"150" b!" 16 B/op 1 allocs/op") =
      [exampleLine 0x41 0x58 b!"100" b!" 16 B/op 1 allocs/op", exampleLine 0x41 0x59 b!"150" b!" 16 B/op 1 allocs/op"] := by decide +kernel
  have h : Reads whole (scanLines (exampleLine 0x41 0x58 b!"100" b!" 16 B/op 1 allocs/op" ++ b!"\n" ++ exampleLine 0x41 0x59 b!"150" b!" 16 B/op 1 allocs/op"))
      aloneData [] false := by
    rw [hs]
    refine .data (exampleLine_data 0x41 0x58 (by decide) (by decide) (.inl ⟨by simp, by decide⟩) (by decide)) (by decide +kernel) (by decide +kernel)
      (by decide +kernel) (by decide +kernel) (by decide +kernel) (by decide +kernel) ?_
    exact .data (exampleLine_data 0x41 0x59 (by decide) (by decide) (.inl ⟨by simp, by decide⟩) (by decide)) (by decide +kernel) (by decide +kernel)
      (by decide +kernel) (by decide +kernel) (by decide +kernel) (by decide +kernel) .done
  exact .text h .none

/-- Scores for it. -/
def aloneSetting (S : Sorter) : Setting := { exampleSetting S [] with
  texts := _, ds := aloneData, read := alone_read, nanos := by decide +kernel, allocs := by decide +kernel, bytes := by decide +kernel
  few := by decide, weights := by show 1 + (1 + 1) ≤ 2 ^ 53; decide }

/-- A case of `C42_alone`: the handler A alone is there, and has no scores. -/
example (S : Sorter) : ∃ m hd, (aloneSetting S).result = some m ∧ m.get b!"A" = some hd ∧ hd.scores.byTest = .nan ∧ hd.scores.default = .nan := by
  obtain ⟨m, em, hk, _⟩ := C42_partial (aloneSetting S)
  obtain ⟨m', em', ha⟩ := C42_alone (aloneSetting S) b!"A" (by show ∀ d ∈ aloneData, _; decide +kernel)
  rw [em] at em'
  injection em' with em'
  subst em'
  obtain ⟨hd, hhd⟩ := Option.isSome_iff_exists.1 ((hk b!"A").2 ⟨⟨b!"A", b!"X", 8, 7, 100, 1, 16, 0⟩, by simp [aloneSetting, aloneData], rfl⟩)
  exact ⟨m, hd, em, hhd, (ha hd hhd).1, (ha hd hhd).2.2⟩

end Verif.Props.BenchScore
