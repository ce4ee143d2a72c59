import Verif.Score.BenchLemmas

/-
The scores of one handler.
-/

set_option linter.unusedSimpArgs false

namespace Verif.Score
open Go Verif.Warning Verif.Data Verif.Props.ScoreRange Verif.Props.ScoreAverage

variable (R : Rounding) (weights : Weight → Nat)

/-- Whether a measure of a test counts. -/
def counts (g : Ranges) (w : Weight) : Bool := (g.length R w).isPos

/-- The score of a measure of a test. -/
def scoreIn (g : Ranges) (r : Record Rat) (w : Weight) : Val := g.ranged R w (itemValue R r w)

/-- The scores of a test, added. -/
def testSum (g : Ranges) (r : Record Rat) : Average :=
  weightOrder.foldl (fun a w => if counts R g w then a.addMultiple R (scoreIn R g r w) (weights w) else a) {}

theorem measures_fold (g : Ranges) (r : Record Rat) (test : Bytes) : ∀ (ws : List Weight) (hd : HandlerData),
    ws.Nodup →
    let hd' := ws.foldl (fun hd w =>
      if (g.length R w).isPos then
        let ranged := g.ranged R w (itemValue R r w)
        { hd with
          byTest := hd.byTest.set test ((hd.test test).addMultiple R ranged (weights w))
          sub := fun w' => if w' = w then (hd.sub w).add R ranged else hd.sub w' }
      else hd) hd
    hd'.overTests = hd.overTests ∧ hd'.overData = hd.overData ∧ hd'.scores = hd.scores ∧
    (∀ t, hd'.test t = if t = test then
      ws.foldl (fun a w => if counts R g w then a.addMultiple R (scoreIn R g r w) (weights w) else a) (hd.test test) else hd.test t) ∧
    (∀ w, hd'.sub w = if w ∈ ws ∧ counts R g w then (hd.sub w).add R (scoreIn R g r w) else hd.sub w) := by
  intro ws
  induction ws with
  | nil =>
    intro hd _
    refine ⟨rfl, rfl, rfl, ?_, ?_⟩
    · intro t
      by_cases h : t = test
      · subst h; simp
      · simp [h]
    · intro w; simp
  | cons w ws ih =>
    intro hd hn
    rw [List.nodup_cons] at hn
    by_cases hc : (g.length R w).isPos = true
    · have hc' : counts R g w = true := hc
      obtain ⟨a, b, c, d, e⟩ := ih { hd with
          byTest := hd.byTest.set test ((hd.test test).addMultiple R (g.ranged R w (itemValue R r w)) (weights w))
          sub := fun w' => if w' = w then (hd.sub w).add R (g.ranged R w (itemValue R r w)) else hd.sub w' } hn.2
      have ht : ∀ t, (HandlerData.test { hd with
          byTest := hd.byTest.set test ((hd.test test).addMultiple R (g.ranged R w (itemValue R r w)) (weights w))
          sub := fun w' => if w' = w then (hd.sub w).add R (g.ranged R w (itemValue R r w)) else hd.sub w' } t) =
            if t = test then (hd.test test).addMultiple R (g.ranged R w (itemValue R r w)) (weights w) else hd.test t := by
        intro t
        unfold HandlerData.test
        simp only [Map.get_set]
        by_cases h : t = test <;> simp [h]
      simp only [List.foldl_cons, hc, if_true, hc']
      refine ⟨a, b, c, ?_, ?_⟩
      · intro t
        rw [d t, ht, ht]
        by_cases h : t = test
        · simp only [h, if_true]; rfl
        · simp only [h, if_false]
      · intro w'
        rw [e w']
        by_cases h : w' = w
        · subst h
          simp [hn.1, hc', scoreIn]
        · simp [h]
    · have hc' : counts R g w = false := by simpa [counts] using hc
      obtain ⟨a, b, c, d, e⟩ := ih hd hn.2
      simp only [List.foldl_cons, hc, if_false, hc', Bool.false_eq_true]
      refine ⟨a, b, c, d, ?_⟩
      intro w'
      rw [e w']
      by_cases h : w' = w
      · subst h; simp [hc']
      · simp [h]

theorem mem_order (w : Weight) : w ∈ weightOrder := by cases w <;> decide

theorem measures_eq (g : Ranges) (r : Record Rat) (test : Bytes) (hd : HandlerData) (hf : hd.test test = {}) :
    let hd' := measures R weights g r test hd
    hd'.overTests = hd.overTests ∧ hd'.overData = hd.overData ∧ hd'.scores = hd.scores ∧
    (∀ t, hd'.test t = if t = test then testSum R weights g r else hd.test t) ∧
    (∀ w, hd'.sub w = if counts R g w then (hd.sub w).add R (scoreIn R g r w) else hd.sub w) := by
  obtain ⟨a, b, c, d, e⟩ := measures_fold R weights g r test weightOrder hd (by decide)
  refine ⟨a, b, c, ?_, ?_⟩
  · intro t
    refine (d t).trans ?_
    rw [hf]; rfl
  · intro w
    refine (e w).trans ?_
    simp [mem_order w]

/-- The sum over tests. -/
def overTests (rng : Bytes → Ranges) (es : List (Bytes × Record Rat)) : Average :=
  es.foldl (fun a e => a.add R ((testSum R weights (rng e.1) e.2).average R)) {}

/-- The sum for a measure. -/
def subSum (rng : Bytes → Ranges) (w : Weight) (es : List (Bytes × Record Rat)) : Average :=
  es.foldl (fun a e => if counts R (rng e.1) w then a.add R (scoreIn R (rng e.1) e.2 w) else a) {}

theorem tests_fold (tags : Map Bytes Bool) (ranges original : Map Bytes Ranges) (rng : Bytes → Ranges) :
    ∀ (es : List (Bytes × Record Rat)) (hd : HandlerData) (o : Original), (es.map Prod.fst).Nodup →
    (∀ e ∈ es, isTrue tags e.1 = true → ranges.get e.1 = some (rng e.1) ∧ original.get e.1 = some (rng e.1)) → (∀ e ∈ es, hd.test e.1 = {}) →
    ∃ hd', es.foldl (oneTest R weights tags ranges original) (some (hd, o)) =
        some (hd', (es.filter fun e => isTrue tags e.1).foldl (fun o e => o.handlerTest R weights (rng e.1) e.2) o) ∧
      hd'.overTests = (es.filter fun e => isTrue tags e.1).foldl (fun a e => a.add R ((testSum R weights (rng e.1) e.2).average R)) hd.overTests ∧
      hd'.overData = hd.overData ∧
      (∀ w, hd'.sub w = (es.filter fun e => isTrue tags e.1).foldl
        (fun a e => if counts R (rng e.1) w then a.add R (scoreIn R (rng e.1) e.2 w) else a) (hd.sub w)) ∧
      (∀ t, (∀ e ∈ es, e.1 ≠ t) → hd'.test t = hd.test t) ∧
      (∀ e ∈ es, isTrue tags e.1 = true → hd'.test e.1 = testSum R weights (rng e.1) e.2) := by
  intro es
  induction es with
  | nil => intro hd o _ _ _; exact ⟨hd, rfl, rfl, rfl, fun _ => rfl, fun _ _ => rfl, fun e he => nomatch he⟩
  | cons e es ih =>
    intro hd o hn hr hf
    rw [List.map_cons, List.nodup_cons] at hn
    have hne : ∀ e' ∈ es, e'.1 ≠ e.1 := fun e' he' h => hn.1 (h ▸ List.mem_map_of_mem he')
    by_cases ht : isTrue tags e.1 = true
    · obtain ⟨r1, r2⟩ := hr e (by simp) ht
      obtain ⟨a, b, c, d, s⟩ := measures_eq R weights (rng e.1) e.2 e.1 hd (hf e (by simp))
      have d1 := d e.1
      simp only [if_true] at d1
      obtain ⟨hd', q1, q2, q3, q4, q5, q6⟩ := ih { measures R weights (rng e.1) e.2 e.1 hd with
          overTests := (measures R weights (rng e.1) e.2 e.1 hd).overTests.add R (((measures R weights (rng e.1) e.2 e.1 hd).test e.1).average R)
          byTest := (measures R weights (rng e.1) e.2 e.1 hd).byTest.set e.1 ((measures R weights (rng e.1) e.2 e.1 hd).test e.1) }
        (o.handlerTest R weights (rng e.1) e.2) hn.2
        (fun e' he' h => hr e' (by simp [he']) h) (by
          intro e' he'
          have := d e'.1
          rw [if_neg (hne e' he')] at this
          unfold HandlerData.test at this ⊢
          simp only [Map.get_set, if_neg (hne e' he')]
          rw [this]
          exact hf e' (by simp [he']))
      refine ⟨hd', ?_, ?_, ?_, ?_, ?_, ?_⟩
      · rw [List.foldl_cons]
        rw [List.filter_cons, if_pos ht, List.foldl_cons, ← q1]
        congr 1
        unfold oneTest
        simp only [ht, if_true, r1, r2]
      · rw [q2, List.filter_cons, if_pos ht, List.foldl_cons, a, d1]
      · rw [q3]; exact b
      · intro w
        rw [q4 w, List.filter_cons, if_pos ht, List.foldl_cons]
        rw [show (measures R weights (rng e.1) e.2 e.1 hd).sub w = _ from s w]
      · intro t hnt
        rw [q5 t fun e' he' => hnt e' (by simp [he'])]
        have h1 : t ≠ e.1 := fun h => hnt e (by simp) h.symm
        have := d t
        rw [if_neg h1] at this
        unfold HandlerData.test at this ⊢
        simp only [Map.get_set, if_neg h1]
        exact this
      · intro e' he' h'
        rcases List.mem_cons.1 he' with rfl | he'
        · rw [q5 e'.1 (fun x hx => hne x hx)]
          unfold HandlerData.test
          simp only [Map.get_set, if_true, Option.getD_some]
          exact d1
        · exact q6 e' he' h'
    · obtain ⟨hd', q1, q2, q3, q4, q5, q6⟩ := ih hd o hn.2 (fun e' he' h => hr e' (by simp [he']) h) (fun e' he' => hf e' (by simp [he']))
      refine ⟨hd', ?_, ?_, q3, ?_, ?_, ?_⟩
      · rw [List.foldl_cons]
        have : oneTest R weights tags ranges original (some (hd, o)) e = some (hd, o) := by
          unfold oneTest
          simp only [ht, if_false, Bool.false_eq_true]
        rw [this, q1, List.filter_cons, if_neg ht]
      · rw [q2, List.filter_cons, if_neg ht]
      · intro w
        rw [q4 w, List.filter_cons, if_neg ht]
      · intro t hnt
        exact q5 t fun e' he' => hnt e' (by simp [he'])
      · intro e' he' h'
        rcases List.mem_cons.1 he' with rfl | he'
        · exact absurd h' ht
        · exact q6 e' he' h'

/-- The sum over measures. -/
def overData (rng : Bytes → Ranges) (es : List (Bytes × Record Rat)) : Average :=
  weightOrder.foldl (fun a w => a.addMultiple R ((subSum R rng w es).average R) (weights w)) {}

theorem data_fold (f : Weight → Average) : ∀ (ws : List Weight) (hd : HandlerData), hd.sub = f →
    ws.foldl (fun hd w => { hd with overData := hd.overData.addMultiple R ((hd.sub w).average R) (weights w) }) hd =
      { hd with overData := ws.foldl (fun a w => a.addMultiple R ((f w).average R) (weights w)) hd.overData } := by
  intro ws
  induction ws with
  | nil => intro hd _; rfl
  | cons w ws ih =>
    intro hd h
    rw [List.foldl_cons, ih _ (by exact h)]
    simp only [List.foldl_cons, h]

/-- A loop over measures makes no average but that of its test. -/
theorem measures_dom (g : Ranges) (r : Record Rat) (test : Bytes) (hd : HandlerData) {t : Bytes} (h : t ≠ test) :
    (measures R weights g r test hd).byTest.get t = hd.byTest.get t := by
  unfold measures
  generalize weightOrder = ws
  induction ws generalizing hd with
  | nil => rfl
  | cons w ws ih =>
    rw [List.foldl_cons, ih]
    split
    · simp only [Map.get_set, if_neg h]
    · rfl

/-- The loop over tests makes averages for the tests that count. -/
theorem tests_dom (tags : Map Bytes Bool) (ranges original : Map Bytes Ranges) : ∀ (es : List (Bytes × Record Rat)) (st : HandlerData × Original)
    (hd' : HandlerData) (o' : Original), es.foldl (oneTest R weights tags ranges original) (some st) = some (hd', o') →
    ∀ t, (hd'.byTest.get t).isSome = true ↔ (st.1.byTest.get t).isSome = true ∨ ∃ e ∈ es, isTrue tags e.1 = true ∧ e.1 = t := by
  have hnone : ∀ es : List (Bytes × Record Rat), es.foldl (oneTest R weights tags ranges original) none = none := by
    intro es
    induction es with
    | nil => rfl
    | cons e es ih => exact ih
  intro es
  induction es with
  | nil =>
    intro st hd' o' h t
    simp only [List.foldl_nil, Option.some.injEq] at h
    subst h
    simp
  | cons e es ih =>
    intro st hd' o' h t
    rw [List.foldl_cons] at h
    obtain ⟨x, hx⟩ : ∃ x, x = oneTest R weights tags ranges original (some st) e := ⟨_, rfl⟩
    rw [← hx] at h
    cases x with
    | none => rw [hnone] at h; cases h
    | some st' =>
      rw [ih st' hd' o' h t]
      unfold oneTest at hx
      dsimp only at hx
      by_cases ht : isTrue tags e.1 = true
      · rw [if_pos ht] at hx
        split at hx
        · simp only [Option.some.injEq] at hx
          subst hx
          simp only [Map.get_set, List.mem_cons]
          by_cases h1 : t = e.1
          · subst h1
            simp only [if_true, Option.isSome_some, true_or, true_iff]
            exact .inr ⟨e, .inl rfl, ht, rfl⟩
          · rw [if_neg h1, measures_dom R weights _ _ _ _ h1]
            refine or_congr Iff.rfl ⟨fun ⟨e', a, b⟩ => ⟨e', .inr a, b⟩, ?_⟩
            rintro ⟨e', rfl | a, b⟩
            · exact absurd b.2.symm h1
            · exact ⟨e', a, b⟩
        · cases hx
      · rw [if_neg ht] at hx
        simp only [Option.some.injEq] at hx
        subst hx
        refine or_congr Iff.rfl ⟨fun ⟨e', a, b⟩ => ⟨e', List.mem_cons_of_mem _ a, b⟩, ?_⟩
        rintro ⟨e', a, b⟩
        rcases List.mem_cons.1 a with rfl | a
        · exact absurd b.1 ht
        · exact ⟨e', a, b⟩

/-- What a handler gets. -/
theorem handler_eq (tags : Map Bytes Bool) (ranges original : Map Bytes Ranges) (rng : Bytes → Ranges) (es : List (Bytes × Record Rat))
    (hn : (es.map Prod.fst).Nodup)
    (hr : ∀ e ∈ es, isTrue tags e.1 = true → ranges.get e.1 = some (rng e.1) ∧ original.get e.1 = some (rng e.1)) :
    ∃ hd, oneHandler R weights tags ranges original {} es = some hd ∧
      hd.scores.byTest = (overTests R weights rng (es.filter fun e => isTrue tags e.1)).average R ∧
      hd.scores.byData = (overData R weights rng (es.filter fun e => isTrue tags e.1)).average R ∧
      hd.scores.default = Val.div R (Val.add R ((overData R weights rng (es.filter fun e => isTrue tags e.1)).average R)
        ((overTests R weights rng (es.filter fun e => isTrue tags e.1)).average R)) (.fin 2) ∧
      hd.scores.original =
        ((es.filter fun e => isTrue tags e.1).foldl (fun o e => o.handlerTest R weights (rng e.1) e.2) ({} : Original)).score R ∧
      (∀ e ∈ es, isTrue tags e.1 = true → hd.test e.1 = testSum R weights (rng e.1) e.2) ∧
      (∀ t, (hd.byTest.get t).isSome = true ↔ ∃ e ∈ es, isTrue tags e.1 = true ∧ e.1 = t) := by
  obtain ⟨hd', q1, q2, q3, q4, q5, q6⟩ := tests_fold R weights tags ranges original rng es {} {} hn hr (fun _ _ => rfl)
  have q7 := tests_dom R weights tags ranges original es _ _ _ q1
  have hsub : hd'.sub = fun w => subSum R rng w (es.filter fun e => isTrue tags e.1) := funext q4
  obtain ⟨o, ho⟩ : ∃ o, o = (es.filter fun e => isTrue tags e.1).foldl (fun o e => o.handlerTest R weights (rng e.1) e.2) ({} : Original) := ⟨_, rfl⟩
  rw [← ho] at q1 ⊢
  have key := data_fold R weights (fun w => subSum R rng w (es.filter fun e => isTrue tags e.1)) weightOrder
    { hd' with scores.original := o.score R, scores.byTest := hd'.overTests.average R } hsub
  unfold oneHandler
  rw [q1]
  simp only at key ⊢
  rw [key]
  refine ⟨_, rfl, ?_, ?_, ?_, rfl, q6, fun t => (q7 t).trans (by simp [Map.get_nil])⟩
  · show hd'.overTests.average R = _
    rw [q2]; rfl
  · show Average.average R _ = _
    rw [q3]; rfl
  · show Val.div R (Val.add R (Average.average R _) (Average.average R hd'.overTests)) _ = _
    rw [q2, q3]; rfl

end Verif.Score
