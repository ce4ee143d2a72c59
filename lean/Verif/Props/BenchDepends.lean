import Verif.Props.BenchScore
import Verif.Score.Filter

/-
C88: what benchmark scores depend on.
-/

namespace Verif.Props.BenchDepends

open Verif Verif.Go Verif.Data Verif.Score Verif.Props.BenchData Verif.Props.BenchScore

/-! ### What is looked at -/

/-- The numbers of a result that scores are made of: time, bytes and allocations. -/
def numbers (d : Data Rat) : Rat × Nat × Nat := (d.nsOps, d.bytesOp, d.allocsOp)

/-- Two lists of results have the same last numbers, for the tests that are asked for. -/
def SameIn (o : AxisOptions) (ds ds' : List (Data Rat)) : Prop :=
  ∀ h t, Included o t → (lastFor ds h t).map numbers = (lastFor ds' h t).map numbers

/-- A record with these numbers only. -/
def bareRecord (n : Rat × Nat × Nat) : Record Rat := ⟨0, n.1, n.2.1, n.2.2, 0, 0, 0⟩

/-- The numbers of a record. -/
def core (r : Record Rat) : Rat × Nat × Nat := (r.nanosPerOp, r.memBytesPerOp, r.memAllocsPerOp)

theorem scoreIn_core (R : Rounding) (g : Ranges) (r : Record Rat) (w : Weight) : scoreIn R g r w = scoreIn R g (bareRecord (core r)) w := by
  cases w <;> rfl

theorem testSum_core (R : Rounding) (W : Weight → Nat) (g : Ranges) (r : Record Rat) : testSum R W g r = testSum R W g (bareRecord (core r)) := by
  unfold testSum
  simp only [← scoreIn_core]

/-! ### The range of a test -/

theorem perm_of_keys {α : Type} {l l' : List (Bytes × α)} (h : (l.map Prod.fst).Nodup) (h' : (l'.map Prod.fst).Nodup)
    (hm : ∀ k a, (k, a) ∈ l ↔ (k, a) ∈ l') : l.Perm l' := by
  rw [List.perm_ext_iff_of_nodup (List.Nodup.of_map _ h) (List.Nodup.of_map _ h')]
  rintro ⟨k, a⟩
  exact hm k a

theorem map_core_keys (l : List (Bytes × Record Rat)) : ((l.map fun e => (e.1, core e.2)).map Prod.fst) = l.map Prod.fst := by
  rw [List.map_map]; rfl

/-- The last numbers of the handlers for a test. -/
theorem mem_numbers (s : Setting) (t h : Bytes) (n : Rat × Nat × Nat) :
    (h, n) ∈ (s.ordT t ((readAll s.E s.fl s.texts).handlerRecordsFor t)).map (fun e => (e.1, core e.2)) ↔
      (lastFor s.ds h t).map numbers = some n := by
  rw [List.mem_map]
  constructor
  · rintro ⟨⟨h', r⟩, hm, e⟩
    obtain ⟨rfl, rfl⟩ := Prod.ext_iff.1 e
    dsimp only
    have := (mem_perm (records_nodup (E := s.E) s.read t).1 (s.ordT_perm t _) h' r).1 hm
    rw [(records_get (E := s.E) s.read h' t).1, Option.map_eq_some_iff] at this
    obtain ⟨d, hd, rfl⟩ := this
    rw [hd]; rfl
  · intro hn
    obtain ⟨d, hd, rfl⟩ := Option.map_eq_some_iff.1 hn
    refine ⟨(h, fullRecord s.fl d), (mem_perm (records_nodup (E := s.E) s.read t).1 (s.ordT_perm t _) h _).2 ?_, rfl⟩
    rw [(records_get (E := s.E) s.read h t).1, hd]; rfl

/-- The numbers of the tests of a handler. -/
theorem mem_tests (s : Setting) (h t : Bytes) (n : Rat × Nat × Nat) :
    (t, n) ∈ (s.entries h).map (fun e => (e.1, core e.2)) ↔ (lastFor s.ds h t).map numbers = some n := by
  rw [List.mem_map]
  constructor
  · rintro ⟨⟨t', r⟩, hm, e⟩
    cases e
    obtain ⟨d, hd, rfl⟩ := (mem_entries s h t' r).1 hm
    rw [hd]; rfl
  · intro hn
    obtain ⟨d, hd, rfl⟩ := Option.map_eq_some_iff.1 hn
    exact ⟨(t, partRecord s.fl d), (mem_entries s h t _).2 ⟨d, hd, rfl⟩, rfl⟩

theorem rng_numbers (s : Setting) (t : Bytes) :
    s.rng t = (((s.ordT t ((readAll s.E s.fl s.texts).handlerRecordsFor t)).map (fun e => (e.1, core e.2))).map
      fun e => bareRecord e.2).foldl Ranges.add {} := by
  unfold Setting.rng Setting.records
  rw [List.map_map, List.foldl_map, List.foldl_map]
  rfl

/-- The range of a test comes from the last numbers. -/
theorem rng_same (s s' : Setting) (t : Bytes) (h : ∀ h, (lastFor s.ds h t).map numbers = (lastFor s'.ds h t).map numbers) :
    s.rng t = s'.rng t := by
  rw [rng_numbers, rng_numbers]
  have hk := fun s : Setting => ((s.ordT_perm t ((readAll s.E s.fl s.texts).handlerRecordsFor t)).map Prod.fst).nodup_iff.2
    (records_nodup (E := s.E) s.read t).1
  have hp := perm_of_keys (by rw [map_core_keys]; exact hk s) (by rw [map_core_keys]; exact hk s')
    fun k a => by rw [mem_numbers, mem_numbers, h k]
  exact (hp.map fun e => bareRecord e.2).foldl_eq (f := Ranges.add) _

/-! ### Scores from ranges and numbers -/

/-- What a score is made of: the range of each test, and the numbers of the handler. -/
def parts (s : Setting) (es : List (Bytes × Record Rat)) : List (Bytes × Ranges × Rat × Nat × Nat) := es.map fun e => (e.1, s.rng e.1, core e.2)

/-- The score by tests, of such parts. -/
def byTestOf (R : Rounding) (W : Weight → Nat) (ps : List (Bytes × Ranges × Rat × Nat × Nat)) : Val :=
  (ps.foldl (fun (a : Average) p => a.add R ((testSum R W p.2.1 (bareRecord p.2.2)).average R)) {}).average R

/-- The sum for a measure. -/
def subOf (R : Rounding) (w : Weight) (ps : List (Bytes × Ranges × Rat × Nat × Nat)) : Average :=
  ps.foldl (fun (a : Average) p => if counts R p.2.1 w then a.add R (scoreIn R p.2.1 (bareRecord p.2.2) w) else a) {}

/-- The score over measures. -/
def byDataOf (R : Rounding) (W : Weight → Nat) (ps : List (Bytes × Ranges × Rat × Nat × Nat)) : Val :=
  (weightOrder.foldl (fun (a : Average) w => a.addMultiple R ((subOf R w ps).average R) (W w)) {}).average R

/-- The original score. -/
def originalOf (R : Rounding) (W : Weight → Nat) (ps : List (Bytes × Ranges × Rat × Nat × Nat)) : Val :=
  (ps.foldl (fun (o : Original) p => o.handlerTest R W p.2.1 (bareRecord p.2.2)) ({} : Original)).score R

/-- All of them. -/
def scoresOf (R : Rounding) (W : Weight → Nat) (ps : List (Bytes × Ranges × Rat × Nat × Nat)) : Scores where
  byTest := byTestOf R W ps
  byData := byDataOf R W ps
  default := Val.div R (Val.add R (byDataOf R W ps) (byTestOf R W ps)) (.fin 2)
  original := originalOf R W ps

theorem byTest_parts (s : Setting) (es : List (Bytes × Record Rat)) :
    scoreByTest s.R s.o.weights s.rng es = byTestOf s.R s.o.weights (parts s es) := by
  unfold scoreByTest overTests byTestOf parts
  rw [List.foldl_map]
  simp only [← testSum_core]

theorem byData_parts (s : Setting) (es : List (Bytes × Record Rat)) :
    scoreByData s.R s.o.weights s.rng es = byDataOf s.R s.o.weights (parts s es) := by
  have h : ∀ w, subSum s.R s.rng w es = subOf s.R w (parts s es) := by
    intro w
    unfold subSum subOf parts
    rw [List.foldl_map]
    simp only [← scoreIn_core]
  unfold scoreByData overData byDataOf
  simp only [h]

/-- The scores of a handler, from its parts. -/
theorem scores_parts (s : Setting) : ∃ m, s.result = some m ∧ (∀ h, (m.get h).isSome = true ↔ ∃ d ∈ s.ds, d.handler = h) ∧
    ∀ h hd, m.get h = some hd →
      hd.scores = scoresOf s.R s.o.weights (parts s ((s.entries h).filter fun e => included s.o e.1)) ∧
      ∀ t d, lastFor s.ds h t = some d → Included s.o t →
        hd.test t = testSum s.R s.o.weights (s.rng t) (bareRecord (numbers d)) := by
  obtain ⟨m, em, hm, hs⟩ := result_eq s
  refine ⟨m, em, hm, fun h hd hh => ?_⟩
  obtain ⟨es, hes, _, e1, e2, e3, e4, e5, ee, _⟩ := hs h hd hh
  rw [← ee]
  constructor
  · obtain ⟨a, b, c, d⟩ : ∃ x : Scores, x = hd.scores := ⟨_, rfl⟩
    have hsc : hd.scores = ⟨scoreDefault s.R s.o.weights s.rng es, scoreByData s.R s.o.weights s.rng es,
        (es.foldl (fun o e => o.handlerTest s.R s.o.weights (s.rng e.1) e.2) ({} : Original)).score s.R,
        scoreByTest s.R s.o.weights s.rng es⟩ := by
      rw [← e1, ← e2, ← e3, ← e4]
    rw [hsc]
    unfold scoresOf scoreDefault
    rw [byTest_parts, byData_parts]
    unfold originalOf parts
    rw [List.foldl_map]
    rfl
  · intro t d hl hi
    rw [e5 (t, partRecord s.fl d) ((hes _ _).2 ⟨⟨d, hl, rfl⟩, hi⟩), testSum_core]
    rfl

/-! ### Sums without rounding -/

theorem add_right (a b c : Val) : Val.add .exact (Val.add .exact a b) c = Val.add .exact (Val.add .exact a c) b := by
  rcases a with _ | (_ | _) | a <;> rcases b with _ | (_ | _) | b <;> rcases c with _ | (_ | _) | c <;> try rfl
  show Val.fin (a + b + c) = .fin (a + c + b)
  rw [add_right_comm]

/-- The sum of scores does not depend on their order. -/
theorem adds_perm {α : Type} (f : α → Option Val) {l l' : List α} (h : l.Perm l') (a : Average) :
    l.foldl (fun a x => match f x with | none => a | some v => a.add .exact v) a =
      l'.foldl (fun a x => match f x with | none => a | some v => a.add .exact v) a := by
  refine h.foldl_eq' (fun x _ y _ a => ?_) a
  cases hx : f x <;> cases hy : f y <;> simp only
  unfold Average.add
  rw [add_right]

/-- What a test adds to the original score. -/
def originalTerm (R : Rounding) (W : Weight → Nat) (p : Bytes × Ranges × Rat × Nat × Nat) : Val :=
  let o := ({} : Original).handlerTest R W p.2.1 (bareRecord p.2.2)
  Val.div R o.collect (Val.ofNat R o.count)

theorem part_total (R : Rounding) (w : Nat) (a b : Val) (o : Original) :
    (o.part R w a b).total = o.total ∧ (o.part R w a b).tests = o.tests := by
  unfold Original.part; split <;> exact ⟨rfl, rfl⟩

theorem part_rest (R : Rounding) (w : Nat) (a b : Val) (o o' : Original) (h : o.collect = o'.collect) (h' : o.count = o'.count) :
    (o.part R w a b).collect = (o'.part R w a b).collect ∧ (o.part R w a b).count = (o'.part R w a b).count := by
  unfold Original.part
  split
  · simp only [h, h', and_self]
  · exact ⟨h, h'⟩

theorem handlerTest_total (R : Rounding) (W : Weight → Nat) (p : Bytes × Ranges × Rat × Nat × Nat) (o : Original) :
    (o.handlerTest R W p.2.1 (bareRecord p.2.2)).total = Val.add R o.total (originalTerm R W p) ∧
      (o.handlerTest R W p.2.1 (bareRecord p.2.2)).tests = o.tests + 1 := by
  unfold originalTerm Original.handlerTest
  dsimp only
  constructor
  · have h1 := fun (w : Nat) (a b : Val) (o o' : Original) h h' => part_rest R w a b o o' h h'
    rw [(part_total R _ _ _ _).1, (part_total R _ _ _ _).1, (part_total R _ _ _ _).1]
    dsimp only
    have a := h1 (W .allocations) (Val.ofNat R (usub p.2.1.allocs.high p.2.1.allocs.low))
      (Val.ofNat R (usub p.2.1.allocs.high (bareRecord p.2.2).memAllocsPerOp)) { o with collect := .fin 0, count := 0 } {} rfl rfl
    have b := h1 (W .allocBytes) (Val.ofNat R (usub p.2.1.bytes.high p.2.1.bytes.low))
      (Val.ofNat R (usub p.2.1.bytes.high (bareRecord p.2.2).memBytesPerOp)) _ _ a.1 a.2
    have c := h1 (W .nanoseconds) (Val.sub R (.fin p.2.1.nanos.high) (.fin p.2.1.nanos.low))
      (Val.sub R (.fin p.2.1.nanos.high) (.fin (bareRecord p.2.2).nanosPerOp)) _ _ b.1 b.2
    rw [c.1, c.2]
  · rw [(part_total R _ _ _ _).2, (part_total R _ _ _ _).2, (part_total R _ _ _ _).2]

theorem original_fold (R : Rounding) (W : Weight → Nat) : ∀ (ps : List (Bytes × Ranges × Rat × Nat × Nat)) (o : Original),
    (ps.foldl (fun (o : Original) p => o.handlerTest R W p.2.1 (bareRecord p.2.2)) o).total =
        (ps.map (originalTerm R W)).foldl (Val.add R) o.total ∧
      (ps.foldl (fun (o : Original) p => o.handlerTest R W p.2.1 (bareRecord p.2.2)) o).tests = o.tests + ps.length
  | [], o => ⟨rfl, rfl⟩
  | p :: ps, o => by
    have h := original_fold R W ps (o.handlerTest R W p.2.1 (bareRecord p.2.2))
    have e := handlerTest_total R W p o
    rw [List.foldl_cons, List.map_cons, List.foldl_cons, h.1, h.2, e.1, e.2, List.length_cons]
    exact ⟨rfl, by omega⟩

/-- Without rounding the scores do not depend on the order of the tests. -/
theorem scoresOf_perm (W : Weight → Nat) {ps ps' : List (Bytes × Ranges × Rat × Nat × Nat)} (h : ps.Perm ps') :
    scoresOf .exact W ps = scoresOf .exact W ps' := by
  have h1 : byTestOf .exact W ps = byTestOf .exact W ps' := by
    unfold byTestOf
    congr 1
    exact adds_perm (fun p : Bytes × Ranges × Rat × Nat × Nat => some ((testSum .exact W p.2.1 (bareRecord p.2.2)).average .exact)) h {}
  have h2 : byDataOf .exact W ps = byDataOf .exact W ps' := by
    have : ∀ w, subOf .exact w ps = subOf .exact w ps' := by
      intro w
      have := adds_perm (fun p : Bytes × Ranges × Rat × Nat × Nat =>
        if counts .exact p.2.1 w then some (scoreIn .exact p.2.1 (bareRecord p.2.2) w) else none) h {}
      have conv : ∀ ps : List (Bytes × Ranges × Rat × Nat × Nat), subOf .exact w ps = ps.foldl (fun a p =>
          match (if counts .exact p.2.1 w then some (scoreIn .exact p.2.1 (bareRecord p.2.2) w) else none) with
          | none => a
          | some v => a.add .exact v) {} := by
        intro ps
        unfold subOf
        congr 1
        funext a p
        by_cases hc : counts .exact p.2.1 w = true <;> simp [hc]
      rw [conv, conv]
      exact this
    unfold byDataOf
    simp only [this]
  have h3 : originalOf .exact W ps = originalOf .exact W ps' := by
    unfold originalOf Original.score
    have a := original_fold .exact W ps {}
    have b := original_fold .exact W ps' {}
    rw [a.1, a.2, b.1, b.2, h.length_eq]
    congr 2
    exact (h.map _).foldl_eq' (fun x _ y _ a => add_right a x y) _
  unfold scoresOf
  rw [h1, h2, h3]

/-! ### The theorems -/

theorem parts_mem (s : Setting) (h t : Bytes) (g : Ranges) (n : Rat × Nat × Nat) :
    (t, g, n) ∈ parts s ((s.entries h).filter fun e => included s.o e.1) ↔
      (lastFor s.ds h t).map numbers = some n ∧ Included s.o t ∧ g = s.rng t := by
  unfold parts
  rw [List.mem_map, ← included_iff]
  constructor
  · rintro ⟨⟨t', r⟩, hm, e⟩
    rw [List.mem_filter] at hm
    cases e
    exact ⟨(mem_tests s h t' (core r)).1 (List.mem_map.2 ⟨_, hm.1, rfl⟩), hm.2, rfl⟩
  · rintro ⟨hn, hi, rfl⟩
    obtain ⟨⟨t', r⟩, hm, e⟩ := List.mem_map.1 ((mem_tests s h t n).2 hn)
    cases e
    exact ⟨(t', r), List.mem_filter.2 ⟨hm, hi⟩, rfl⟩

theorem parts_keys (s : Setting) (h : Bytes) :
    (parts s ((s.entries h).filter fun e => included s.o e.1)).map Prod.fst = ((s.entries h).map Prod.fst).filter (included s.o) := by
  unfold parts
  rw [List.map_map, List.filter_map]
  rfl

theorem parts_nodup (s : Setting) (h : Bytes) : ((parts s ((s.entries h).filter fun e => included s.o e.1)).map Prod.fst).Nodup := by
  rw [parts_keys]
  exact (entries_nodup s h).filter _

/-- **C88**, without rounding. Benchmark scores depend on nothing but the time, the bytes and the allocations in the last results for
the tests that the axis includes, of all handlers: not on results that were replaced, on other tests, on numbers of runs, on the
order of lines, or on the order in which maps are gone through. So do the sums of each test. -/
theorem C88_partial (s s' : Setting) (hR : s.R = .exact) (hR' : s'.R = .exact) (ho : s.o = s'.o) (h : SameIn s.o s.ds s'.ds) :
    ∃ m m', s.result = some m ∧ s'.result = some m' ∧ ∀ a hd hd', m.get a = some hd → m'.get a = some hd' →
      hd.scores = hd'.scores ∧ ∀ t, Included s.o t → (lastFor s.ds a t).isSome = true → hd.test t = hd'.test t := by
  obtain ⟨m, em, _, hs⟩ := scores_parts s
  obtain ⟨m', em', _, hs'⟩ := scores_parts s'
  refine ⟨m, m', em, em', fun a hd hd' e e' => ⟨?_, ?_⟩⟩
  · rw [(hs a hd e).1, (hs' a hd' e').1, hR, hR', ho]
    apply scoresOf_perm
    have hp := perm_of_keys (parts_nodup s a) (parts_nodup s' a) fun t p => by
      obtain ⟨g, n⟩ := p
      rw [parts_mem, parts_mem, ← ho]
      constructor
      · rintro ⟨h1, h2, h3⟩
        exact ⟨by rw [← h a t h2]; exact h1, h2, by rw [h3]; exact rng_same s s' t fun b => h b t h2⟩
      · rintro ⟨h1, h2, h3⟩
        exact ⟨by rw [h a t h2]; exact h1, h2, by rw [h3]; exact (rng_same s s' t fun b => h b t h2).symm⟩
    rw [ho] at hp
    exact hp
  · intro t hi hl
    obtain ⟨d, hd1⟩ := Option.isSome_iff_exists.1 hl
    have hn := h a t hi
    rw [hd1] at hn
    obtain ⟨d', hd2, hn'⟩ := Option.map_eq_some_iff.1 hn.symm
    rw [(hs a hd e).2 t d hd1 hi, (hs' a hd' e').2 t d' hd2 (ho ▸ hi), hR, hR', ho, hn', rng_same s s' t fun b => h b t hi]

/-- **C88**, with any rounding, for maps that are gone through in the same order, apart from tests that are not included. -/
theorem C88_rounded_partial (s s' : Setting) (hR : s.R = s'.R) (ho : s.o = s'.o) (h : SameIn s.o s.ds s'.ds)
    (hord : ∀ a, ((s.entries a).map Prod.fst).filter (included s.o) = ((s'.entries a).map Prod.fst).filter (included s.o)) :
    ∃ m m', s.result = some m ∧ s'.result = some m' ∧ ∀ a hd hd', m.get a = some hd → m'.get a = some hd' →
      hd.scores = hd'.scores ∧ ∀ t, Included s.o t → (lastFor s.ds a t).isSome = true → hd.test t = hd'.test t := by
  obtain ⟨m, em, _, hs⟩ := scores_parts s
  obtain ⟨m', em', _, hs'⟩ := scores_parts s'
  refine ⟨m, m', em, em', fun a hd hd' e e' => ⟨?_, ?_⟩⟩
  · rw [(hs a hd e).1, (hs' a hd' e').1, hR, ho]
    congr 1
    have keyed : ∀ (l l' : List (Bytes × Ranges × Rat × Nat × Nat)), l.map Prod.fst = l'.map Prod.fst →
        (∀ t p p', (t, p) ∈ l → (t, p') ∈ l' → p = p') → l = l' := by
      intro l
      induction l with
      | nil =>
        intro l' hk _
        cases l' with
        | nil => rfl
        | cons _ _ => cases hk
      | cons x l ih =>
        intro l' hk hp
        cases l' with
        | nil => cases hk
        | cons y l' =>
          obtain ⟨t, p⟩ := x
          obtain ⟨t', p'⟩ := y
          rw [List.map_cons, List.map_cons] at hk
          injection hk with h1 h2
          dsimp only at h1
          subst h1
          rw [hp t p p' (by simp) (by simp), ih l' h2 fun t p p' a b => hp t p p' (by simp [a]) (by simp [b])]
    have hk : (parts s ((s.entries a).filter fun e => included s.o e.1)).map Prod.fst =
        (parts s' ((s'.entries a).filter fun e => included s'.o e.1)).map Prod.fst := by
      rw [parts_keys, parts_keys, ← ho]
      exact hord a
    have := keyed _ _ hk fun t p p' h1 h2 => by
      obtain ⟨g, n⟩ := p
      obtain ⟨g', n'⟩ := p'
      obtain ⟨a1, a2, a3⟩ := (parts_mem s a t g n).1 h1
      obtain ⟨b1, b2, b3⟩ := (parts_mem s' a t g' n').1 h2
      have e1 := h a t a2
      rw [a1, b1] at e1
      cases e1
      rw [a3, b3, rng_same s s' t fun b => h b t a2]
    rw [← ho] at this ⊢
    exact this
  · intro t hi hl
    obtain ⟨d, hd1⟩ := Option.isSome_iff_exists.1 hl
    have hn := h a t hi
    rw [hd1] at hn
    obtain ⟨d', hd2, hn'⟩ := Option.map_eq_some_iff.1 hn.symm
    rw [(hs a hd e).2 t d hd1 hi, (hs' a hd' e').2 t d' hd2 (ho ▸ hi), hR, ho, hn', rng_same s s' t fun b => h b t hi]

/-- The two axes of the keeper `Size`: the scores for large benchmarks depend on BigGroup and Logging alone, those for small ones on
all others, and not on these. -/
theorem C88_size_partial (s s' : Setting) (hR : s.R = .exact) (hR' : s'.R = .exact) (ho : s.o = s'.o)
    (h : (s.o.includes = some largeTests ∧ s.o.excludes = [] ∧ ∀ a t, t ∈ [b!"Bench.BigGroup", b!"Bench.Logging"] →
        (lastFor s.ds a t).map numbers = (lastFor s'.ds a t).map numbers) ∨
      (s.o.includes = none ∧ s.o.excludes = largeTests ∧ ∀ a t, t ∉ [b!"Bench.BigGroup", b!"Bench.Logging"] →
        (lastFor s.ds a t).map numbers = (lastFor s'.ds a t).map numbers)) :
    ∃ m m', s.result = some m ∧ s'.result = some m' ∧ ∀ a hd hd', m.get a = some hd → m'.get a = some hd' → hd.scores = hd'.scores := by
  have hl : ∀ t, t ∈ largeTests ↔ t ∈ [b!"Bench.BigGroup", b!"Bench.Logging"] := by
    intro t
    have : largeTests.Perm [b!"Bench.BigGroup", b!"Bench.Logging"] := by decide +kernel
    exact this.mem_iff
  have hS : SameIn s.o s.ds s'.ds := by
    intro a t hi
    unfold Included at hi
    rcases h with ⟨h1, _, h3⟩ | ⟨_, h2, h3⟩
    · exact h3 a t ((hl t).1 (hi.1 _ h1))
    · rw [h2] at hi
      exact h3 a t fun hc => hi.2 ((hl t).2 hc)
  obtain ⟨m, m', e, e', hm⟩ := C88_partial s s' hR hR' ho hS
  exact ⟨m, m', e, e', fun a hd hd' x x' => (hm a hd hd' x x').1⟩

/-- Results of a test that is excluded do not count: here those of Y. -/
example : SameIn { weights := fun _ => 1, excludes := [b!"Bench.Y"] } exampleData (exampleData.take 2) := by
  intro h t hi
  have hy : b!"Bench.Y" ≠ t := fun e => hi.2 (by simp [← e])
  have e1 : exampleData = exampleData.take 2 ++ exampleData.drop 2 := (List.take_append_drop 2 exampleData).symm
  have e2 : (exampleData.drop 2).filter (fun d => decide (d.handler = h ∧ tagOf d = t)) = [] := by
    rw [List.filter_eq_nil_iff]
    intro d hd
    have : ∀ d ∈ exampleData.drop 2, tagOf d = b!"Bench.Y" := by decide +kernel
    rw [this d hd]
    simp [hy]
  conv_lhs => rw [e1]
  unfold lastFor
  rw [List.filter_append, e2, List.append_nil]

/-! ### With rounding the order matters -/

/-- The statement in full: with the numbers of the machine. -/
def C88_statement : Prop :=
  ∀ s s' : Setting, s.R = ieee → s'.R = ieee → s.o = s'.o → SameIn s.o s.ds s'.ds →
    ∃ m m', s.result = some m ∧ s'.result = some m' ∧ ∀ a hd hd', m.get a = some hd → m'.get a = some hd' → hd.scores = hd'.scores

/-- Three handlers, and three tests. -/
def threeText : Bytes :=
  exampleLine 0x41 0x58 b!"2" [] ++ b!"\n" ++
  exampleLine 0x42 0x58 b!"1" [] ++ b!"\n" ++
  exampleLine 0x43 0x58 b!"4" [] ++ b!"\n" ++
  exampleLine 0x41 0x59 b!"3" [] ++ b!"\n" ++
  exampleLine 0x42 0x59 b!"1" [] ++ b!"\n" ++
  exampleLine 0x43 0x59 b!"4" [] ++ b!"\n" ++
  exampleLine 0x41 0x5A b!"4" [] ++ b!"\n" ++
  exampleLine 0x42 0x5A b!"1" [] ++ b!"\n" ++
  exampleLine 0x43 0x5A b!"8" []

/-- Its results. -/
def threeData : List (Data Rat) :=
  [⟨b!"A", b!"X", 8, 7, 2, 0, 0, 0⟩,
   ⟨b!"B", b!"X", 8, 7, 1, 0, 0, 0⟩,
   ⟨b!"C", b!"X", 8, 7, 4, 0, 0, 0⟩,
   ⟨b!"A", b!"Y", 8, 7, 3, 0, 0, 0⟩,
   ⟨b!"B", b!"Y", 8, 7, 1, 0, 0, 0⟩,
   ⟨b!"C", b!"Y", 8, 7, 4, 0, 0, 0⟩,
   ⟨b!"A", b!"Z", 8, 7, 4, 0, 0, 0⟩,
   ⟨b!"B", b!"Z", 8, 7, 1, 0, 0, 0⟩,
   ⟨b!"C", b!"Z", 8, 7, 8, 0, 0, 0⟩]

theorem three_read : History whole [threeText] threeData := by
  have hs : scanLines threeText = [exampleLine 0x41 0x58 b!"2" [],
      exampleLine 0x42 0x58 b!"1" [],
      exampleLine 0x43 0x58 b!"4" [],
      exampleLine 0x41 0x59 b!"3" [],
      exampleLine 0x42 0x59 b!"1" [],
      exampleLine 0x43 0x59 b!"4" [],
      exampleLine 0x41 0x5A b!"4" [],
      exampleLine 0x42 0x5A b!"1" [],
      exampleLine 0x43 0x5A b!"8" []] := by
    decide +kernel
  have h : Reads whole (scanLines threeText) threeData [] false := by
    rw [hs]
    refine .data (exampleLine_data 0x41 0x58 (by decide) (by decide) (.inl ⟨by simp, by decide⟩) (by decide)) (by decide +kernel) (by decide +kernel)
      (by decide +kernel) (by decide +kernel) (by decide +kernel) (by decide +kernel) ?_
    refine .data (exampleLine_data 0x42 0x58 (by decide) (by decide) (.inl ⟨by simp, by decide⟩) (by decide)) (by decide +kernel) (by decide +kernel)
      (by decide +kernel) (by decide +kernel) (by decide +kernel) (by decide +kernel) ?_
    refine .data (exampleLine_data 0x43 0x58 (by decide) (by decide) (.inl ⟨by simp, by decide⟩) (by decide)) (by decide +kernel) (by decide +kernel)
      (by decide +kernel) (by decide +kernel) (by decide +kernel) (by decide +kernel) ?_
    refine .data (exampleLine_data 0x41 0x59 (by decide) (by decide) (.inl ⟨by simp, by decide⟩) (by decide)) (by decide +kernel) (by decide +kernel)
      (by decide +kernel) (by decide +kernel) (by decide +kernel) (by decide +kernel) ?_
    refine .data (exampleLine_data 0x42 0x59 (by decide) (by decide) (.inl ⟨by simp, by decide⟩) (by decide)) (by decide +kernel) (by decide +kernel)
      (by decide +kernel) (by decide +kernel) (by decide +kernel) (by decide +kernel) ?_
    refine .data (exampleLine_data 0x43 0x59 (by decide) (by decide) (.inl ⟨by simp, by decide⟩) (by decide)) (by decide +kernel) (by decide +kernel)
      (by decide +kernel) (by decide +kernel) (by decide +kernel) (by decide +kernel) ?_
    refine .data (exampleLine_data 0x41 0x5A (by decide) (by decide) (.inl ⟨by simp, by decide⟩) (by decide)) (by decide +kernel) (by decide +kernel)
      (by decide +kernel) (by decide +kernel) (by decide +kernel) (by decide +kernel) ?_
    refine .data (exampleLine_data 0x42 0x5A (by decide) (by decide) (.inl ⟨by simp, by decide⟩) (by decide)) (by decide +kernel) (by decide +kernel)
      (by decide +kernel) (by decide +kernel) (by decide +kernel) (by decide +kernel) ?_
    refine .data (exampleLine_data 0x43 0x5A (by decide) (by decide) (.inl ⟨by simp, by decide⟩) (by decide)) (by decide +kernel) (by decide +kernel)
      (by decide +kernel) (by decide +kernel) (by decide +kernel) (by decide +kernel) ?_
    exact .done
  exact .text h .none

/-- Scores for it, for an order of the tests of a handler. -/
def threeSetting (R : Rounding) (ord : Map Bytes (Record Rat) → List (Bytes × Record Rat)) (hord : ∀ m, (ord m).Perm m) : Setting where
  R := R
  S := someSorter
  pick := id
  o := { weights := fun _ => 1 }
  ordT _ m := m
  ordT' _ m := m
  ordH _ m := ord m
  E := ⟨Letters.asciiLib, fun _ => [], fun _ => none⟩
  fl := whole
  texts := [threeText]
  ds := threeData
  read := three_read
  pick_perm l := .refl l
  ordT_perm _ m := .refl m
  ordT'_perm _ m := .refl m
  ordH_perm _ m := hord m
  nanos := by decide +kernel
  allocs := by decide +kernel
  bytes := by decide +kernel
  few := by decide
  weights := by show 1 + (1 + 1) ≤ 2 ^ 53; decide

/-- The score by tests of the first handler. -/
def firstScore (s : Setting) : Option (Option Val) := s.result.map fun m => (m.get b!"A").map (·.scores.byTest)

/-- **C88** fails in full: Go goes through the map of tests in any order, and sums of rounded numbers depend on it. The same results
give scores that differ in the last digits. -/
theorem C88_fails : ¬ C88_statement := by
  intro h
  obtain ⟨m, m', em, em', hs⟩ := h (threeSetting ieee id fun _ => .refl _) (threeSetting ieee List.reverse List.reverse_perm) rfl rfl rfl
    fun _ _ _ => rfl
  have h1 : firstScore (threeSetting ieee id fun _ => .refl _) ≠ firstScore (threeSetting ieee List.reverse List.reverse_perm) := by
    decide +kernel
  have h2 : (firstScore (threeSetting ieee id fun _ => .refl _)).bind id |>.isSome := by decide +kernel
  have h3 : (firstScore (threeSetting ieee List.reverse List.reverse_perm)).bind id |>.isSome := by decide +kernel
  unfold firstScore at h1 h2 h3
  rw [em, em'] at h1
  rw [em] at h2
  rw [em'] at h3
  cases e : m.get b!"A" with
  | none => simp [e] at h2
  | some hd =>
    cases e' : m'.get b!"A" with
    | none => simp [e'] at h3
    | some hd' =>
      have := hs _ hd hd' e e'
      simp [e, e', this] at h1

/-- Without rounding the two orders have the same scores: a case of `C88_partial`. -/
example : ∃ q, firstScore (threeSetting .exact id fun _ => .refl _) = some (some (.fin q)) ∧
    firstScore (threeSetting .exact List.reverse List.reverse_perm) = some (some (.fin q)) := ⟨1100 / 21, by decide +kernel, by decide +kernel⟩

end Verif.Props.BenchDepends
