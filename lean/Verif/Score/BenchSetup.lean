import Verif.Score.BenchScores
import Verif.Props.BenchData

/-
The benchmark axis for data that was read.
-/

set_option linter.unusedSimpArgs false

namespace Verif.Score
open Go Verif.Warning Verif.Data Verif.Props.ScoreRange Verif.Props.ScoreAverage Verif.Props.BenchData

/-! ### The order of records does not matter -/

theorem RangeF.add_eq (r : RangeF) (v : Rat) : r.add v = ⟨min r.low v, max r.high v⟩ := by
  obtain ⟨l, h⟩ := r
  unfold RangeF.add
  rcases lt_or_ge v l with h1 | h1 <;> rcases lt_or_ge h v with h2 | h2 <;>
    simp [h1, h2, le_of_lt, not_lt_of_ge]

theorem RangeU.add_eq (r : RangeU) (v : Nat) : r.add v = ⟨min r.low v, max r.high v⟩ := by
  obtain ⟨l, h⟩ := r
  unfold RangeU.add
  rcases lt_or_ge v l with h1 | h1 <;> rcases lt_or_ge h v with h2 | h2 <;>
    simp [h1, h2, le_of_lt, not_lt_of_ge]

instance : RightCommutative Ranges.add where
  right_comm g a b := by
    unfold Ranges.add
    simp only [RangeF.add_eq, RangeU.add_eq, Ranges.mk.injEq, RangeF.mk.injEq, RangeU.mk.injEq]
    refine ⟨⟨?_, ?_⟩, ⟨?_, ?_⟩, ⟨?_, ?_⟩⟩
    all_goals first | exact min_right_comm _ _ _ | exact max_right_comm _ _ _

theorem ranges_perm {l l' : List (Bytes × Record Rat)} (h : l.Perm l') (g : Ranges) :
    l.foldl (fun r e => Ranges.add r e.2) g = l'.foldl (fun r e => Ranges.add r e.2) g := by
  have := (h.map Prod.snd).foldl_eq (f := Ranges.add) g
  simpa [List.foldl_map] using this

/-! ### Tags -/

theorem isTrue_set (m : Map Bytes Bool) (t : Bytes) (v : Bool) (k : Bytes) : isTrue (m.set t v) k = if k = t then v else isTrue m k := by
  unfold isTrue
  rw [Map.get_set]
  split_ifs <;> rfl

theorem isTrue_true (l : List Bytes) (k : Bytes) : ∀ m : Map Bytes Bool, isTrue (l.foldl (fun m t => m.set t true) m) k = true ↔ isTrue m k = true ∨ k ∈ l := by
  induction l with
  | nil => intro m; simp
  | cons t l ih =>
    intro m
    rw [List.foldl_cons, ih, isTrue_set]
    by_cases h : k = t <;> simp [h]

theorem isTrue_false (l : List Bytes) (k : Bytes) : ∀ m : Map Bytes Bool, isTrue (l.foldl (fun m t => m.set t false) m) k = true ↔ isTrue m k = true ∧ k ∉ l := by
  induction l with
  | nil => intro m; simp
  | cons t l ih =>
    intro m
    rw [List.foldl_cons, ih, isTrue_set]
    by_cases h : k = t <;> simp [h]

theorem isTrue_tags (includes : Option (List Bytes)) (excludes all : List Bytes) (k : Bytes) :
    isTrue (testTagMap includes excludes all) k = true ↔ k ∈ includes.getD all ∧ k ∉ excludes := by
  unfold testTagMap
  rw [isTrue_false, isTrue_true]
  simp [isTrue, Map.get]

theorem makeRanges_get (add : Ranges → Record Rat → Ranges) (ord : Bytes → Map Bytes (Record Rat) → List (Bytes × Record Rat))
    (b : Bench Rat) (tags : Map Bytes Bool) (t : Bytes) (ht : isTrue tags t = true) : ∀ (tests : List Bytes) (m : Map Bytes Ranges),
    (tests.foldl (fun m t => if isTrue tags t then m.set t ((ord t (b.handlerRecordsFor t)).foldl (fun r e => add r e.2) {}) else m) m).get t =
      if t ∈ tests then some ((ord t (b.handlerRecordsFor t)).foldl (fun r e => add r e.2) {}) else m.get t := by
  intro tests
  induction tests with
  | nil => intro m; simp
  | cons t' tests ih =>
    intro m
    rw [List.foldl_cons, ih]
    by_cases h : t ∈ tests
    · simp [h]
    · by_cases h' : t = t'
      · subst h'
        simp [h, ht, Map.get_set]
      · simp only [h, if_false, List.mem_cons, h', or_false]
        split_ifs
        · rw [Map.get_set, if_neg h']
        · rfl

/-! ### Records -/

theorem inner_nodup {F : Type} (sel sel' : Data F → Bytes) (rec : Data F → Record F) : ∀ (ds : List (Data F)) (m : Map Bytes (Map Bytes (Record F))),
    (∀ k, ((m.get k).getD []).keys.Nodup) →
    ∀ k, (((ds.foldl (fun m d => m.set (sel d) (((m.get (sel d)).getD []).set (sel' d) (rec d))) m).get k).getD []).keys.Nodup := by
  intro ds
  induction ds with
  | nil => intro m h; exact h
  | cons d ds ih =>
    intro m h
    rw [List.foldl_cons]
    refine ih _ fun k => ?_
    rw [Map.get_set]
    split_ifs with hk
    · exact Map.nodup_set (h _) _ _
    · exact h k

theorem records_nodup {F : Type} {E : Verif.Data.Env} {fl : Floats F} {texts : List Bytes} {ds : List (Data F)} (hh : History fl texts ds) (k : Bytes) :
    ((readAll E fl texts).handlerRecordsFor k).keys.Nodup ∧ ((readAll E fl texts).testRecordsFor k).keys.Nodup := by
  obtain ⟨ws, ha⟩ := history_after (E := E) hh {}
  constructor
  · have := inner_nodup (F := F) tagOf Data.handler (fullRecord fl) ds [] (fun k => by simp [Map.get, Map.keys]) k
    unfold Bench.handlerRecordsFor readAll
    rw [ha.byTest]
    exact this
  · have := inner_nodup (F := F) Data.handler tagOf (partRecord fl) ds [] (fun k => by simp [Map.get, Map.keys]) k
    unfold Bench.testRecordsFor readAll
    rw [ha.byHandler]
    exact this

theorem records_get {F : Type} {E : Verif.Data.Env} {fl : Floats F} {texts : List Bytes} {ds : List (Data F)} (hh : History fl texts ds) (h t : Bytes) :
    ((readAll E fl texts).handlerRecordsFor t).get h = (lastFor ds h t).map (fullRecord fl) ∧
    ((readAll E fl texts).testRecordsFor h).get t = (lastFor ds h t).map (partRecord fl) := by
  obtain ⟨ws, ha⟩ := history_after (E := E) hh {}
  exact after_views ha h t

theorem lastFor_mem {F : Type} {ds : List (Data F)} {h t : Bytes} {d : Data F} (hl : lastFor ds h t = some d) :
    d ∈ ds ∧ d.handler = h ∧ tagOf d = t := by
  unfold lastFor at hl
  have := List.mem_of_getLast? hl
  rw [List.mem_filter, decide_eq_true_iff] at this
  exact this

theorem lastFor_isSome {F : Type} {ds : List (Data F)} {d : Data F} (hd : d ∈ ds) : (lastFor ds d.handler (tagOf d)).isSome = true := by
  unfold lastFor
  rw [List.getLast?_isSome]
  intro h
  have : d ∈ ds.filter fun x => decide (x.handler = d.handler ∧ tagOf x = tagOf d) := List.mem_filter.2 ⟨hd, by simp⟩
  rw [h] at this; cases this

/-! ### Handlers -/

theorem setup_fold {K V X : Type} [DecidableEq K] (f : K → Option V → Option X) (g : K → X) (hg : ∀ k, f k none = some (g k)) (F : Option (Map K V) → K → Option (Map K V))
    (conv : X → V) (hF : ∀ m k, F (some m) k = (f k (m.get k)).map fun x => m.set k (conv x)) :
    ∀ (ks : List K) (m : Map K V), ks.Nodup → (∀ k ∈ ks, m.get k = none) →
    ∃ m', ks.foldl F (some m) = some m' ∧ ∀ k, m'.get k = if k ∈ ks then some (conv (g k)) else m.get k := by
  intro ks
  induction ks with
  | nil => intro m _ _; exact ⟨m, rfl, fun k => by simp⟩
  | cons k ks ih =>
    intro m hn hm
    rw [List.nodup_cons] at hn
    have h1 : F (some m) k = some (m.set k (conv (g k))) := by
      rw [hF, hm k (by simp), hg]; rfl
    obtain ⟨m', e, hm'⟩ := ih (m.set k (conv (g k))) hn.2 (by
      intro k' hk'
      rw [Map.get_set, if_neg (by rintro rfl; exact hn.1 hk')]
      exact hm k' (by simp [hk']))
    refine ⟨m', by rw [List.foldl_cons, h1, e], ?_⟩
    intro k'
    rw [hm' k']
    by_cases h : k' ∈ ks
    · simp [h]
    · by_cases h' : k' = k
      · subst h'; simp [h, Map.get_set]
      · simp [h, h', Map.get_set]

end Verif.Score
