import Verif.Server.Bar
import Verif.Props.BenchData
import Verif.Props.Chart
import Verif.Props.Enum

/-
C62: bar charts show what was measured.
-/

set_option linter.unusedSimpArgs false

namespace Verif.Props.Bar
open Go Verif.Warning Verif.Data Verif.Server Verif.Props.BenchData

variable {F : Type}

/-! ### Specification -/

/-- What was measured in a line of results, by the names of the items. -/
def measures (fl : Floats F) (num : Nat → F) (d : Data F) : Map Bytes F :=
  [(b!"Runs", num d.runs), (b!"Nanos", d.nsOps), (b!"MemAllocs", num d.allocsOp), (b!"MemBytes", num d.bytesOp),
    (b!"MbPerSec", d.mbSec), (b!"GbPerSec", fl.kilo d.mbSec), (b!"TbPerSec", fl.mega d.mbSec)]

/-- The chart has one bar for each tag with a value, labelled with its name and as long as the value. From the bottom up,
names come in descending order. -/
def Shows (name : Bytes → Bytes) (value : Bytes → Option F) (labels : Array Bytes) (values : Array F) : Prop :=
  ∃ tags : List Bytes, tags.Nodup ∧ (∀ t, t ∈ tags ↔ (value t).isSome = true) ∧
    (tags.Pairwise fun i j => less (name i) (name j) = false) ∧
    labels.toList = tags.map name ∧ values.toList.map some = tags.map value

/-- C62 as stated, for texts, requests served before, and a request. -/
def C62_statement (F : Type) : Prop := ∀ (E : Env) (fl : Floats F) (num : Nat → F) (S : Sorter) (pick : List Bytes → List Bytes),
  (∀ l, (pick l).Perm l) → ∀ (texts : List Bytes) (ds : List (Data F)), History fl texts ds → ∀ (rs : List (Bytes × Nat)) (tag : Bytes) (item : Nat)
    (what : Bytes), Enum.benchNames[item]? = some what →
  let b := barsAll fl num S pick (readAll E fl texts) rs
  ((∃ d ∈ ds, tagOf d = tag) → ∃ labels values, (bars fl num S pick b tag item).2 = some (labels, values) ∧
    Shows b.handlerName (fun h => (lastFor ds h tag).bind fun d => (measures fl num d).get what) labels values) ∧
  ((∃ d ∈ ds, d.handler = tag) → ∃ labels values, (bars fl num S pick b tag item).2 = some (labels, values) ∧
    Shows b.testName (fun t => (lastFor ds tag t).bind fun d => (measures fl num d).get what) labels values) ∧
  ((∀ d ∈ ds, tagOf d ≠ tag ∧ d.handler ≠ tag) → (bars fl num S pick b tag item).2 = none)

/-! ### The loop -/

theorem barLoop_eq (fl : Floats F) (num : Nat → F) (name : Bytes → Bytes) (records : Map Bytes (Record F)) (item : Nat) :
    ∀ (tags : List Bytes) (acc : Array Bytes × Array F),
      (barLoop fl num name records item tags acc).1.toList =
        acc.1.toList ++ (tags.filter fun t => (records.get t).isSome).map name ∧
      (barLoop fl num name records item tags acc).2.toList.map some =
        acc.2.toList.map some ++ (tags.filter fun t => (records.get t).isSome).map fun t => (records.get t).map fun r => itemValue fl num r item
  | [], acc => by simp [barLoop]
  | t :: ts, acc => by
    unfold barLoop
    cases h : records.get t with
    | none =>
      simp only
      obtain ⟨h1, h2⟩ := barLoop_eq fl num name records item ts acc
      rw [h1, h2]
      simp [List.filter_cons, h]
    | some r =>
      simp only
      obtain ⟨h1, h2⟩ := barLoop_eq fl num name records item ts (acc.1.push (name t), acc.2.push (itemValue fl num r item))
      rw [h1, h2]
      simp [List.filter_cons, h]

theorem loop_shows (fl : Floats F) (num : Nat → F) (name : Bytes → Bytes) (records : Map Bytes (Record F)) (item : Nat) (tags : List Bytes)
    (value : Bytes → Option F) (hv : ∀ t, (records.get t).map (fun r => itemValue fl num r item) = value t)
    (hn : tags.Nodup) (hm : ∀ t, (value t).isSome = true → t ∈ tags) (hs : tags.Pairwise fun i j => less (name j) (name i) = false) :
    Shows name value (reverse (barLoop fl num name records item tags (#[], #[])).1) (reverse (barLoop fl num name records item tags (#[], #[])).2) := by
  obtain ⟨h1, h2⟩ := barLoop_eq fl num name records item tags (#[], #[])
  have hi : ∀ t, (records.get t).isSome = (value t).isSome := by
    intro t; rw [← hv t]; cases records.get t <;> rfl
  refine ⟨(tags.filter fun t => (records.get t).isSome).reverse, ?_, ?_, ?_, ?_, ?_⟩
  · exact List.nodup_reverse.2 (hn.filter _)
  · intro t
    rw [List.mem_reverse, List.mem_filter, hi]
    exact ⟨fun h => h.2, fun h => ⟨hm t h, h⟩⟩
  · rw [List.pairwise_reverse]
    exact hs.filter _
  · rw [(Chart.C46_reverse _).1, h1]
    simp
  · rw [(Chart.C46_reverse _).1, List.map_reverse, h2, List.map_reverse]
    simp only [Array.toList_empty, List.map_nil, List.nil_append]
    congr 1
    exact List.map_congr_left fun t _ => hv t

/-! ### Tags -/

/-- The data after requests: only the lists of tags may have been made. -/
structure Same (S : Sorter) (pick : List Bytes → List Bytes) (b b' : Bench F) : Prop where
  byTest : b'.byTest = b.byTest
  byHandler : b'.byHandler = b.byHandler
  testNames : b'.testNames = b.testNames
  handlerNames : b'.handlerNames = b.handlerNames
  tests : (b'.testTags S pick).2 = (b.testTags S pick).2
  handlers : (b'.handlerTags S pick).2 = (b.handlerTags S pick).2

theorem same_refl {S : Sorter} {pick : List Bytes → List Bytes} (b : Bench F) : Same S pick b b := ⟨rfl, rfl, rfl, rfl, rfl, rfl⟩

theorem handlerTags_again (S : Sorter) (pick : List Bytes → List Bytes) (b : Bench F) :
    Same S pick b (b.handlerTags S pick).1 := by
  unfold Bench.handlerTags
  cases h : b.handlers with
  | some l => simp only; exact same_refl b
  | none =>
    dsimp only
    refine ⟨rfl, rfl, rfl, rfl, ?_, ?_⟩
    · unfold Bench.testTags; cases b.tests <;> rfl
    · unfold Bench.handlerTags
      cases h2 : (collect (pick b.byHandler.keys)).map (S.sort fun i j => less (b.handlerName i) (b.handlerName j)) with
      | some l => simp only [h, h2, Option.getD_some]
      | none =>
        simp only [h, h2, Option.getD_none]
        have : (fun i j => less (({ b with handlers := none } : Bench F).handlerName i) (({ b with handlers := none } : Bench F).handlerName j)) =
          fun i j => less (b.handlerName i) (b.handlerName j) := rfl
        rw [this, h2]; rfl

theorem testTags_again (S : Sorter) (pick : List Bytes → List Bytes) (b : Bench F) :
    Same S pick b (b.testTags S pick).1 := by
  unfold Bench.testTags
  cases h : b.tests with
  | some l => simp only; exact same_refl b
  | none =>
    dsimp only
    refine ⟨rfl, rfl, rfl, rfl, ?_, ?_⟩
    · unfold Bench.testTags
      cases h2 : (collect (pick b.byTest.keys)).map (S.sort fun i j => less (b.testName i) (b.testName j)) with
      | some l => simp only [h, h2, Option.getD_some]
      | none =>
        simp only [h, h2, Option.getD_none]
        have : (fun i j => less (({ b with tests := none } : Bench F).testName i) (({ b with tests := none } : Bench F).testName j)) =
          fun i j => less (b.testName i) (b.testName j) := rfl
        rw [this, h2]; rfl
    · unfold Bench.handlerTags; cases b.handlers <;> rfl

theorem same_trans {S : Sorter} {pick : List Bytes → List Bytes} {b b' b'' : Bench F} (h : Same S pick b b') (h' : Same S pick b' b'') :
    Same S pick b b'' :=
  ⟨h'.byTest.trans h.byTest, h'.byHandler.trans h.byHandler, h'.testNames.trans h.testNames, h'.handlerNames.trans h.handlerNames,
    h'.tests.trans h.tests, h'.handlers.trans h.handlers⟩

theorem bars_same (fl : Floats F) (num : Nat → F) (S : Sorter) (pick : List Bytes → List Bytes) (b : Bench F) (tag : Bytes) (item : Nat) :
    Same S pick b (bars fl num S pick b tag item).1 := by
  unfold bars
  cases b.byTest.get tag with
  | some r => exact handlerTags_again S pick b
  | none =>
    cases b.byHandler.get tag with
    | some r => exact testTags_again S pick b
    | none => exact same_refl b

theorem barsAll_same (fl : Floats F) (num : Nat → F) (S : Sorter) (pick : List Bytes → List Bytes) :
    ∀ (rs : List (Bytes × Nat)) (b : Bench F), Same S pick b (barsAll fl num S pick b rs)
  | [], b => same_refl b
  | (tag, item) :: rs, b => same_trans (bars_same fl num S pick b tag item) (barsAll_same fl num S pick rs _)

/-! ### Values -/

theorem full_value (fl : Floats F) (num : Nat → F) (d : Data F) {item : Nat} {what : Bytes} (h : Enum.benchNames[item]? = some what) :
    some (itemValue fl num (fullRecord fl d) item) = (measures fl num d).get what := by
  match item, h with
  | 0, h => cases h; rfl
  | 1, h => cases h; rfl
  | 2, h => cases h; rfl
  | 3, h => cases h; rfl
  | 4, h => cases h; rfl
  | 5, h => cases h; rfl
  | 6, h => cases h; rfl
  | n + 7, h => cases h

theorem part_value (fl : Floats F) (num : Nat → F) (d : Data F) {item : Nat} {what : Bytes} (h : Enum.benchNames[item]? = some what) :
    some (itemValue fl num (partRecord fl d) item) =
      if what = b!"GbPerSec" ∨ what = b!"TbPerSec" then some fl.zero else (measures fl num d).get what := by
  match item, h with
  | 0, h => cases h; rfl
  | 1, h => cases h; rfl
  | 2, h => cases h; rfl
  | 3, h => cases h; rfl
  | 4, h => cases h; rfl
  | 5, h => cases h; rfl
  | 6, h => cases h; rfl
  | n + 7, h => cases h

theorem lastFor_some {ds : List (Data F)} {h tag : Bytes} {d : Data F} (hl : lastFor ds h tag = some d) : d ∈ ds ∧ d.handler = h ∧ tagOf d = tag := by
  have := List.mem_of_getLast? hl
  rw [List.mem_filter] at this
  exact ⟨this.1, by simpa using this.2⟩

theorem byTest_get (E : Env) (fl : Floats F) {texts : List Bytes} {ds : List (Data F)} (hh : History fl texts ds) (tag : Bytes) :
    ((readAll E fl texts).byTest.get tag).isSome = true ↔ ∃ d ∈ ds, tagOf d = tag := by
  obtain ⟨ws, ha⟩ := history_after (E := E) hh {}
  have := fold_keys (F := F) tagOf Data.handler (fullRecord fl) tag ds []
  rw [← Map.mem_keys, show (readAll E fl texts).byTest = _ from ha.byTest]
  exact this.trans (by simp [Map.keys])

theorem byHandler_get (E : Env) (fl : Floats F) {texts : List Bytes} {ds : List (Data F)} (hh : History fl texts ds) (tag : Bytes) :
    ((readAll E fl texts).byHandler.get tag).isSome = true ↔ ∃ d ∈ ds, d.handler = tag := by
  obtain ⟨ws, ha⟩ := history_after (E := E) hh {}
  have := fold_keys (F := F) Data.handler tagOf (partRecord fl) tag ds []
  rw [← Map.mem_keys, show (readAll E fl texts).byHandler = _ from ha.byHandler]
  exact this.trans (by simp [Map.keys])

/-! ### C62 -/

/-- C62 for tests: whatever was asked for before, the chart of a test shows for each handler with a result the last one
that was read. -/
theorem C62_test (E : Env) (fl : Floats F) (num : Nat → F) (S : Sorter) (pick : List Bytes → List Bytes) (hp : ∀ l, (pick l).Perm l)
    (texts : List Bytes) (ds : List (Data F)) (hh : History fl texts ds) (rs : List (Bytes × Nat)) (tag : Bytes) (item : Nat) (what : Bytes)
    (hw : Enum.benchNames[item]? = some what) (b : Bench F) (hb : b = barsAll fl num S pick (readAll E fl texts) rs)
    (ht : ∃ d ∈ ds, tagOf d = tag) :
    ∃ labels values, (bars fl num S pick b tag item).2 = some (labels, values) ∧
      Shows b.handlerName (fun h => (lastFor ds h tag).bind fun d => (measures fl num d).get what) labels values := by
  have hs : Same S pick (readAll E fl texts) b := hb ▸ barsAll_same fl num S pick rs _
  obtain ⟨records, hr⟩ := Option.isSome_iff_exists.1 ((byTest_get E fl hh tag).2 ht)
  have hbr : b.byTest.get tag = some records := hs.byTest ▸ hr
  obtain ⟨⟨t1, t2, t3⟩, _⟩ := C37_tags E fl S pick hp texts ds hh _ rfl
  have hname : b.handlerName = (readAll E fl texts).handlerName := by
    funext h; unfold Bench.handlerName; rw [hs.handlerNames]
  have hname' : (b.handlerTags S pick).1.handlerName = b.handlerName := by
    funext h; unfold Bench.handlerName; rw [(handlerTags_again S pick b).handlerNames]
  obtain ⟨ws, ha⟩ := history_after (E := E) hh {}
  have hbars : (bars fl num S pick b tag item).2 = some
      (reverse (barLoop fl num (b.handlerTags S pick).1.handlerName records item (b.handlerTags S pick).2 (#[], #[])).1,
        reverse (barLoop fl num (b.handlerTags S pick).1.handlerName records item (b.handlerTags S pick).2 (#[], #[])).2) := by
    simp only [bars, hbr]; rfl
  rw [hname', hs.handlers] at hbars
  refine ⟨_, _, hbars, ?_⟩
  refine loop_shows fl num b.handlerName records item _ _ (fun h => ?_) t2 (fun h hv => ?_) (hname ▸ t3)
  · have : records.get h = (lastFor ds h tag).map (fullRecord fl) := by
      have := (after_views ha h tag).1
      rw [← this]
      show _ = ((readAll E fl texts).handlerRecordsFor tag).get h
      unfold Bench.handlerRecordsFor
      rw [hr]; rfl
    rw [this]
    cases lastFor ds h tag with
    | none => rfl
    | some d => exact full_value fl num d hw
  · rw [t1]
    cases hl : lastFor ds h tag with
    | none => rw [hl] at hv; cases hv
    | some d =>
      obtain ⟨m1, m2, _⟩ := lastFor_some hl
      exact ⟨d, m1, m2⟩

/-- The chart of a handler: zero is shown for the rate in GB/s and TB/s. -/
theorem C62_handler (E : Env) (fl : Floats F) (num : Nat → F) (S : Sorter) (pick : List Bytes → List Bytes) (hp : ∀ l, (pick l).Perm l)
    (texts : List Bytes) (ds : List (Data F)) (hh : History fl texts ds) (rs : List (Bytes × Nat)) (tag : Bytes) (item : Nat) (what : Bytes)
    (hw : Enum.benchNames[item]? = some what) (b : Bench F) (hb : b = barsAll fl num S pick (readAll E fl texts) rs)
    (ht : ∃ d ∈ ds, d.handler = tag) (hn : ∀ d ∈ ds, tagOf d ≠ tag) :
    ∃ labels values, (bars fl num S pick b tag item).2 = some (labels, values) ∧
      Shows b.testName (fun t => (lastFor ds tag t).bind fun d =>
        if what = b!"GbPerSec" ∨ what = b!"TbPerSec" then some fl.zero else (measures fl num d).get what) labels values := by
  have hs : Same S pick (readAll E fl texts) b := hb ▸ barsAll_same fl num S pick rs _
  obtain ⟨records, hr⟩ := Option.isSome_iff_exists.1 ((byHandler_get E fl hh tag).2 ht)
  have hbr : b.byHandler.get tag = some records := hs.byHandler ▸ hr
  have hno : b.byTest.get tag = none := by
    rw [hs.byTest]
    cases h : (readAll E fl texts).byTest.get tag with
    | none => rfl
    | some r =>
      obtain ⟨d, hd, e⟩ := (byTest_get E fl hh tag).1 (by rw [h]; rfl)
      exact absurd e (hn d hd)
  obtain ⟨_, ⟨t1, t2, t3⟩⟩ := C37_tags E fl S pick hp texts ds hh _ rfl
  have hname : b.testName = (readAll E fl texts).testName := by
    funext h; unfold Bench.testName; rw [hs.testNames]
  have hname' : (b.testTags S pick).1.testName = b.testName := by
    funext h; unfold Bench.testName; rw [(testTags_again S pick b).testNames]
  obtain ⟨ws, ha⟩ := history_after (E := E) hh {}
  have hbars : (bars fl num S pick b tag item).2 = some
      (reverse (barLoop fl num (b.testTags S pick).1.testName records item (b.testTags S pick).2 (#[], #[])).1,
        reverse (barLoop fl num (b.testTags S pick).1.testName records item (b.testTags S pick).2 (#[], #[])).2) := by
    simp only [bars, hno, hbr]; rfl
  rw [hname', hs.tests] at hbars
  refine ⟨_, _, hbars, ?_⟩
  refine loop_shows fl num b.testName records item _ _ (fun t => ?_) t2 (fun t hv => ?_) (hname ▸ t3)
  · have : records.get t = (lastFor ds tag t).map (partRecord fl) := by
      have := (after_views ha tag t).2
      rw [← this]
      show _ = ((readAll E fl texts).testRecordsFor tag).get t
      unfold Bench.testRecordsFor
      rw [hr]; rfl
    rw [this]
    cases lastFor ds tag t with
    | none => rfl
    | some d => exact part_value fl num d hw
  · rw [t1]
    cases hl : lastFor ds tag t with
    | none => rw [hl] at hv; cases hv
    | some d =>
      obtain ⟨m1, _, m3⟩ := lastFor_some hl
      exact ⟨d, m1, m3⟩

/-- C62: there is a chart only if there are results. -/
theorem C62_nothing (E : Env) (fl : Floats F) (num : Nat → F) (S : Sorter) (pick : List Bytes → List Bytes)
    (texts : List Bytes) (ds : List (Data F)) (hh : History fl texts ds) (rs : List (Bytes × Nat)) (tag : Bytes) (item : Nat)
    (hn : ∀ d ∈ ds, tagOf d ≠ tag ∧ d.handler ≠ tag) :
    (bars fl num S pick (barsAll fl num S pick (readAll E fl texts) rs) tag item).2 = none := by
  have hs := barsAll_same fl num S pick rs (readAll E fl texts)
  have h1 : (readAll E fl texts).byTest.get tag = none := by
    cases h : (readAll E fl texts).byTest.get tag with
    | none => rfl
    | some r =>
      obtain ⟨d, hd, e⟩ := (byTest_get E fl hh tag).1 (by rw [h]; rfl)
      exact absurd e (hn d hd).1
  have h2 : (readAll E fl texts).byHandler.get tag = none := by
    cases h : (readAll E fl texts).byHandler.get tag with
    | none => rfl
    | some r =>
      obtain ⟨d, hd, e⟩ := (byHandler_get E fl hh tag).1 (by rw [h]; rfl)
      exact absurd e (hn d hd).2
  simp only [bars, hs.byTest, hs.byHandler, h1, h2]

/-- What holds of C62: everything, but for the rate of a handler in GB/s and TB/s, and handlers with the tag of a test. -/
theorem C62_partial (E : Env) (fl : Floats F) (num : Nat → F) (S : Sorter) (pick : List Bytes → List Bytes) (hp : ∀ l, (pick l).Perm l)
    (texts : List Bytes) (ds : List (Data F)) (hh : History fl texts ds) (rs : List (Bytes × Nat)) (tag : Bytes) (item : Nat) (what : Bytes)
    (hw : Enum.benchNames[item]? = some what) (b : Bench F) (hb : b = barsAll fl num S pick (readAll E fl texts) rs) :
    ((∃ d ∈ ds, tagOf d = tag) → ∃ labels values, (bars fl num S pick b tag item).2 = some (labels, values) ∧
      Shows b.handlerName (fun h => (lastFor ds h tag).bind fun d => (measures fl num d).get what) labels values) ∧
    ((∃ d ∈ ds, d.handler = tag) → (∀ d ∈ ds, tagOf d ≠ tag) → what ≠ b!"GbPerSec" → what ≠ b!"TbPerSec" →
      ∃ labels values, (bars fl num S pick b tag item).2 = some (labels, values) ∧
      Shows b.testName (fun t => (lastFor ds tag t).bind fun d => (measures fl num d).get what) labels values) ∧
    ((∀ d ∈ ds, tagOf d ≠ tag ∧ d.handler ≠ tag) → (bars fl num S pick b tag item).2 = none) := by
  refine ⟨C62_test E fl num S pick hp texts ds hh rs tag item what hw b hb, fun ht hn h1 h2 => ?_, fun h => ?_⟩
  · have := C62_handler E fl num S pick hp texts ds hh rs tag item what hw b hb ht hn
    simpa only [h1, h2, or_self, if_false] using this
  · rw [hb]; exact C62_nothing E fl num S pick texts ds hh rs tag item h

/-! ### What fails -/

/-- Integers as terms. -/
def termOf (n : Nat) : Term := .num (Slog.decNat n)

/-- C62 is false: by handler, the rate in GB/s is always zero. -/
theorem C62_rates : ¬ C62_statement Term := by
  intro hall
  have hh := someLine_reads terms (x := .num b!"12.5") (y := .num b!"2.5") rfl rfl
  let E : Env := ⟨Letters.asciiLib, fun _ => [], fun _ => none⟩
  obtain ⟨_, h2, _⟩ := hall E terms termOf someSorter id (fun _ => .refl _) _ _ hh [] b!"Phsym" 5 b!"GbPerSec" rfl
  obtain ⟨l1, v1, e1, tags, _, hm, _, _, hv⟩ := h2 ⟨_, List.mem_singleton.2 rfl, rfl⟩
  obtain ⟨l2, v2, e2, tags', _, _, _, _, hv'⟩ := C62_handler E terms termOf someSorter id (fun _ => .refl _) _ _ hh [] b!"Phsym" 5 b!"GbPerSec" rfl _ rfl
    ⟨_, List.mem_singleton.2 rfl, rfl⟩ (by simp [tagOf])
  rw [e1] at e2
  obtain ⟨rfl, rfl⟩ : l1 = l2 ∧ v1 = v2 := by simpa using e2
  have ht : b!"Bench.Big_Group" ∈ tags := by rw [hm]; decide +kernel
  have h3 : some (Term.kilo (.num b!"2.5")) ∈ v1.toList.map some := by
    rw [hv]
    exact List.mem_map.2 ⟨_, ht, by decide +kernel⟩
  rw [hv'] at h3
  obtain ⟨t, _, ht⟩ := List.mem_map.1 h3
  revert ht
  cases lastFor _ _ t <;> simp [terms]

/-- C62 as stated for handlers, without the rate in GB/s and TB/s. -/
def C62_handler_statement (F : Type) : Prop := ∀ (E : Env) (fl : Floats F) (num : Nat → F) (S : Sorter) (pick : List Bytes → List Bytes),
  (∀ l, (pick l).Perm l) → ∀ (texts : List Bytes) (ds : List (Data F)), History fl texts ds → ∀ (tag : Bytes), (∃ d ∈ ds, d.handler = tag) →
  ∃ labels values, (bars fl num S pick (readAll E fl texts) tag 0).2 = some (labels, values) ∧
    Shows (readAll E fl texts).testName (fun t => (lastFor ds tag t).bind fun d => (measures fl num d).get b!"Runs") labels values

/-- A handler with the tag of a test, and another one. -/
def clash : Bytes := b!"BenchmarkBench.X/BenchmarkX-8 1 1 ns/op\nBenchmarkA/BenchmarkX-8 2 2 ns/op\n"

/-- The other exception is needed too: for a handler with the tag of a test, the test is shown. -/
theorem C62_hidden : ¬ C62_handler_statement Term := by
  intro hall
  let E : Env := ⟨Letters.asciiLib, fun _ => [], fun _ => none⟩
  obtain ⟨ds, hh⟩ := history_total terms [clash]
  obtain ⟨labels, values, e, tags, hn, hm, _, hl, _⟩ := hall E terms termOf someSorter id (fun _ => .refl _) [clash] ds hh b!"Bench.X"
    ((byHandler_get E terms hh _).1 (by decide +kernel))
  have h2 : (bars terms termOf someSorter id (readAll E terms [clash]) b!"Bench.X" 0).2.map (fun r => r.1.size) = some 2 := by decide +kernel
  rw [e] at h2
  have h2 : tags.length = 2 := by
    have h3 : labels.size = 2 := by simpa using h2
    rw [← h3, ← Array.length_toList, hl, List.length_map]
  have h1 : ∀ t ∈ tags, t = b!"Bench.X" := by
    intro t ht
    rw [hm] at ht
    obtain ⟨ws, ha⟩ := history_after (E := E) hh {}
    have hv := (after_views ha b!"Bench.X" t).2
    cases hf : lastFor ds b!"Bench.X" t with
    | none => simp only [hf] at ht; cases ht
    | some d =>
      rw [hf] at hv
      have hk : t ∈ ((readAll E terms [clash]).testRecordsFor b!"Bench.X").keys :=
        (Map.mem_keys _ _).2 (by rw [show ((readAll E terms [clash]).testRecordsFor b!"Bench.X").get t = _ from hv]; rfl)
      rw [show ((readAll E terms [clash]).testRecordsFor b!"Bench.X").keys = [b!"Bench.X"] by decide +kernel] at hk
      simpa using hk
  match tags, h2, hn, h1 with
  | [x, y], _, hn, h1 =>
    have hx := h1 x (by simp)
    have hy := h1 y (by simp)
    subst hx
    simp [hy] at hn

/-- Three handlers, one with two tests; one of them is measured twice. -/
def someText : Bytes := b!"# Handler[A]=\"z/last\"\nBenchmarkA/BenchmarkX-8 1 1 ns/op\nBenchmarkB/BenchmarkX-8 2 2 ns/op\n" ++
  b!"BenchmarkB/BenchmarkY-8 3 3 ns/op\nBenchmarkC/BenchmarkY-8 4 4 ns/op\nBenchmarkA/BenchmarkX-8 5 5 ns/op\n"

/-- A case of `C62_partial`: the last result of handler A for test X is shown, with its name, and another request has been served before. -/
example : let E : Env := ⟨Letters.asciiLib, fun s => [s], fun _ => none⟩
    (bars terms termOf someSorter id (barsAll terms termOf someSorter id (readAll E terms [someText]) [(b!"B", 0)]) b!"Bench.X" 1).2 =
      some (#[b!"z/last", b!"B"], #[.num b!"5", .num b!"2"]) ∧
    (bars terms termOf someSorter id (readAll E terms [someText]) b!"B" 0).2 = some (#[b!"Y", b!"X"], #[.num b!"3", .num b!"2"]) ∧
    (bars terms termOf someSorter id (readAll E terms [someText]) b!"D" 0).2 = none := by decide +kernel

/-- Its assumptions: there are results for the test. -/
example (ds : List (Data Term)) (hh : History terms [someText] ds) : (∃ d ∈ ds, tagOf d = b!"Bench.X") ∧ ∃ d ∈ ds, d.handler = b!"B" :=
  let E : Env := ⟨Letters.asciiLib, fun _ => [], fun _ => none⟩
  ⟨(byTest_get E terms hh _).1 (by decide +kernel), (byHandler_get E terms hh _).1 (by decide +kernel)⟩

end Verif.Props.Bar
