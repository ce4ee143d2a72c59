import Verif.Data.BenchLine
import Verif.Spec.Letters

/-
C37: the data of benchmarks is indexed consistently.
-/

set_option linter.unusedSimpArgs false

namespace Verif.Props.BenchData
open Go Verif.Warning Verif.Data

variable {F : Type}

/-! ### Specification -/

/-- A line that names a handler. -/
def Defines (l : Bytes) : Prop := (ptnHandlerDef.find l).isSome = true

/-- What there is to be read in lines: the results in order, the marked lines that are
not about names of handlers, and whether a number cannot be read, where reading ends. -/
inductive Reads (fl : Floats F) : List Bytes → List (Data F) → List Bytes → Bool → Prop
  | done : Reads fl [] [] [] false
  | define {l : Bytes} {ls : List Bytes} {ds : List (Data F)} {ws : List Bytes} {e : Bool} :
      Defines l → Reads fl ls ds ws e → Reads fl (l :: ls) ds ws e
  | warn {l t : Bytes} {ls : List Bytes} {ds : List (Data F)} {ws : List Bytes} {e : Bool} :
      ¬ Defines l → l = b!"# " ++ t → Reads fl ls ds ws e → Reads fl (l :: ls) ds (t :: ws) e
  | data {l c r n rest : Bytes} {d : Data F} {ls : List Bytes} {ds : List (Data F)} {ws : List Bytes} {e : Bool} :
      DataLine l d.handler d.test c r n rest →
      parseUint64 c = some d.cpus → parseUint64 r = some d.runs → fl.parse n = some d.nsOps →
      optional ptnAllocsOp parseUint64 0 l = some d.allocsOp → optional ptnBytesOp parseUint64 0 l = some d.bytesOp →
      optional ptnMbSec fl.parse fl.zero l = some d.mbSec →
      Reads fl ls ds ws e → Reads fl (l :: ls) (d :: ds) ws e
  | bad {l h t c r n rest : Bytes} {ls : List Bytes} :
      DataLine l h t c r n rest →
      (parseUint64 c = none ∨ parseUint64 r = none ∨ fl.parse n = none ∨ optional ptnAllocsOp parseUint64 0 l = none ∨
        optional ptnBytesOp parseUint64 0 l = none ∨ optional ptnMbSec fl.parse fl.zero l = none) →
      Reads fl (l :: ls) [] [] true
  | other {l : Bytes} {ls : List Bytes} {ds : List (Data F)} {ws : List Bytes} {e : Bool} :
      ¬ Defines l → ¬ b!"# " <+: l → (∀ h t c r n rest, ¬ DataLine l h t c r n rest) → Reads fl ls ds ws e → Reads fl (l :: ls) ds ws e

/-- What there is to be read in texts read one after the other. -/
inductive History (fl : Floats F) : List Bytes → List (Data F) → Prop
  | none : History fl [] []
  | text {t : Bytes} {ts : List Bytes} {ds ds' : List (Data F)} {ws : List Bytes} {e : Bool} :
      Reads fl (scanLines t) ds ws e → History fl ts ds' → History fl (t :: ts) (ds ++ ds')

/-- The tag of a test. -/
def tagOf (d : Data F) : Bytes := b!"Bench." ++ d.test

/-- The last result for a handler and a tag. -/
def lastFor (ds : List (Data F)) (h tag : Bytes) : Option (Data F) :=
  (ds.filter fun d => decide (d.handler = h ∧ tagOf d = tag)).getLast?

/-- What is measured, without the other units of the rate. -/
structure Main (F : Type) where
  runs : Nat
  nanos : F
  bytes : Nat
  allocs : Nat
  rate : F
deriving DecidableEq

/-- Of a result. -/
def Main.of (d : Data F) : Main F := ⟨d.runs, d.nsOps, d.bytesOp, d.allocsOp, d.mbSec⟩
/-- Of a record. -/
def Main.ofRecord (r : Record F) : Main F := ⟨r.runs, r.nanosPerOp, r.memBytesPerOp, r.memAllocsPerOp, r.mbPerSec⟩

/-- Everything read, one text after the other; errors do not keep the next text from
being read. -/
def readAll (E : Env) (fl : Floats F) (texts : List Bytes) : Bench F := texts.foldl (fun b t => (b.parse E fl t).1) {}

/-! ### Reading -/

theorem scan_oneLine {text l : Bytes} (h : l ∈ scanLines text) : (0x0A : UInt8) ∉ l := by
  have key : ∀ s : Bytes, ∀ l ∈ splitLines s, (0x0A : UInt8) ∉ l := by
    intro s
    induction s with
    | nil => intro l hl; simp [splitLines] at hl
    | cons a s ih =>
      intro l hl
      unfold splitLines at hl
      split at hl
      · rcases List.mem_cons.1 hl with rfl | hl
        · simp
        · exact ih l hl
      · rename_i ha
        split at hl
        · simp only [List.mem_singleton] at hl
          subst hl; simpa using Ne.symm ha
        · rename_i l' ls e
          rcases List.mem_cons.1 hl with rfl | hl
          · intro h
            rcases List.mem_cons.1 h with h | h
            · exact ha h.symm
            · exact ih l' (by rw [e]; simp) h
          · exact ih l (by rw [e]; simp [hl])
  unfold scanLines at h
  obtain ⟨x, hx, rfl⟩ := List.mem_map.1 h
  have := key text x ((List.takeWhile_sublist _).subset hx)
  unfold dropCR
  split
  · exact fun h => this ((List.dropLast_sublist _).subset h)
  · exact this

/-- Any lines can be read. -/
theorem reads_total (fl : Floats F) : ∀ ls : List Bytes, ∃ ds ws e, Reads fl ls ds ws e
  | [] => ⟨_, _, _, .done⟩
  | l :: ls => by
    obtain ⟨ds, ws, e, ih⟩ := reads_total fl ls
    by_cases h1 : Defines l
    · exact ⟨_, _, _, .define h1 ih⟩
    by_cases h2 : b!"# " <+: l
    · obtain ⟨t, rfl⟩ := h2
      exact ⟨_, _, _, .warn h1 rfl ih⟩
    by_cases h3 : ∃ h t c r n rest, DataLine l h t c r n rest
    · obtain ⟨h, t, c, r, n, rest, hd⟩ := h3
      cases e1 : parseUint64 c with
      | none => exact ⟨_, _, _, .bad hd (.inl e1)⟩
      | some v1 =>
      cases e2 : parseUint64 r with
      | none => exact ⟨_, _, _, .bad hd (.inr (.inl e2))⟩
      | some v2 =>
      cases e3 : fl.parse n with
      | none => exact ⟨_, _, _, .bad hd (.inr (.inr (.inl e3)))⟩
      | some v3 =>
      cases e4 : optional ptnAllocsOp parseUint64 0 l with
      | none => exact ⟨_, _, _, .bad hd (.inr (.inr (.inr (.inl e4))))⟩
      | some v4 =>
      cases e5 : optional ptnBytesOp parseUint64 0 l with
      | none => exact ⟨_, _, _, .bad hd (.inr (.inr (.inr (.inr (.inl e5)))))⟩
      | some v5 =>
      cases e6 : optional ptnMbSec fl.parse fl.zero l with
      | none => exact ⟨_, _, _, .bad hd (.inr (.inr (.inr (.inr (.inr e6)))))⟩
      | some v6 => exact ⟨_, _, _, .data (d := ⟨h, t, v1, v2, v3, v4, v5, v6⟩) hd e1 e2 e3 e4 e5 e6 ih⟩
    · refine ⟨_, _, _, .other h1 h2 ?_ ih⟩
      intro h t c r n rest hd
      exact h3 ⟨h, t, c, r, n, rest, hd⟩

/-- What a list of texts has to say. -/
theorem history_total (fl : Floats F) : ∀ ts : List Bytes, ∃ ds, History fl ts ds
  | [] => ⟨_, .none⟩
  | t :: ts => by
    obtain ⟨_, ih⟩ := history_total fl ts
    obtain ⟨_, _, _, h⟩ := reads_total fl (scanLines t)
    exact ⟨_, .text h ih⟩

/-- The warning text with one more marked line. -/
def addText (w t : Bytes) : Bytes := (if w.length > 0 then w ++ b!"\n" else w) ++ t

theorem dataLine_mark {l h t c r n rest : Bytes} (hd : DataLine l h t c r n rest) : (∀ s, l ≠ 0x23 :: s) := by
  cases hd
  intro s e
  simp at e

theorem dataLine_not {l h t c r n rest : Bytes} (hd : DataLine l h t c r n rest) :
    ptnHandlerDef.find l = none ∧ ptnWarnLine.find l = none := by
  refine ⟨find_handlerDef_none (dataLine_mark hd), find_warnLine_none ?_⟩
  rintro ⟨t, e⟩
  exact dataLine_mark hd _ e.symm

theorem text1 {m : Caps} {a b c d e : Bytes} (h : m = [(1, a), (2, b), (3, c), (4, d), (5, e)]) :
    Caps.text m 1 = a ∧ Caps.text m 2 = b ∧ Caps.text m 3 = c ∧ Caps.text m 4 = d ∧ Caps.text m 5 = e := by
  subst h
  simp [Caps.text, Map.get_cons]

theorem line_data {E : Env} {fl : Floats F} {b : Bench F} {l h t c r n rest : Bytes} (hd : DataLine l h t c r n rest) :
    b.line E fl l = (readData fl l [(1, h), (2, t), (3, c), (4, r), (5, n)]).map (b.store E fl) := by
  unfold Bench.line
  rw [(dataLine_not hd).1, (dataLine_not hd).2, find_data hd]
  simp only
  cases readData fl l [(1, h), (2, t), (3, c), (4, r), (5, n)] <;> rfl

theorem readData_some {fl : Floats F} {l c r n : Bytes} {d : Data F}
    (h1 : parseUint64 c = some d.cpus) (h2 : parseUint64 r = some d.runs) (h3 : fl.parse n = some d.nsOps)
    (h4 : optional ptnAllocsOp parseUint64 0 l = some d.allocsOp) (h5 : optional ptnBytesOp parseUint64 0 l = some d.bytesOp)
    (h6 : optional ptnMbSec fl.parse fl.zero l = some d.mbSec) :
    readData fl l [(1, d.handler), (2, d.test), (3, c), (4, r), (5, n)] = some d := by
  obtain ⟨t1, t2, t3, t4, t5⟩ := text1 (m := [(1, d.handler), (2, d.test), (3, c), (4, r), (5, n)]) rfl
  unfold readData
  rw [t1, t2, t3, t4, t5, h1, h2, h3, h4, h5, h6]
  rfl

theorem readData_none {fl : Floats F} {l h t c r n : Bytes}
    (hb : parseUint64 c = none ∨ parseUint64 r = none ∨ fl.parse n = none ∨ optional ptnAllocsOp parseUint64 0 l = none ∨
        optional ptnBytesOp parseUint64 0 l = none ∨ optional ptnMbSec fl.parse fl.zero l = none) :
    readData fl l [(1, h), (2, t), (3, c), (4, r), (5, n)] = none := by
  obtain ⟨t1, t2, t3, t4, t5⟩ := text1 (m := [(1, h), (2, t), (3, c), (4, r), (5, n)]) rfl
  unfold readData
  rw [t1, t2, t3, t4, t5]
  rcases hb with e | e | e | e | e | e <;> rw [e]
  · rfl
  · cases parseUint64 c <;> rfl
  · cases parseUint64 c <;> cases parseUint64 r <;> rfl
  · cases parseUint64 c <;> cases parseUint64 r <;> cases fl.parse n <;> rfl
  · cases parseUint64 c <;> cases parseUint64 r <;> cases fl.parse n <;> cases optional ptnAllocsOp parseUint64 0 l <;> rfl
  · cases parseUint64 c <;> cases parseUint64 r <;> cases fl.parse n <;> cases optional ptnAllocsOp parseUint64 0 l <;>
      cases optional ptnBytesOp parseUint64 0 l <;> rfl

/-- The parts of the state that only data and marked lines change. -/
structure After (E : Env) (fl : Floats F) (b b' : Bench F) (ds : List (Data F)) (ws : List Bytes) : Prop where
  byTest : b'.byTest = ds.foldl (fun m d => (Bench.store E fl { byTest := m } d).byTest) b.byTest
  byHandler : b'.byHandler = ds.foldl (fun m d => (Bench.store E fl { byHandler := m } d).byHandler) b.byHandler
  warningText : b'.warningText = ws.foldl addText b.warningText
  tests : b'.tests = b.tests
  handlers : b'.handlers = b.handlers

theorem lines_reads {E : Env} {fl : Floats F} {ls : List Bytes} {ds : List (Data F)} {ws : List Bytes} {e : Bool}
    (h : Reads fl ls ds ws e) (hl : ∀ l ∈ ls, (0x0A : UInt8) ∉ l) : ∀ b : Bench F,
      (b.lines E fl ls).2 = e ∧ After E fl b (b.lines E fl ls).1 ds ws := by
  induction h with
  | done => intro b; exact ⟨rfl, rfl, rfl, rfl, rfl, rfl⟩
  | @define l ls ds ws e hd hr ih =>
    intro b
    obtain ⟨m, hm⟩ := Option.isSome_iff_exists.1 hd
    have : b.line E fl l = some { b with handlerNames := b.handlerNames.set (Caps.text m 1) (Caps.text m 2) } := by
      unfold Bench.line; rw [hm]
    unfold Bench.lines
    rw [this]
    have := ih (fun l h => hl l (by simp [h])) { b with handlerNames := b.handlerNames.set (Caps.text m 1) (Caps.text m 2) }
    exact ⟨this.1, this.2.byTest, this.2.byHandler, this.2.warningText, this.2.tests, this.2.handlers⟩
  | @warn l t ls ds ws e hd hlt hr ih =>
    intro b
    have h0 : ptnHandlerDef.find l = none := by
      cases hf : ptnHandlerDef.find l with
      | none => rfl
      | some m => exact absurd (by rw [Defines, hf]; rfl) hd
    have hdot : ∀ a ∈ t, isDot a = true := by
      intro a ha
      have := hl l (by simp)
      rw [hlt] at this
      unfold isDot
      simp only [bne_iff_ne, ne_eq]
      rintro rfl
      exact this (by simp [ha])
    have : b.line E fl l = some { b with warningText := addText b.warningText t } := by
      unfold Bench.line
      rw [h0]
      simp only
      rw [hlt, find_warnLine hdot]
      simp [Caps.text, Map.get_cons, addText]
    unfold Bench.lines
    rw [this]
    have := ih (fun l h => hl l (by simp [h])) { b with warningText := addText b.warningText t }
    exact ⟨this.1, this.2.byTest, this.2.byHandler, this.2.warningText, this.2.tests, this.2.handlers⟩
  | @data l c r n rest d ls ds ws e hd h1 h2 h3 h4 h5 h6 hr ih =>
    intro b
    have : b.line E fl l = some (b.store E fl d) := by
      rw [line_data hd, readData_some h1 h2 h3 h4 h5 h6]; rfl
    unfold Bench.lines
    rw [this]
    have := ih (fun l h => hl l (by simp [h])) (b.store E fl d)
    exact ⟨this.1, this.2.byTest, this.2.byHandler, this.2.warningText, this.2.tests, this.2.handlers⟩
  | @bad l h t c r n rest ls hd hb =>
    intro b
    have : b.line E fl l = none := by
      rw [line_data hd, readData_none hb]; rfl
    unfold Bench.lines
    rw [this]
    exact ⟨rfl, rfl, rfl, rfl, rfl, rfl⟩
  | @other l ls ds ws e hd hw hn hr ih =>
    intro b
    have h0 : ptnHandlerDef.find l = none := by
      cases hf : ptnHandlerDef.find l with
      | none => rfl
      | some m => exact absurd (by rw [Defines, hf]; rfl) hd
    have : b.line E fl l = some b := by
      unfold Bench.line
      rw [h0, find_warnLine_none hw, find_data_none hn]
    unfold Bench.lines
    rw [this]
    exact ih (fun l h => hl l (by simp [h])) b

theorem history_after {E : Env} {fl : Floats F} {ts : List Bytes} {ds : List (Data F)} (h : History fl ts ds) : ∀ b : Bench F,
    ∃ ws, After E fl b (ts.foldl (fun b t => (b.parse E fl t).1) b) ds ws := by
  induction h with
  | none => intro b; exact ⟨[], rfl, rfl, rfl, rfl, rfl⟩
  | @text t ts ds ds' ws e hr _ ih =>
    intro b
    have h1 := (lines_reads (E := E) hr (fun l hl => scan_oneLine hl) b).2
    obtain ⟨ws', h2⟩ := ih (b.parse E fl t).1
    refine ⟨ws ++ ws', ?_, ?_, ?_, ?_, ?_⟩
    · rw [List.foldl_cons, h2.byTest, List.foldl_append, show (b.parse E fl t).1.byTest = _ from h1.byTest]
    · rw [List.foldl_cons, h2.byHandler, List.foldl_append, show (b.parse E fl t).1.byHandler = _ from h1.byHandler]
    · rw [List.foldl_cons, h2.warningText, List.foldl_append, show (b.parse E fl t).1.warningText = _ from h1.warningText]
    · rw [List.foldl_cons, h2.tests]; exact h1.tests
    · rw [List.foldl_cons, h2.handlers]; exact h1.handlers

/-! ### Two levels of maps -/

/-- Looking up in a map of maps. -/
def look2 (m : Map Bytes (Map Bytes (Record F))) (a b : Bytes) : Option (Record F) := ((m.get a).getD []).get b

theorem look2_set (m : Map Bytes (Map Bytes (Record F))) (a b : Bytes) (v : Record F) (x y : Bytes) :
    look2 (m.set a (((m.get a).getD []).set b v)) x y = if x = a ∧ y = b then some v else look2 m x y := by
  unfold look2
  rw [Map.get_set]
  by_cases h : x = a
  · subst h
    simp only [if_true, Option.getD_some, Map.get_set, true_and]
  · simp [h]

theorem fold_look (sel sel' : Data F → Bytes) (rec : Data F → Record F) (x y : Bytes) : ∀ (ds : List (Data F)) (m : Map Bytes (Map Bytes (Record F))),
    look2 (ds.foldl (fun m d => m.set (sel d) (((m.get (sel d)).getD []).set (sel' d) (rec d))) m) x y =
      match (ds.filter fun d => decide (sel d = x ∧ sel' d = y)).getLast? with
      | some d => some (rec d)
      | none => look2 m x y
  | [], m => rfl
  | d :: ds, m => by
    rw [List.foldl_cons, fold_look sel sel' rec x y ds, look2_set, List.filter_cons]
    by_cases h : sel d = x ∧ sel' d = y
    · simp only [h, decide_true, if_true, and_self, List.getLast?_cons]
      cases (ds.filter fun d => decide (sel d = x ∧ sel' d = y)).getLast? <;> rfl
    · have h' : ¬ (x = sel d ∧ y = sel' d) := fun e => h ⟨e.1.symm, e.2.symm⟩
      simp only [h, decide_false, h', if_false, Bool.false_eq_true]

theorem fold_keys (sel sel' : Data F → Bytes) (rec : Data F → Record F) (x : Bytes) : ∀ (ds : List (Data F)) (m : Map Bytes (Map Bytes (Record F))),
    x ∈ (ds.foldl (fun m d => m.set (sel d) (((m.get (sel d)).getD []).set (sel' d) (rec d))) m).keys ↔ x ∈ m.keys ∨ ∃ d ∈ ds, sel d = x
  | [], m => by simp
  | d :: ds, m => by
    rw [List.foldl_cons, fold_keys sel sel' rec x ds, Map.mem_keys, Map.get_set, Map.mem_keys]
    by_cases h : x = sel d
    · subst h; simp
    · have : ¬ sel d = x := fun e => h e.symm
      simp [h, this]

theorem fold_nodup (sel sel' : Data F → Bytes) (rec : Data F → Record F) : ∀ (ds : List (Data F)) (m : Map Bytes (Map Bytes (Record F))),
    m.keys.Nodup → (ds.foldl (fun m d => m.set (sel d) (((m.get (sel d)).getD []).set (sel' d) (rec d))) m).keys.Nodup
  | [], m, h => h
  | d :: ds, m, h => by
    rw [List.foldl_cons]
    exact fold_nodup sel sel' rec ds _ (Map.nodup_set h _ _)

/-- The record stored by test. -/
def fullRecord (fl : Floats F) (d : Data F) : Record F :=
  ⟨d.runs, d.nsOps, d.bytesOp, d.allocsOp, d.mbSec, fl.kilo d.mbSec, fl.mega d.mbSec⟩
/-- The record stored by handler. -/
def partRecord (fl : Floats F) (d : Data F) : Record F := ⟨d.runs, d.nsOps, d.bytesOp, d.allocsOp, d.mbSec, fl.zero, fl.zero⟩

theorem after_views {E : Env} {fl : Floats F} {b' : Bench F} {ds : List (Data F)} {ws : List Bytes} (h : After E fl {} b' ds ws) (hd tag : Bytes) :
    (b'.handlerRecordsFor tag).get hd = (lastFor ds hd tag).map (fullRecord fl) ∧
    (b'.testRecordsFor hd).get tag = (lastFor ds hd tag).map (partRecord fl) := by
  constructor
  · have : (b'.handlerRecordsFor tag).get hd = look2 b'.byTest tag hd := rfl
    rw [this, h.byTest]
    have := fold_look (F := F) tagOf Data.handler (fullRecord fl) tag hd ds []
    refine this.trans ?_
    unfold lastFor
    have : (fun d : Data F => decide (tagOf d = tag ∧ d.handler = hd)) = fun d => decide (d.handler = hd ∧ tagOf d = tag) := by
      funext d; exact decide_eq_decide.2 and_comm
    rw [this]
    cases (ds.filter fun d => decide (d.handler = hd ∧ tagOf d = tag)).getLast? <;> rfl
  · have : (b'.testRecordsFor hd).get tag = look2 b'.byHandler hd tag := rfl
    rw [this, h.byHandler]
    have := fold_look (F := F) Data.handler tagOf (partRecord fl) hd tag ds []
    refine this.trans ?_
    unfold lastFor
    cases (ds.filter fun d => decide (d.handler = hd ∧ tagOf d = tag)).getLast? <;> rfl

/-! ### C37 -/

/-- What holds of C37: after reading any texts, both views hold for every handler and test
the last result read for the two, and nothing else: runs, time, bytes, allocations and
rate. Missing: the rate in GB/s and TB/s (`C37_rates_differ`). -/
theorem C37_views_partial (E : Env) (fl : Floats F) (texts : List Bytes) (ds : List (Data F)) (hh : History fl texts ds) (h tag : Bytes) :
    (((readAll E fl texts).handlerRecordsFor tag).get h).map Main.ofRecord = (lastFor ds h tag).map Main.of ∧
    (((readAll E fl texts).testRecordsFor h).get tag).map Main.ofRecord = (lastFor ds h tag).map Main.of := by
  obtain ⟨ws, ha⟩ := history_after (E := E) hh {}
  obtain ⟨h1, h2⟩ := after_views ha h tag
  unfold readAll
  rw [h1, h2]
  constructor <;> cases lastFor ds h tag <;> rfl

/-- C37: both views have the same pairs. -/
theorem C37_same_pairs (E : Env) (fl : Floats F) (texts : List Bytes) (h tag : Bytes) :
    (((readAll E fl texts).handlerRecordsFor tag).get h).isSome = (((readAll E fl texts).testRecordsFor h).get tag).isSome := by
  obtain ⟨ds, hh⟩ := history_total fl texts
  obtain ⟨ws, ha⟩ := history_after (E := E) hh {}
  obtain ⟨h1, h2⟩ := after_views ha h tag
  unfold readAll
  rw [h1, h2]
  cases lastFor ds h tag <;> rfl

/-- The view by test has the rate in all units. -/
theorem C37_by_test (E : Env) (fl : Floats F) (texts : List Bytes) (ds : List (Data F)) (hh : History fl texts ds) (h tag : Bytes) (d : Data F)
    (hl : lastFor ds h tag = some d) :
    ((readAll E fl texts).handlerRecordsFor tag).get h =
      some ⟨d.runs, d.nsOps, d.bytesOp, d.allocsOp, d.mbSec, fl.kilo d.mbSec, fl.mega d.mbSec⟩ := by
  obtain ⟨ws, ha⟩ := history_after (E := E) hh {}
  obtain ⟨h1, _⟩ := after_views ha h tag
  unfold readAll
  rw [h1, hl]
  rfl

/-- C37: the lists of tags, when first asked for, have every tag seen exactly once,
sorted by name. -/
theorem C37_tags (E : Env) (fl : Floats F) (S : Sorter) (pick : List Bytes → List Bytes) (hp : ∀ l, (pick l).Perm l) (texts : List Bytes)
    (ds : List (Data F)) (hh : History fl texts ds) (b : Bench F) (hb : b = readAll E fl texts) :
    ((∀ h, h ∈ (b.handlerTags S pick).2 ↔ ∃ d ∈ ds, d.handler = h) ∧ (b.handlerTags S pick).2.Nodup ∧
      (b.handlerTags S pick).2.Pairwise fun i j => less (b.handlerName j) (b.handlerName i) = false) ∧
    ((∀ t, t ∈ (b.testTags S pick).2 ↔ ∃ d ∈ ds, tagOf d = t) ∧ (b.testTags S pick).2.Nodup ∧
      (b.testTags S pick).2.Pairwise fun i j => less (b.testName j) (b.testName i) = false) := by
  obtain ⟨ws, ha⟩ := history_after (E := E) hh {}
  have key : ∀ (name : Bytes → Bytes) (m : Map Bytes (Map Bytes (Record F))), m.keys.Nodup →
      let l := ((collect (pick m.keys)).map (S.sort fun i j => less (name i) (name j))).getD []
      (∀ x, x ∈ l ↔ x ∈ m.keys) ∧ l.Nodup ∧ l.Pairwise fun i j => less (name j) (name i) = false := by
    intro name m hm
    unfold collect
    by_cases h : pick m.keys = []
    · have : m.keys = [] := by
        have := hp m.keys
        rw [h] at this
        exact this.symm.eq_nil
      rw [if_pos h, this]
      simp
    · simp only [h, if_false, Option.map_some, Option.getD_some]
      have hperm := (S.perm (fun i j => less (name i) (name j)) (pick m.keys)).trans (hp m.keys)
      refine ⟨fun x => hperm.mem_iff, hperm.nodup_iff.2 hm, ?_⟩
      exact S.sorted (fun i j => less (name i) (name j)) (pick m.keys) (less_weak.comap name)
  subst hb
  constructor
  · have hn : (readAll E fl texts).handlers = none := ha.handlers
    have hm : (readAll E fl texts).byHandler.keys.Nodup := by
      rw [show (readAll E fl texts).byHandler = _ from ha.byHandler]
      exact fold_nodup (F := F) Data.handler tagOf (partRecord fl) ds [] .nil
    obtain ⟨h1, h2, h3⟩ := key (readAll E fl texts).handlerName _ hm
    unfold Bench.handlerTags
    rw [hn]
    simp only
    refine ⟨fun h => (h1 h).trans ?_, h2, h3⟩
    rw [show (readAll E fl texts).byHandler = _ from ha.byHandler]
    have := fold_keys (F := F) Data.handler tagOf (partRecord fl) h ds []
    exact this.trans (by simp [Map.keys])
  · have hn : (readAll E fl texts).tests = none := ha.tests
    have hm : (readAll E fl texts).byTest.keys.Nodup := by
      rw [show (readAll E fl texts).byTest = _ from ha.byTest]
      exact fold_nodup (F := F) tagOf Data.handler (fullRecord fl) ds [] .nil
    obtain ⟨h1, h2, h3⟩ := key (readAll E fl texts).testName _ hm
    unfold Bench.testTags
    rw [hn]
    simp only
    refine ⟨fun h => (h1 h).trans ?_, h2, h3⟩
    rw [show (readAll E fl texts).byTest = _ from ha.byTest]
    have := fold_keys (F := F) tagOf Data.handler (fullRecord fl) h ds []
    exact this.trans (by simp [Map.keys])

/-! ### What fails -/

/-- C37 as stated, for the measurements: both views have the same records. -/
def C37_statement (fl : Floats F) : Prop := ∀ (E : Env) (texts : List Bytes) (h tag : Bytes),
  ((readAll E fl texts).handlerRecordsFor tag).get h = ((readAll E fl texts).testRecordsFor h).get tag

/-- A line of a benchmark. -/
def someLine : Bytes := b!"BenchmarkPhsym/BenchmarkBig_Group-8\t  100\t  12.5 ns/op\t   2.5 MB/s\t  16 B/op\t   3 allocs/op"

/-- Its parts. -/
theorem someLine_data : DataLine someLine b!"Phsym" b!"Big_Group" b!"8" b!"100" b!"12.5" b!"\t   2.5 MB/s\t  16 B/op\t   3 allocs/op" :=
  DataLine.mk (h := b!"Phsym") (t := b!"Big_Group") (c := b!"8") (r := b!"100") (n := b!"12.5") (rest := b!"\t   2.5 MB/s\t  16 B/op\t   3 allocs/op") (s1 := b!"\t  ") (s2 := b!"\t  ") (s3 := b!" ") ⟨by simp, by decide⟩ ⟨by simp, by decide⟩ ⟨by simp, by decide⟩ ⟨by simp, by decide⟩
    ⟨by simp, by decide⟩ ⟨by simp, by decide⟩ (.inr ⟨b!"12", b!"5", rfl, ⟨by simp, by decide⟩, ⟨by simp, by decide⟩⟩)
    ⟨by simp, by decide⟩ (by decide)

theorem someLine_reads (fl : Floats F) {x y : F} (hx : fl.parse b!"12.5" = some x) (hy : fl.parse b!"2.5" = some y) :
    History fl [someLine ++ b!"\n# Warning\n"] [⟨b!"Phsym", b!"Big_Group", 8, 100, x, 3, 16, y⟩] := by
  have hs : scanLines (someLine ++ b!"\n# Warning\n") = [someLine, b!"# Warning"] := by decide +kernel
  have h := Reads.data (fl := fl) (d := ⟨b!"Phsym", b!"Big_Group", 8, 100, x, 3, 16, y⟩) someLine_data
    (show parseUint64 b!"8" = some 8 by decide +kernel) (show parseUint64 b!"100" = some 100 by decide +kernel) hx
    (show optional ptnAllocsOp parseUint64 0 someLine = some 3 by decide +kernel)
    (show optional ptnBytesOp parseUint64 0 someLine = some 16 by decide +kernel)
    (by
      have : ptnMbSec.findAny someLine = some [(1, b!"2.5")] := by decide +kernel
      unfold Data.optional
      rw [this]
      exact hy)
    (.warn (l := b!"# Warning") (t := b!"Warning") (by unfold Defines; decide +kernel) rfl .done)
  have := History.text (t := someLine ++ b!"\n# Warning\n") (by rw [hs]; exact h) .none
  exact this

/-- C37 is false for the rates: by test they are given in GB/s and TB/s as well, by
handler these are zero. -/
theorem C37_rates_differ (fl : Floats F) {x y : F} (hx : fl.parse b!"12.5" = some x) (hy : fl.parse b!"2.5" = some y)
    (hk : fl.kilo y ≠ fl.zero) : ¬ C37_statement fl := by
  intro h
  have := h ⟨Letters.asciiLib, fun _ => [], fun _ => none⟩ [someLine ++ b!"\n# Warning\n"] b!"Phsym" b!"Bench.Big_Group"
  obtain ⟨ws, ha⟩ := history_after (E := ⟨Letters.asciiLib, fun _ => [], fun _ => none⟩) (someLine_reads fl hx hy) {}
  obtain ⟨h1, h2⟩ := after_views ha b!"Phsym" b!"Bench.Big_Group"
  unfold readAll at this
  rw [h1, h2] at this
  simp only [lastFor, tagOf] at this
  simp [fullRecord, partRecord] at this
  exact hk this.1

/-- Numbers as terms. -/
inductive Term
  | num (s : Bytes)
  | zero
  | kilo (t : Term)
  | mega (t : Term)
deriving DecidableEq

/-- The number of the text. -/
def terms : Floats Term := ⟨fun s => some (.num s), .zero, .kilo, .mega⟩

/-- The assumptions of `C37_rates_differ` can be met. -/
example : ¬ C37_statement terms := C37_rates_differ terms rfl rfl (by simp [terms])

/-- A case of `C37_views_partial` and `C37_tags`. -/
example (E : Env) (S : Sorter) :
    (((readAll E terms [someLine ++ b!"\n# Warning\n"]).testRecordsFor b!"Phsym").get b!"Bench.Big_Group").map Main.ofRecord =
      some ⟨100, .num b!"12.5", 16, 3, .num b!"2.5"⟩ ∧
    b!"Phsym" ∈ ((readAll E terms [someLine ++ b!"\n# Warning\n"]).handlerTags S id).2 := by
  refine ⟨(C37_views_partial E terms _ _ (someLine_reads terms rfl rfl) b!"Phsym" b!"Bench.Big_Group").2, ?_⟩
  have := (C37_tags E terms S id (fun l => .refl l) _ _ (someLine_reads terms rfl rfl) _ rfl).1.1 b!"Phsym"
  exact this.2 ⟨_, List.mem_singleton.2 rfl, rfl⟩

/-- C37 as stated, for the tags: the list has every handler seen so far, also after more
was read. -/
def C37_tags_statement (fl : Floats F) : Prop := ∀ (E : Env) (S : Sorter) (b : Bench F) (text text' h : Bytes),
  b = ((Bench.parse E fl {} text).1.handlerTags S id).1 →
  ((b.parse E fl text').1.hasHandler h = true → h ∈ ((b.parse E fl text').1.handlerTags S id).2)

/-- C37 is false for tags if they are asked for before the last text is read: the list is
made once. -/
theorem C37_tags_stale : ¬ C37_tags_statement terms := by
  intro h
  have := h ⟨Letters.asciiLib, fun _ => [], fun _ => none⟩ someSorter _ someLine b!"BenchmarkNew/BenchmarkBig_Group-8 1 1 ns/op" b!"New" rfl
  revert this
  decide +kernel

end Verif.Props.BenchData
