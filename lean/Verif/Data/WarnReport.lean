import Verif.Data.WarnSteps
import Verif.Data.WarnLog
import Verif.Spec.Lines

/-
The warning parser on whole reports.
-/

set_option linter.unusedSimpArgs false

namespace Verif.Data
open Go Slog Letters Lines Verif.Warning

/-! ### Texts that can be read back -/

/-- A text and its lines: the first one, and the others. -/
structure TextLines (text first : Bytes) (more : List Bytes) : Prop where
  text : text = first ++ (more.map fun l => 0x0A :: l).flatten
  one : OneLine first
  each : ∀ l ∈ more, OneLine l

/-- Does not end with white space. -/
def EndsSolid (l : Bytes) : Prop := ∀ a t, l = t ++ [a] → isS a = false

/-- An instance that can be read back: a function name that is a word and nothing else
the parser knows, a text whose first line is not blank and starts and ends with something,
further lines that end with something, a log record in braces on one line. -/
structure OkInst (L : Replace.Lib) (d : Instance) : Prop where
  fn : FnName L d.function d.text
  text : ∃ T ls, TextLines d.text T ls ∧ Trim T ∧ (d.text ≠ [] → T ≠ []) ∧ ∀ l ∈ ls, EndsSolid l
  record : d.record = [] ∨ ∃ l, d.record = 0x7B :: l ∧ OneLine l ∧ EndsSolid l

/-- A warning that can be read back. -/
structure OkWarn (L : Replace.Lib) (w : Instances) : Prop where
  level : w.level ∈ levelOrder
  name : OneLine w.name
  summary : Trim w.summary
  bracket : ∀ a ∈ w.summary, a ≠ 0x5D
  data : ∀ d ∈ w.data, OkInst L d

/-- A handler name that can be read back. -/
structure OkName (N : Bytes) : Prop where
  ne : N ≠ []
  one : OneLine N
  first : ∀ a t, N = a :: t → isS a = false

/-! ### The lines of a report -/

theorem splitNL_ne (s : Bytes) : splitNL s ≠ [] := by
  cases s with
  | nil => simp [splitNL]
  | cons a s =>
    unfold splitNL
    split
    · simp
    · split <;> simp

theorem splitNL_one {l : Bytes} (h : OneLine l) : splitNL l = [l] := by
  induction l with
  | nil => rfl
  | cons a l ih =>
    rw [splitNL, if_neg (h a (by simp)), ih fun b hb => h b (by simp [hb])]

theorem splitNL_line {l : Bytes} (h : OneLine l) (s : Bytes) : splitNL (l ++ 0x0A :: s) = l :: splitNL s := by
  induction l with
  | nil => simp [splitNL]
  | cons a l ih =>
    rw [List.cons_append, splitNL, if_neg (h a (by simp)), ih fun b hb => h b (by simp [hb])]

theorem splitNL_lines {text T : Bytes} {ls : List Bytes} (h : TextLines text T ls) : splitNL text = T :: ls := by
  obtain ⟨e, h1, h2⟩ := h
  subst e
  induction ls generalizing T with
  | nil => simpa using splitNL_one h1
  | cons l ls ih =>
    simp only [List.map_cons, List.flatten_cons, List.cons_append]
    rw [splitNL_line h1, ih (h2 l (by simp)) fun l hl => h2 l (by simp [hl])]

theorem unlines_append (ls ms : List Bytes) : unlines (ls ++ ms) = unlines ls ++ unlines ms := by
  induction ls with
  | nil => rfl
  | cons l ls ih => simp [unlines, ih]

/-- The lines of an instance. -/
def instLinesOf (p : Bytes) (d : Instance) (T : Bytes) (ls : List Bytes) : List Bytes :=
  (p ++ b!"         " ++ if T = [] then d.function else d.function ++ b!": " ++ T) ::
    ls.map (fun l => p ++ b!"           +" ++ l) ++
    if d.record = [] then [] else [p ++ b!"           " ++ d.record]

/-- The lines of an instance. -/
def instLines (p : Bytes) (d : Instance) : List Bytes := instLinesOf p d ((splitNL d.text).headD []) (splitNL d.text).tail

theorem instLines_of {p : Bytes} {d : Instance} {T : Bytes} {ls : List Bytes} (h : TextLines d.text T ls) :
    instLines p d = instLinesOf p d T ls := by
  unfold instLines; rw [splitNL_lines h]; rfl

theorem joinSep_lines (sep : Bytes) (T : Bytes) (ls : List Bytes) :
    joinSep sep (T :: ls) = T ++ (ls.map fun l => sep ++ l).flatten := by
  induction ls generalizing T with
  | nil => simp [joinSep]
  | cons l ls ih =>
    rw [joinSep]
    · rw [ih]; simp
    · simp

theorem unlines_more (p X : Bytes) (ls : List Bytes) : unlines (X :: ls.map fun l => p ++ b!"           +" ++ l) =
    X ++ (ls.map fun l => b!"\n" ++ p ++ b!"           +" ++ l).flatten ++ b!"\n" := by
  induction ls generalizing X with
  | nil => simp [unlines]
  | cons l ls ih =>
    have := ih (p ++ b!"           +" ++ l)
    rw [List.map_cons, unlines, this]
    simp

/-- The lines printed are these. -/
theorem showInstance_lines {L : Replace.Lib} {d : Instance} (hd : OkInst L d) (p : Bytes) :
    showInstance p d = unlines (instLines p d) := by
  obtain ⟨T, ls, ht, hT, hT0, hls⟩ := hd.text
  unfold showInstance
  rw [instLines_of ht]
  unfold instLinesOf
  have hs := splitNL_lines ht
  rw [hs, unlines_append]
  simp only [joinSep_lines]
  congr 1
  · rw [unlines_more]
    by_cases h0 : d.text = []
    · have hT : T = [] ∧ ls = [] := by
        have := ht.text
        rw [h0] at this
        have := congrArg List.length this
        cases ls with
        | nil => exact ⟨List.eq_nil_of_length_eq_zero (by simp at this; omega), rfl⟩
        | cons l ls => simp at this
      obtain ⟨rfl, rfl⟩ := hT
      simp [h0]
    · rw [if_pos h0, if_neg (hT0 h0)]
      simp
  · by_cases h : d.record = []
    · simp [h, unlines]
    · simp [h, unlines]

/-- The lines of a warning. -/
def warnLines (p : Bytes) (w : Instances) : List Bytes :=
  (p ++ b!"  " ++ pad4 w.count ++ b!" [" ++ w.name ++ b!"] " ++ w.summary) :: (w.data.map (instLines p)).flatten

theorem unlines_flatten (l : List (List Bytes)) : unlines l.flatten = (l.map unlines).flatten := by
  induction l with
  | nil => rfl
  | cons a l ih => simp [unlines_append, ih]

theorem showInstances_lines {L : Replace.Lib} {w : Instances} (hw : OkWarn L w) (p : Bytes) :
    showInstances p w = unlines (warnLines p w) := by
  unfold showInstances warnLines
  rw [unlines, unlines_flatten, List.map_map]
  have : List.map (showInstance p) w.data = List.map (unlines ∘ instLines p) w.data :=
    List.map_congr_left fun d hd => showInstance_lines (hw.data d hd) p
  rw [this]
  simp

/-- The lines of a level. -/
def levelLines (S : Sorter) (p : Bytes) (ws : List Instances) (level : Nat) : List Bytes :=
  if levelList S ws level = [] then []
  else (p ++ b!"  " ++ levelText level) :: ((levelList S ws level).map (warnLines p)).flatten

theorem levelList_mem {S : Sorter} {ws : List Instances} {level : Nat} {w : Instances} :
    w ∈ levelList S ws level ↔ w ∈ ws ∧ w.level = level := by
  unfold levelList
  rw [(S.perm _ _).mem_iff, List.mem_filter]
  simp

theorem showLevel_lines {L : Replace.Lib} {ws : List Instances} (hw : ∀ w ∈ ws, OkWarn L w) (S : Sorter) (p : Bytes) (level : Nat) :
    showLevel S p ws level = unlines (levelLines S p ws level) := by
  unfold showLevel levelLines
  have hm : ∀ w ∈ levelList S ws level, OkWarn L w := fun w h => hw w (levelList_mem.1 h).1
  generalize levelList S ws level = l at *
  cases l with
  | nil => rfl
  | cons w l =>
    rw [if_neg (by simp)]
    simp only
    rw [unlines, unlines_flatten, List.map_map]
    have : List.map (showInstances p) (w :: l) = List.map (unlines ∘ warnLines p) (w :: l) :=
      List.map_congr_left fun d hd => showInstances_lines (hm d hd) p
    rw [this]
    simp

/-- The warnings of a report. -/
def shown (S : Sorter) (pick : List Bytes → List Bytes) (m : Manager) : List Instances := (m.getWarnings S pick).2.getD []

/-- The lines of a report. -/
def reportLines (S : Sorter) (pick : List Bytes → List Bytes) (m : Manager) : List Bytes :=
  [m.showPrefix, m.showPrefix ++ b!"Warnings for " ++ m.name ++ b!":"] ++
    if shown S pick m = [] then [m.showPrefix ++ b!"  None"]
    else (levelOrder.map (levelLines S m.showPrefix (shown S pick m))).flatten

/-- A manager whose report can be read back. -/
structure OkManager (L : Replace.Lib) (S : Sorter) (pick : List Bytes → List Bytes) (m : Manager) : Prop where
  pre : Pre m.showPrefix
  name : OkName m.name
  warns : ∀ w ∈ shown S pick m, OkWarn L w

theorem getWarnings_prefix (S : Sorter) (pick : List Bytes → List Bytes) (m : Manager) :
    (m.getWarnings S pick).1.showPrefix = m.showPrefix := by
  unfold Manager.getWarnings
  split
  · rfl
  · simp only
    unfold Manager.cleanUp
    split
    · rfl
    · simp only; split <;> rfl

theorem showWarnings_lines {L : Replace.Lib} {S : Sorter} {pick : List Bytes → List Bytes} {m : Manager}
    (hm : OkManager L S pick m) : (m.showWarnings S pick).2 = unlines (reportLines S pick m) := by
  have hw := hm.warns
  unfold Manager.showWarnings reportLines
  rw [unlines_append]
  have hp := getWarnings_prefix S pick m
  unfold shown at *
  generalize m.getWarnings S pick = g at *
  obtain ⟨m', r⟩ := g
  simp only at hp
  simp only [if_pos hm.name.ne, hp]
  have hhead : m.showPrefix ++ b!"\n" ++ m.showPrefix ++ b!"Warnings" ++ (b!" for " ++ m.name) ++ b!":\n" =
      unlines [m.showPrefix, m.showPrefix ++ b!"Warnings for " ++ m.name ++ b!":"] := by simp [unlines]
  match r, hw with
  | none, _ => simp [unlines]
  | some [], _ => simp [unlines]
  | some (w :: ws), hw =>
    simp only [Option.getD_some] at hw ⊢
    rw [if_neg (by simp), unlines_flatten, List.map_map, ← hhead]
    have : List.map (showLevel S m.showPrefix (w :: ws)) levelOrder = List.map (unlines ∘ levelLines S m.showPrefix (w :: ws)) levelOrder :=
      List.map_congr_left fun l _ => showLevel_lines hw S _ l
    rw [this]

/-! ### What the lines do -/

/-- What is to be found of an instance. -/
def readInst (E : Env) (source : Bytes) (d : Instance) : DInst where
  tag := testTag d.function
  source := source
  name := testName E (testTag d.function)
  extra := d.text
  line := d.record
  log := if d.record = [] then [] else (E.indent d.record).getD []

/-- What there is once the instance being read is stored. -/
structure Rel (E : Env) (st : PState) (V : Bytes → Bytes → Bytes → Option DWarn) : Prop where
  inv : Inv (saveInstance E st).w
  view : ∀ h lt n, (saveInstance E st).w.look h lt n = V h lt n

/-- The same, what the views by test and by warning are then, and what is known of the
handlers. -/
structure RelL (E : Env) (st : PState) (V : Bytes → Bytes → Bytes → Option DWarn) (L : List Save) (D : Map Bytes HData) : Prop
    extends Rel E st V where
  log : Logged E (saveInstance E st).w L
  data : st.w.handlerData = D

theorem change_data (w : Warns) (id : Nat) (f : DWarn → DWarn) : (w.change id f).handlerData = w.handlerData := rfl

theorem findTest_data (w : Warns) (t : Bytes) (l : Nat) (n : Bytes) : (w.findTest t l n).1.handlerData = w.handlerData := rfl

theorem findHandler_data (w : Warns) (h : Bytes) (l : Nat) (n : Bytes) : (w.findHandler h l n).1.handlerData = w.handlerData := rfl

theorem save_data (E : Env) (st : PState) : (saveInstance E st).w.handlerData = st.w.handlerData := by
  unfold saveInstance
  cases st.inst with
  | none => rfl
  | some i => simp only; cases st.dWarning <;> rfl

theorem onInstance_data (E : Env) (source fn extra : Bytes) (st : PState) :
    (onInstance E source fn extra st).w.handlerData = st.w.handlerData := by
  rw [← save_data E st]
  unfold onInstance
  simp only
  generalize (if source ≠ [] then source ++ b!"." ++ testTag fn else testTag fn) = t
  by_cases hc : ((saveInstance E st).w.testNames.get t).isSome = true
  · simp only [if_pos hc]
  · simp only [if_neg hc]

/-- The test of an instance (internal/data/warnings_parser.go:216-219). -/
def testOf (source : Bytes) (d : Instance) : Bytes :=
  if source ≠ [] then source ++ b!"." ++ testTag d.function else testTag d.function

/-- What is stored of an instance of a handler's warning. -/
def instSave (E : Env) (source h : Bytes) (level : Nat) (name summary : Bytes) (d : Instance) : Save where
  handler := h
  test := testOf source d
  level := level
  name := name
  summary := summary
  inst := readInst E source d

/-- What is stored of a handler's warning. -/
def warnSaves (E : Env) (source h : Bytes) (w : Instances) : List Save :=
  w.data.map (instSave E source h w.level w.name w.summary)

/-- The warning instances are added to. -/
def OpenAt (E : Env) (st : PState) (n : Bytes) : Prop :=
  ∃ d, st.dWarning = some d ∧ (saveInstance E st).w.hid st.handler (levelText st.level) n = some d

theorem loop_next {E : Env} {source : Bytes} {lookup : Map Bytes Bytes} {l : Bytes} {st st' : PState}
    (h : bodyTop E source lookup l st = .inl (.next st')) (ls : List Bytes) :
    parseLoop E source lookup none (l :: ls) st = parseLoop E source lookup none ls st' := by
  rw [parseLoop]
  simp only [h]

theorem loop_more {E : Env} {source : Bytes} {lookup : Map Bytes Bytes} (hL : LowersLib E.lib) {p : Bytes} (hp : Pre p) (rest : List Bytes) :
    ∀ (ls : List Bytes) (st : PState) (i : DInst), st.handler ≠ [] → st.inst = some i →
      (∀ l ∈ ls, OneLine l ∧ EndsSolid l) →
      parseLoop E source lookup none (ls.map (fun l => p ++ b!"           +" ++ l) ++ rest) st =
        parseLoop E source lookup none rest { st with inst := some { i with extra := i.extra ++ (ls.map fun l => 0x0A :: l).flatten } }
  | [], st, i, _, hi, _ => by simp [← hi]
  | l :: ls, st, i, hh, hi, hl => by
    have h1 := hl l (by simp)
    rw [List.map_cons, List.cons_append,
      loop_next (top_extra hL hp hh (fun a ha => by simpa [isDot] using h1.1 a ha) h1.2)]
    rw [loop_more hL hp rest ls { st with inst := st.inst.map fun i => { i with extra := i.extra ++ [0x0A] ++ l } }
      { i with extra := i.extra ++ [0x0A] ++ l } hh (by simp [hi]) fun x hx => hl x (by simp [hx])]
    simp

theorem onInstance_extra (E : Env) (source fn extra : Bytes) (st : PState) (x : Option DInst) :
    ({ onInstance E source fn extra st with inst := x } : PState) = { onInstance E source fn [] st with inst := x } := rfl

/-- What the lines of an instance do. -/
theorem loop_inst {E : Env} {source : Bytes} {lookup : Map Bytes Bytes} (hL : LowersLib E.lib) {p : Bytes} (hp : Pre p)
    {d : Instance} (hd : OkInst E.lib d) {st : PState} (hh : st.handler ≠ []) (rest : List Bytes) :
    parseLoop E source lookup none (instLines p d ++ rest) st = parseLoop E source lookup none rest
      { onInstance E source d.function [] st with inst := some (readInst E source d) } := by
  obtain ⟨T, ls, ht, hT, hT0, hls⟩ := hd.text
  rw [instLines_of ht]
  unfold instLinesOf
  have hF : FnName E.lib d.function T := ⟨hd.fn.word, hd.fn.ne, hd.fn.start, fun h => hd.fn.alone (by
    by_cases h0 : d.text = []
    · exact h0
    · exact absurd h (hT0 h0))⟩
  rw [List.cons_append, List.cons_append, loop_next (top_inst hp hh hF hT), List.append_assoc]
  have hh1 : (onInstance E source d.function T st).handler ≠ [] := by
    show (saveInstance E st).handler ≠ []
    rw [(save_vars E st).1]; exact hh
  rw [loop_more hL hp _ ls (onInstance E source d.function T st)
    { tag := testTag d.function, source := source, name := testName E (testTag d.function), extra := T } hh1 rfl
    fun l hl => ⟨ht.each l hl, hls l hl⟩]
  simp only [← ht.text]
  rw [onInstance_extra]
  rcases hd.record with h0 | ⟨l, hl, hone, hend⟩
  · rw [h0, if_pos rfl, List.nil_append]
    unfold readInst
    rw [h0, if_pos rfl]
  · rw [if_neg (by rw [hl]; simp), hl]
    rw [List.cons_append, List.nil_append, loop_next (top_record (source := source) (lookup := lookup)
      (st := { onInstance E source d.function [] st with inst := some { tag := testTag d.function, source := source, name := testName E (testTag d.function), extra := d.text } })
      hL hp (l := l) hh1 rfl hend)]
    unfold readInst
    rw [hl, if_neg (by simp)]

/-- How an instance changes what can be found. -/
theorem rel_inst {E : Env} {source : Bytes} {d : Instance} {st : PState} {V : Bytes → Bytes → Bytes → Option DWarn} {n : Bytes}
    {L : List Save} {D : Map Bytes HData} {s : Bytes} (hr : RelL E st V L D) (ho : OpenAt E st n) (hs : (V st.handler (levelText st.level) n).map DWarn.summary = some s) :
    let st' := { onInstance E source d.function [] st with inst := some (readInst E source d) }
    RelL E st' (fun h lt n' => if h = st.handler ∧ lt = levelText st.level ∧ n' = n then
        (V h lt n').map fun x => { x with instances := x.instances ++ [readInst E source d] } else V h lt n')
        (L ++ [instSave E source st.handler st.level n s d]) D ∧
      OpenAt E st' n ∧ st'.handler = st.handler ∧ st'.level = st.level := by
  intro st'
  obtain ⟨v1, v2, v3, v4⟩ := save_vars E st
  have hh : st'.handler = st.handler := v1
  have hl : st'.level = st.level := v3
  have hd : st'.dWarning = st.dWarning := v4
  have hheap : st'.w.heap = (saveInstance E st).w.heap ∧ st'.w.byHandler = (saveInstance E st).w.byHandler ∧
      st'.w.byTest = (saveInstance E st).w.byTest ∧ st'.w.byWarning = (saveInstance E st).w.byWarning := by
    simp only [st', onInstance]
    generalize (if source ≠ [] then source ++ b!"." ++ testTag d.function else testTag d.function) = t
    by_cases hc : ((saveInstance E st).w.testNames.get t).isSome = true
    · simp only [if_pos hc]; exact ⟨trivial, trivial, trivial, trivial⟩
    · simp only [if_neg hc]; exact ⟨trivial, trivial, trivial, trivial⟩
  have hhid : ∀ h lt n, st'.w.hid h lt n = (saveInstance E st).w.hid h lt n := fun h lt n => by
    unfold Warns.hid; rw [hheap.2.1]
  have htid : ∀ h lt n, st'.w.tid h lt n = (saveInstance E st).w.tid h lt n := fun h lt n => by
    unfold Warns.tid; rw [hheap.2.2.1]
  have hlook : ∀ h lt n, st'.w.look h lt n = V h lt n := fun h lt n => by
    rw [← hr.view]; unfold Warns.look; rw [hhid, hheap.1]
  have hinv : Inv st'.w := by
    refine ⟨fun h lt n id e => ?_, fun h lt n id e => ?_, fun h lt n h' lt' n' id e e' => ?_, fun h lt n h' lt' n' id e e' => ?_,
      fun h lt n id e => ?_⟩
    · rw [hhid] at e; rw [hheap.1]; exact hr.inv.hlt _ _ _ _ e
    · rw [htid] at e; rw [hheap.1]; exact hr.inv.tlt _ _ _ _ e
    · rw [hhid] at e e'; exact hr.inv.hinj _ _ _ _ _ _ _ e e'
    · rw [hhid] at e; rw [htid] at e'; exact hr.inv.disj _ _ _ _ _ _ _ e e'
    · rw [hhid] at e; rw [hheap.1]; exact hr.inv.hname _ _ _ _ e
  have hopen : Open st' n := by
    obtain ⟨x, e1, e2⟩ := ho
    exact ⟨x, by rw [hd]; exact e1, by rw [hhid, hh, hl]; exact e2⟩
  obtain ⟨s1, s2, s3⟩ := save_some (E := E) (i := readInst E source d) hinv rfl hopen
  have hlog : Logged E st'.w L := hr.log.of_eq htid (fun a b c => by unfold Warns.lookTest; rw [htid, hheap.1]) hheap.2.2.2
  refine ⟨⟨⟨s1, fun h lt n' => ?_⟩, ?_, (onInstance_data E source _ _ st).trans hr.data⟩, ?_, hh, hl⟩
  · rw [s3, hlook, hh, hl]
  · obtain ⟨x, e1, e2⟩ := hopen
    have hv := hlook st'.handler (levelText st'.level) n
    unfold Warns.look at hv
    have hnm := hinv.hname _ _ _ _ e2
    rw [e2, hh, hl, Option.bind_some] at hv
    cases hx : st'.w.heap[x]? with
    | none => rw [hx] at hnm; cases hnm
    | some y =>
      rw [hx] at hnm hv
      rw [← hv] at hs
      simp only [Option.map_some, Option.some.injEq] at hnm hs
      have := Logged.save (E := E) (p := st') (i := readInst E source d) hinv hlog rfl e1 (fun t lt m => hinv.disj _ _ _ t lt m x e2) hx
      rw [hh, hl, hnm, hs] at this
      exact this
  · obtain ⟨x, e1, e2⟩ := hopen
    exact ⟨x, e1, by rw [s2]; exact e2⟩

/-- What is to be found of a warning after its lines are read. -/
def addWarn (E : Env) (source h : Bytes) (V : Bytes → Bytes → Bytes → Option DWarn) (w : Instances) :
    Bytes → Bytes → Bytes → Option DWarn := fun h' lt' n' =>
  if h' = h ∧ lt' = levelText w.level ∧ n' = w.name then
    some { name := ((V h' lt' n').getD { name := n' }).name
           summary := w.summary
           instances := ((V h' lt' n').getD { name := n' }).instances ++ w.data.map (readInst E source) }
  else V h' lt' n'

/-- All instances of a warning. -/
theorem loop_insts {E : Env} {source : Bytes} {lookup : Map Bytes Bytes} (hL : LowersLib E.lib) {p : Bytes} (hp : Pre p) (rest : List Bytes) :
    ∀ (ds : List Instance) (st : PState) (V : Bytes → Bytes → Bytes → Option DWarn) (L : List Save) (D : Map Bytes HData) (n s : Bytes), (∀ d ∈ ds, OkInst E.lib d) → st.handler ≠ [] →
      RelL E st V L D → OpenAt E st n → (V st.handler (levelText st.level) n).map DWarn.summary = some s →
      ∃ st', parseLoop E source lookup none ((ds.map (instLines p)).flatten ++ rest) st = parseLoop E source lookup none rest st' ∧
        RelL E st' (fun h lt n' => if h = st.handler ∧ lt = levelText st.level ∧ n' = n then
          (V h lt n').map fun x => { x with instances := x.instances ++ ds.map (readInst E source) } else V h lt n')
          (L ++ ds.map (instSave E source st.handler st.level n s)) D ∧
        st'.handler = st.handler ∧ st'.level = st.level
  | [], st, V, L, D, n, s, _, _, hr, _, _ => ⟨st, by simp, ⟨⟨hr.inv, fun h lt n' => by rw [hr.view]; simp⟩, by simpa using hr.log, hr.data⟩, rfl, rfl⟩
  | d :: ds, st, V, L, D, n, s, hd, hh, hr, ho, hs => by
    obtain ⟨r1, r2, r3, r4⟩ := rel_inst (source := source) (d := d) hr ho hs
    have hh' : st.handler ≠ [] := hh
    obtain ⟨st', e, r, h1, h2⟩ := loop_insts (source := source) (lookup := lookup) hL hp rest ds _ _ _ D n s (fun x hx => hd x (by simp [hx])) (by rw [r3]; exact hh) r1 r2
      (by
        have r3 : (onInstance E source d.function [] st).handler = st.handler := r3
        have r4 : (onInstance E source d.function [] st).level = st.level := r4
        simp only [r3, r4, and_self, if_true, Option.map_map]
        exact hs)
    refine ⟨st', ?_, ?_, h1.trans r3, h2.trans r4⟩
    · rw [List.map_cons, List.flatten_cons, List.append_assoc, loop_inst hL hp (hd d (by simp)) hh]
      exact e
    · have r3 : (onInstance E source d.function [] st).handler = st.handler := r3
      have r4 : (onInstance E source d.function [] st).level = st.level := r4
      refine ⟨⟨r.inv, fun h lt n' => ?_⟩, ?_, r.data⟩
      · rw [r.view]
        simp only [r3, r4]
        by_cases hc : h = st.handler ∧ lt = levelText st.level ∧ n' = n
        · simp only [if_pos hc, Option.map_map]
          congr 1
          funext x
          simp
        · simp only [if_neg hc]
      · have := r.log
        simp only [r3, r4, List.append_assoc, List.cons_append, List.nil_append] at this
        exact this

/-- All lines of a warning. -/
theorem loop_warn {E : Env} {source : Bytes} {lookup : Map Bytes Bytes} (hL : LowersLib E.lib) {p : Bytes} (hp : Pre p)
    {w : Instances} (hw : OkWarn E.lib w) {st : PState} (hh : st.handler ≠ []) (hlv : st.level = w.level)
    {V : Bytes → Bytes → Bytes → Option DWarn} {L : List Save} {D : Map Bytes HData} (hr : RelL E st V L D) (rest : List Bytes) :
    ∃ st', parseLoop E source lookup none (warnLines p w ++ rest) st = parseLoop E source lookup none rest st' ∧
      RelL E st' (addWarn E source st.handler V w) (L ++ warnSaves E source st.handler w) D ∧ st'.handler = st.handler ∧ st'.level = st.level := by
  unfold warnLines
  rw [List.cons_append, loop_next (top_warn hp hh (fun a ha => by simpa [isDot] using hw.name a ha) hw.summary hw.bracket)]
  obtain ⟨v1, v2, v3, v4⟩ := save_vars E st
  cases e : (saveInstance E st).w.findHandler (saveInstance E st).handler (saveInstance E st).level w.name with
  | mk w' id =>
    obtain ⟨i1, i2, i3⟩ := findHandler_inv hr.inv e
    simp only
    generalize hst1 : ({ saveInstance E st with w := w'.change id fun x => { x with summary := w.summary }, dWarning := some id, inst := none } : PState) = st1
    have hs1 : saveInstance E st1 = st1 := save_none (by rw [← hst1])
    have hw1 : st1.w = w'.change id fun x => { x with summary := w.summary } := by rw [← hst1]
    have hh1 : st1.handler = st.handler := by rw [← hst1]; exact v1
    have hl1 : st1.level = st.level := by rw [← hst1]; exact v3
    have hr1 : RelL E st1 (fun h lt n => if h = st.handler ∧ lt = levelText st.level ∧ n = w.name then
        some { (V h lt n).getD { name := n } with summary := w.summary } else V h lt n) L D := by
      refine ⟨⟨?_, fun h lt n => ?_⟩, by
        rw [hs1, hw1]
        exact (hr.log.findHandler hr.inv e).change (fun t lt n => i1.disj _ _ _ t lt n id i2) _, ?_⟩
      · rw [hs1, hw1]; exact i1.change _ _ fun _ => rfl
      · rw [hs1, hw1, look_change i1 i2, i3, i3, v1, v3]
        by_cases hc : h = st.handler ∧ lt = levelText st.level ∧ n = w.name
        · rw [if_pos hc, if_pos hc, if_pos ⟨rfl, rfl, rfl⟩, hr.view]
          obtain ⟨rfl, rfl, rfl⟩ := hc
          rfl
        · rw [if_neg hc, if_neg hc, if_neg hc, hr.view]
      · rw [hw1, change_data, show w' = (w', id).1 from rfl, ← e, findHandler_data, save_data]
        exact hr.data
    have ho1 : OpenAt E st1 w.name := by
      refine ⟨id, by rw [← hst1], ?_⟩
      rw [hs1, hw1, change_hid, hh1, hl1]
      rw [v1, v3] at i2
      exact i2
    obtain ⟨st', e', r, h1, h2⟩ := loop_insts (source := source) (lookup := lookup) hL hp rest w.data st1 _ _ D w.name w.summary hw.data (by rw [hh1]; exact hh) hr1 ho1
      (by rw [hh1, hl1, if_pos ⟨rfl, rfl, rfl⟩]; rfl)
    refine ⟨st', by rw [← e', ← hst1, e], ⟨⟨r.inv, fun h lt n => ?_⟩, ?_, r.data⟩, h1.trans hh1, h2.trans hl1⟩
    · rw [r.view]
      unfold addWarn
      simp only [hh1, hl1, hlv]
      by_cases hc : h = st.handler ∧ lt = levelText w.level ∧ n = w.name
      · simp only [if_pos hc, Option.map_some]
      · simp only [if_neg hc]
    · have := r.log
      rw [hh1, hl1, hlv] at this
      exact this

/-- All warnings of a level. -/
theorem loop_warns {E : Env} {source : Bytes} {lookup : Map Bytes Bytes} (hL : LowersLib E.lib) {p : Bytes} (hp : Pre p) (rest : List Bytes) :
    ∀ (ws : List Instances) (st : PState) (V : Bytes → Bytes → Bytes → Option DWarn) (L : List Save) (D : Map Bytes HData), (∀ w ∈ ws, OkWarn E.lib w ∧ w.level = st.level) →
      st.handler ≠ [] → RelL E st V L D →
      ∃ st', parseLoop E source lookup none ((ws.map (warnLines p)).flatten ++ rest) st = parseLoop E source lookup none rest st' ∧
        RelL E st' (ws.foldl (addWarn E source st.handler) V) (L ++ (ws.map (warnSaves E source st.handler)).flatten) D ∧ st'.handler = st.handler
  | [], st, V, L, D, _, _, hr => ⟨st, by simp, by simpa using hr, rfl⟩
  | w :: ws, st, V, L, D, hw, hh, hr => by
    obtain ⟨st1, e1, r1, h1, l1⟩ := loop_warn (source := source) (lookup := lookup) hL hp (hw w (by simp)).1 hh (hw w (by simp)).2.symm hr
      ((ws.map (warnLines p)).flatten ++ rest)
    obtain ⟨st2, e2, r2, h2⟩ := loop_warns (source := source) (lookup := lookup) hL hp rest ws st1 _ _ D (fun x hx => by rw [l1]; exact hw x (by simp [hx])) (by rw [h1]; exact hh) r1
    refine ⟨st2, ?_, ?_, h2.trans h1⟩
    · rw [List.map_cons, List.flatten_cons, List.append_assoc, e1, e2]
    · rw [List.foldl_cons, List.map_cons, List.flatten_cons, ← List.append_assoc]
      rw [h1] at r2
      exact r2

/-- All lines of a level. -/
theorem loop_level {E : Env} {source : Bytes} {lookup : Map Bytes Bytes} (hL : LowersLib E.lib) {p : Bytes} (hp : Pre p) (rest : List Bytes)
    (S : Sorter) {ws : List Instances} (hw : ∀ w ∈ ws, OkWarn E.lib w) {l : Nat} (hl : l ∈ levelOrder) {st : PState} (hh : st.handler ≠ [])
    {V : Bytes → Bytes → Bytes → Option DWarn} {L : List Save} {D : Map Bytes HData} (hr : RelL E st V L D) :
    ∃ st', parseLoop E source lookup none (levelLines S p ws l ++ rest) st = parseLoop E source lookup none rest st' ∧
      RelL E st' ((levelList S ws l).foldl (addWarn E source st.handler) V) (L ++ ((levelList S ws l).map (warnSaves E source st.handler)).flatten) D ∧ st'.handler = st.handler := by
  unfold levelLines
  by_cases h0 : levelList S ws l = []
  · rw [if_pos h0, h0]
    exact ⟨st, rfl, by simpa using hr, rfl⟩
  · rw [if_neg h0, List.cons_append, loop_next (top_level hL hp hh hl)]
    have hv := save_vars E st
    obtain ⟨st', e, r, h⟩ := loop_warns (source := source) (lookup := lookup) hL hp rest (levelList S ws l)
      { saveInstance E st with level := l, dWarning := none } V L D
      (fun w h => ⟨hw w (levelList_mem.1 h).1, (levelList_mem.1 h).2⟩) (by show (saveInstance E st).handler ≠ []; rw [hv.1]; exact hh)
      (by
        have e : saveInstance E { saveInstance E st with level := l, dWarning := none } = { saveInstance E st with level := l, dWarning := none } :=
          save_none (save_inst E st)
        exact ⟨⟨by rw [e]; exact hr.inv, by rw [e]; exact hr.view⟩, by rw [e]; exact hr.log, (save_data E st).trans hr.data⟩)
    refine ⟨st', e, ?_, h.trans hv.1⟩
    have e2 : ({ saveInstance E st with level := l, dWarning := none } : PState).handler = st.handler := hv.1
    rw [e2] at r
    exact r

/-- All levels. -/
theorem loop_levels {E : Env} {source : Bytes} {lookup : Map Bytes Bytes} (hL : LowersLib E.lib) {p : Bytes} (hp : Pre p) (rest : List Bytes)
    (S : Sorter) {ws : List Instances} (hw : ∀ w ∈ ws, OkWarn E.lib w) :
    ∀ (ls : List Nat) (st : PState) (V : Bytes → Bytes → Bytes → Option DWarn) (L : List Save) (D : Map Bytes HData), (∀ l ∈ ls, l ∈ levelOrder) → st.handler ≠ [] → RelL E st V L D →
    ∃ st', parseLoop E source lookup none ((ls.map (levelLines S p ws)).flatten ++ rest) st = parseLoop E source lookup none rest st' ∧
      RelL E st' (((ls.map (levelList S ws)).flatten).foldl (addWarn E source st.handler) V)
        (L ++ (((ls.map (levelList S ws)).flatten).map (warnSaves E source st.handler)).flatten) D ∧ st'.handler = st.handler
  | [], st, V, L, D, _, _, hr => ⟨st, by simp, by simpa using hr, rfl⟩
  | l :: ls, st, V, L, D, hl, hh, hr => by
    obtain ⟨st1, e1, r1, h1⟩ := loop_level (source := source) (lookup := lookup) hL hp ((ls.map (levelLines S p ws)).flatten ++ rest) S hw (hl l (by simp)) hh hr
    obtain ⟨st2, e2, r2, h2⟩ := loop_levels (source := source) (lookup := lookup) hL hp rest S hw ls st1 _ _ D (fun x hx => hl x (by simp [hx])) (by rw [h1]; exact hh) r1
    refine ⟨st2, ?_, ?_, h2.trans h1⟩
    · rw [List.map_cons, List.flatten_cons, List.append_assoc, e1, e2]
    · rw [List.map_cons, List.flatten_cons, List.foldl_append, List.map_append, List.flatten_append, ← List.append_assoc]
      rw [h1] at r2
      exact r2

/-- The tag of a handler (internal/data/warnings_parser.go:94-111). -/
def tagOf (lookup : Map Bytes Bytes) (name : Bytes) : Bytes := (lookup.get name).getD name

/-- What can be found after a report. -/
def addReport (E : Env) (source : Bytes) (lookup : Map Bytes Bytes) (S : Sorter) (pick : List Bytes → List Bytes)
    (V : Bytes → Bytes → Bytes → Option DWarn) (m : Manager) : Bytes → Bytes → Bytes → Option DWarn :=
  if shown S pick m = [] then fun h lt n => if h = tagOf lookup m.name then none else V h lt n
  else ((levelOrder.map (levelList S (shown S pick m))).flatten).foldl (addWarn E source (tagOf lookup m.name)) V

/-- What is stored of a report. -/
def reportSaves (E : Env) (source : Bytes) (lookup : Map Bytes Bytes) (S : Sorter) (pick : List Bytes → List Bytes) (m : Manager) : List Save :=
  (((levelOrder.map (levelList S (shown S pick m))).flatten).map (warnSaves E source (tagOf lookup m.name))).flatten

/-- What is known of the handlers after the heading of a report
(internal/data/warnings_parser.go:94-111). -/
def named (E : Env) (lookup : Map Bytes Bytes) (D : Map Bytes HData) (N : Bytes) : Map Bytes HData :=
  match lookup.get N with
  | some h => D.set h { (D.get h).getD {} with name := N }
  | none => D.set N { (D.get N).getD {} with name := defaultName E N }

theorem onWarningsFor_rel {E : Env} {lookup : Map Bytes Bytes} {N : Bytes} {st : PState} {V : Bytes → Bytes → Bytes → Option DWarn}
    {L : List Save} {D : Map Bytes HData} (hr : RelL E st V L D) :
    RelL E (onWarningsFor E lookup N st) V L (named E lookup D N) ∧ (onWarningsFor E lookup N st).handler = tagOf lookup N ∧
      (onWarningsFor E lookup N st).inst = none := by
  have hi := save_inst E st
  have hd := (save_data E st).trans hr.data
  unfold onWarningsFor tagOf named
  cases hg : lookup.get N with
  | none =>
    simp only
    refine ⟨⟨⟨?_, ?_⟩, by rw [save_none (by exact hi)]; exact hr.log.of_eq (fun _ _ _ => rfl) (fun _ _ _ => rfl) rfl, by rw [← hd]; rfl⟩, rfl, hi⟩
    · rw [save_none (by exact hi)]; exact ⟨hr.inv.hlt, hr.inv.tlt, hr.inv.hinj, hr.inv.disj, hr.inv.hname⟩
    · rw [save_none (by exact hi)]; exact hr.view
  | some h =>
    simp only
    refine ⟨⟨⟨?_, ?_⟩, by rw [save_none (by exact hi)]; exact hr.log.of_eq (fun _ _ _ => rfl) (fun _ _ _ => rfl) rfl, by rw [← hd]; rfl⟩, rfl, hi⟩
    · rw [save_none (by exact hi)]; exact ⟨hr.inv.hlt, hr.inv.tlt, hr.inv.hinj, hr.inv.disj, hr.inv.hname⟩
    · rw [save_none (by exact hi)]; exact hr.view

theorem none_rel {E : Env} {st : PState} {V : Bytes → Bytes → Bytes → Option DWarn} {L : List Save} {D : Map Bytes HData} (hr : RelL E st V L D) (hi : st.inst = none) :
    RelL E { st with w := { st.w with byHandler := st.w.byHandler.set st.handler {} } }
      (fun h lt n => if h = st.handler then none else V h lt n) L D := by
  have hw := hr.inv
  have hv := hr.view
  rw [save_none hi] at hw hv
  have hid : ∀ h lt n, ({ st.w with byHandler := st.w.byHandler.set st.handler {} } : Warns).hid h lt n =
      if h = st.handler then none else st.w.hid h lt n := by
    intro h lt n
    unfold Warns.hid
    simp only [Map.get_set]
    by_cases hc : h = st.handler
    · simp [hc, id_empty]
    · simp [hc]
  have hid' : ∀ {h lt n id}, ({ st.w with byHandler := st.w.byHandler.set st.handler {} } : Warns).hid h lt n = some id →
      st.w.hid h lt n = some id := by
    intro h lt n id e
    rw [hid] at e
    split at e
    · cases e
    · exact e
  refine ⟨⟨?_, fun h lt n => ?_⟩, by
    have := hr.log
    rw [save_none hi] at this
    rw [save_none (by exact hi)]; exact this.of_eq (fun _ _ _ => rfl) (fun _ _ _ => rfl) rfl, hr.data⟩
  · rw [save_none (by exact hi)]
    exact ⟨fun h lt n id e => hw.hlt _ _ _ _ (hid' e), hw.tlt, fun h lt n h' lt' n' id e e' => hw.hinj _ _ _ _ _ _ _ (hid' e) (hid' e'),
      fun h lt n h' lt' n' id e => hw.disj _ _ _ _ _ _ _ (hid' e), fun h lt n id e => hw.hname _ _ _ _ (hid' e)⟩
  · rw [save_none (by exact hi)]
    unfold Warns.look
    simp only [hid]
    by_cases hc : h = st.handler
    · simp [hc]
    · simp only [if_neg hc]
      exact hv h lt n

/-- All lines of a report. -/
theorem loop_report {E : Env} {source : Bytes} {lookup : Map Bytes Bytes} (hL : LowersLib E.lib) (rest : List Bytes)
    (S : Sorter) (pick : List Bytes → List Bytes) {m : Manager} (hm : OkManager E.lib S pick m) (ht : tagOf lookup m.name ≠ [])
    {st : PState} {V : Bytes → Bytes → Bytes → Option DWarn} {L : List Save} {D : Map Bytes HData} (hr : RelL E st V L D) :
    ∃ st', parseLoop E source lookup none (reportLines S pick m ++ rest) st = parseLoop E source lookup none rest st' ∧
      RelL E st' (addReport E source lookup S pick V m) (L ++ reportSaves E source lookup S pick m) (named E lookup D m.name) := by
  unfold reportLines addReport reportSaves
  rw [List.append_assoc, List.cons_append, List.cons_append, List.nil_append, loop_next (top_blank hm.pre),
    loop_next (top_for hm.pre (fun a ha => by simpa [isDot] using hm.name.one a ha) hm.name.first)]
  obtain ⟨r1, r2, r3⟩ := onWarningsFor_rel (lookup := lookup) (N := m.name) hr
  have hh : (onWarningsFor E lookup m.name st).handler ≠ [] := by rw [r2]; exact ht
  by_cases h0 : shown S pick m = []
  · rw [if_pos h0, if_pos h0, List.cons_append, List.nil_append, loop_next (top_none hm.pre hh)]
    refine ⟨_, rfl, ?_⟩
    have := none_rel r1 r3
    rw [r2] at this
    rw [r2]
    have h0' : (levelOrder.map (levelList S (shown S pick m))).flatten = [] := by
      rw [List.flatten_eq_nil_iff]
      intro l hl
      obtain ⟨lv, _, rfl⟩ := List.mem_map.1 hl
      rw [List.eq_nil_iff_forall_not_mem]
      intro w hw
      have := (levelList_mem.1 hw).1
      rw [h0] at this
      cases this
    rw [h0', List.map_nil, List.flatten_nil, List.append_nil]
    exact this
  · rw [if_neg h0, if_neg h0]
    obtain ⟨st', e, r, _⟩ := loop_levels (source := source) (lookup := lookup) hL hm.pre rest S hm.warns levelOrder _ _ _ _ (fun _ h => h) hh r1
    refine ⟨st', e, ?_⟩
    rw [r2] at r
    exact r

/-- All lines of all reports. -/
theorem loop_reports {E : Env} {source : Bytes} {lookup : Map Bytes Bytes} (hL : LowersLib E.lib) (rest : List Bytes)
    (S : Sorter) (pick : List Bytes → List Bytes) : ∀ (ms : List Manager) (st : PState) (V : Bytes → Bytes → Bytes → Option DWarn) (L : List Save) (D : Map Bytes HData),
    (∀ m ∈ ms, OkManager E.lib S pick m ∧ tagOf lookup m.name ≠ []) → RelL E st V L D →
    ∃ st', parseLoop E source lookup none ((ms.map (reportLines S pick)).flatten ++ rest) st = parseLoop E source lookup none rest st' ∧
      RelL E st' (ms.foldl (addReport E source lookup S pick) V) (L ++ (ms.map (reportSaves E source lookup S pick)).flatten)
        (ms.foldl (fun D m => named E lookup D m.name) D)
  | [], st, V, L, D, _, hr => ⟨st, by simp, by simpa using hr⟩
  | m :: ms, st, V, L, D, hm, hr => by
    obtain ⟨st1, e1, r1⟩ := loop_report (source := source) (lookup := lookup) hL ((ms.map (reportLines S pick)).flatten ++ rest) S pick
      (hm m (by simp)).1 (hm m (by simp)).2 hr
    obtain ⟨st2, e2, r2⟩ := loop_reports (source := source) (lookup := lookup) hL rest S pick ms st1 _ _ _ (fun x hx => hm x (by simp [hx])) r1
    refine ⟨st2, ?_, ?_⟩
    · rw [List.map_cons, List.flatten_cons, List.append_assoc, e1, e2]
    · rw [List.map_cons, List.flatten_cons, ← List.append_assoc]
      exact r2

end Verif.Data
