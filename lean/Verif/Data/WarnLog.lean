import Verif.Data.WarnCount

/-
The instances stored while warning data is parsed, as a list, and what the views by test
and by warning are in terms of that list.
-/

set_option linter.unusedSimpArgs false

namespace Verif.Data
open Go Verif.Warning

/-- An instance as it is stored: the variables of `ParseWarningData` at that time
(internal/data/warnings_parser.go:54-80). -/
structure Save where
  handler : Bytes
  test : Bytes
  level : Nat
  name : Bytes
  summary : Bytes
  inst : DInst
deriving DecidableEq

/-- The warning of a test (what internal/data/warnings.go:189-199 finds). -/
def Warns.lookTest (w : Warns) (t lt n : Bytes) : Option DWarn := (w.tid t lt n).bind fun id => w.heap[id]?

/-- Whether a stored instance belongs to a test, a level and a warning. -/
def Save.isAt (t lt n : Bytes) (s : Save) : Bool := decide (s.test = t ∧ levelText s.level = lt ∧ s.name = n)

/-- An instance in the view by test: it carries the name of the handler. -/
def Save.ofHandler (E : Env) (s : Save) : DInst := { name := handlerName E s.handler, extra := s.inst.extra, log := s.inst.log }

/-- The warning of a test that the instances stored make. -/
def logTest (E : Env) (L : List Save) (t lt n : Bytes) : Option DWarn :=
  ((L.filter (Save.isAt t lt n)).getLast?).map fun s =>
    { name := n, summary := s.summary, instances := (L.filter (Save.isAt t lt n)).map (Save.ofHandler E) }

/-- How many instances of a warning were stored for a handler. -/
def logCount (L : List Save) (n h : Bytes) : Nat := L.countP fun s => decide (s.name = n ∧ s.handler = h)

/-- The views by test and by warning are those of the instances stored. -/
structure Logged (E : Env) (w : Warns) (L : List Save) : Prop where
  tinj : ∀ t lt n t' lt' n' id, w.tid t lt n = some id → w.tid t' lt' n' = some id → t = t' ∧ lt = lt' ∧ n = n'
  tests : ∀ t lt n, w.lookTest t lt n = logTest E L t lt n
  has : ∀ n, (w.byWarning.get n).isSome = true ↔ ∃ s ∈ L, s.name = n
  count : ∀ n h, (w.findWarning n).count.get h = if logCount L n h = 0 then none else some (logCount L n h)
  hdlrs : ∀ n h, (w.findWarning n).hdlrMap.get h = if (∃ s ∈ L, s.name = n ∧ s.handler = h) then some true else none
  tmap : ∀ n t, (w.findWarning n).testMap.get t = if (∃ s ∈ L, s.name = n ∧ s.test = t) then some true else none

theorem logged_new (E : Env) : Logged E {} [] where
  tinj := by simp [Warns.tid, Map.get_nil]
  tests := by simp [Warns.lookTest, Warns.tid, Map.get_nil, logTest]
  has := by simp [Map.get_nil]
  count := by simp [Warns.findWarning, Map.get_nil, logCount]
  hdlrs := by simp [Warns.findWarning, Map.get_nil]
  tmap := by simp [Warns.findWarning, Map.get_nil]

/-- Only these matter. -/
theorem Logged.of_eq {E : Env} {w w' : Warns} {L : List Save} (h : Logged E w L) (ht : ∀ t lt n, w'.tid t lt n = w.tid t lt n)
    (hl : ∀ t lt n, w'.lookTest t lt n = w.lookTest t lt n) (hb : w'.byWarning = w.byWarning) : Logged E w' L where
  tinj t lt n t' lt' n' id h1 h2 := by rw [ht] at h1 h2; exact h.tinj _ _ _ _ _ _ _ h1 h2
  tests t lt n := (hl t lt n).trans (h.tests t lt n)
  has n := by rw [hb]; exact h.has n
  count n x := by unfold Warns.findWarning; rw [hb]; exact h.count n x
  hdlrs n x := by unfold Warns.findWarning; rw [hb]; exact h.hdlrs n x
  tmap n x := by unfold Warns.findWarning; rw [hb]; exact h.tmap n x

theorem lookTest_change_other {w : Warns} {d : Nat} (hd : ∀ t lt n, w.tid t lt n ≠ some d) (f : DWarn → DWarn) (t lt n : Bytes) :
    (w.change d f).lookTest t lt n = w.lookTest t lt n := by
  unfold Warns.lookTest
  rw [change_tid]
  cases hi : w.tid t lt n with
  | none => rfl
  | some i =>
    simp only [Option.bind_some, change_heap]
    have : i ≠ d := by rintro rfl; exact hd _ _ _ hi
    rw [if_neg this]

/-- A change of what is no test's. -/
theorem Logged.change {E : Env} {w : Warns} {L : List Save} (h : Logged E w L) {d : Nat} (hd : ∀ t lt n, w.tid t lt n ≠ some d)
    (f : DWarn → DWarn) : Logged E (w.change d f) L :=
  h.of_eq (fun _ _ _ => rfl) (fun t lt n => lookTest_change_other hd f t lt n) rfl

theorem lookTest_change {w : Warns} (hw : ∀ t lt n t' lt' n' id, w.tid t lt n = some id → w.tid t' lt' n' = some id → t = t' ∧ lt = lt' ∧ n = n')
    {t lt n : Bytes} {d : Nat} (hd : w.tid t lt n = some d) (f : DWarn → DWarn)
    (t' lt' n' : Bytes) : (w.change d f).lookTest t' lt' n' =
      if t' = t ∧ lt' = lt ∧ n' = n then (w.lookTest t lt n).map f else w.lookTest t' lt' n' := by
  unfold Warns.lookTest
  rw [change_tid]
  by_cases e : t' = t ∧ lt' = lt ∧ n' = n
  · obtain ⟨rfl, rfl, rfl⟩ := e
    rw [if_pos ⟨rfl, rfl, rfl⟩, hd]
    simp only [Option.bind_some, change_heap, if_true]
  · rw [if_neg e]
    cases hi : w.tid t' lt' n' with
    | none => rfl
    | some i =>
      simp only [Option.bind_some, change_heap]
      have : i ≠ d := by
        rintro rfl
        exact e (hw _ _ _ _ _ _ _ hi hd)
      rw [if_neg this]

/-- `findHandler` changes nothing for tests. -/
theorem Logged.findHandler {E : Env} {w w' : Warns} {L : List Save} (h : Logged E w L) (hw : Inv w) {h0 n0 : Bytes} {lvl id : Nat}
    (e : w.findHandler h0 lvl n0 = (w', id)) : Logged E w' L := by
  obtain ⟨w1, i1, e1, hh, ht, hc⟩ := findHandler_spec w h0 lvl n0
  have hb : w'.byWarning = w.byWarning := by
    unfold Warns.findHandler at e; simp only [Prod.mk.injEq] at e; rw [← e.1]
  rw [e] at e1
  cases e1
  refine h.of_eq ht (fun t lt n => ?_) hb
  unfold Warns.lookTest
  rw [ht]
  cases hi : w.tid t lt n with
  | none => rfl
  | some i =>
    simp only [Option.bind_some]
    rcases hc with ⟨_, h⟩ | ⟨_, _, h⟩ <;> rw [h]
    rw [List.getElem?_append_left (hw.tlt _ _ _ _ hi)]

/-- `findTest` finds the warning or makes a new one. -/
theorem lookTest_findTest {w w' : Warns} (hw : Inv w)
    (hj : ∀ t lt n t' lt' n' id, w.tid t lt n = some id → w.tid t' lt' n' = some id → t = t' ∧ lt = lt' ∧ n = n')
    {t0 n0 : Bytes} {lvl id : Nat} (e : w.findTest t0 lvl n0 = (w', id)) :
    w'.tid t0 (levelText lvl) n0 = some id ∧
    (∀ t lt n t' lt' n' id, w'.tid t lt n = some id → w'.tid t' lt' n' = some id → t = t' ∧ lt = lt' ∧ n = n') ∧
    (∀ t lt n, w'.lookTest t lt n = if t = t0 ∧ lt = levelText lvl ∧ n = n0 then
        some ((w.lookTest t0 (levelText lvl) n0).getD { name := n0 }) else w.lookTest t lt n) ∧ w'.byWarning = w.byWarning := by
  obtain ⟨w1, i1, e1, ht, _, hb, hc⟩ := findTest_spec w t0 lvl n0
  rw [e] at e1
  cases e1
  have hget : ∀ i, i < w.heap.length → w'.heap[i]? = w.heap[i]? := by
    intro i hi
    rcases hc with ⟨_, h⟩ | ⟨_, _, h⟩ <;> rw [h]
    rw [List.getElem?_append_left hi]
  have hother : ∀ t lt n, w.tid t lt n = some id → t = t0 ∧ lt = levelText lvl ∧ n = n0 := by
    intro h lt n hi
    rcases hc with ⟨h1, _⟩ | ⟨_, h1, _⟩
    · exact hj _ _ _ _ _ _ _ hi h1
    · have := hw.tlt _ _ _ _ hi
      omega
  refine ⟨by rw [ht, if_pos ⟨rfl, rfl, rfl⟩], fun t lt n t' lt' n' i h1 h2 => ?_, fun t lt n => ?_, hb⟩
  · rw [ht] at h1 h2
    split at h1 <;> split at h2
    · rename_i a b; obtain ⟨rfl, rfl, rfl⟩ := a; obtain ⟨rfl, rfl, rfl⟩ := b; exact ⟨rfl, rfl, rfl⟩
    · rename_i a _; cases h1; obtain ⟨rfl, rfl, rfl⟩ := a; obtain ⟨rfl, rfl, rfl⟩ := hother _ _ _ h2; exact ⟨rfl, rfl, rfl⟩
    · rename_i _ a; cases h2; obtain ⟨rfl, rfl, rfl⟩ := a; obtain ⟨rfl, rfl, rfl⟩ := hother _ _ _ h1; exact ⟨rfl, rfl, rfl⟩
    · exact hj _ _ _ _ _ _ _ h1 h2
  · unfold Warns.lookTest
    rw [ht]
    split
    · next hc' =>
      simp only [Option.bind_some]
      rcases hc with ⟨h1, h2⟩ | ⟨h0, h1, h2⟩
      · rw [h1, h2]
        have := hw.tlt _ _ _ _ h1
        simp only [Option.bind_some]
        rw [List.getElem?_eq_getElem this]; rfl
      · rw [h0, h2, h1]; simp
    · cases hi : w.tid t lt n with
      | none => rfl
      | some i =>
        simp only [Option.bind_some]
        exact hget _ (hw.tlt _ _ _ _ hi)

theorem logTest_snoc (E : Env) (L : List Save) (s : Save) (t lt n : Bytes) :
    logTest E (L ++ [s]) t lt n = if t = s.test ∧ lt = levelText s.level ∧ n = s.name then
      some { name := n, summary := s.summary, instances := ((logTest E L t lt n).getD { name := n }).instances ++ [s.ofHandler E] }
      else logTest E L t lt n := by
  unfold logTest
  rw [List.filter_append]
  by_cases h : t = s.test ∧ lt = levelText s.level ∧ n = s.name
  · have hs : s.isAt t lt n = true := by
      unfold Save.isAt; exact decide_eq_true ⟨h.1.symm, h.2.1.symm, h.2.2.symm⟩
    rw [if_pos h, List.filter_cons, if_pos hs, List.filter_nil, List.getLast?_append]
    simp only [List.getLast?_singleton, Option.some_or, Option.map_some, List.map_append, List.map_cons, List.map_nil]
    congr 3
    cases hl : (L.filter (Save.isAt t lt n)).getLast? with
    | none => rw [List.getLast?_eq_none_iff] at hl; rw [hl]; rfl
    | some x => rfl
  · have hs : s.isAt t lt n = false := by
      unfold Save.isAt; exact decide_eq_false fun e => h ⟨e.1.symm, e.2.1.symm, e.2.2.symm⟩
    rw [if_neg h, List.filter_cons, hs, if_neg (by decide), List.filter_nil, List.append_nil]

theorem logTest_name {E : Env} {L : List Save} {t lt n : Bytes} {x : DWarn} (h : logTest E L t lt n = some x) : x.name = n := by
  unfold logTest at h
  obtain ⟨s, _, rfl⟩ := Option.map_eq_some_iff.1 h
  rfl

theorem logCount_snoc (L : List Save) (s : Save) (n h : Bytes) :
    logCount (L ++ [s]) n h = logCount L n h + if n = s.name ∧ h = s.handler then 1 else 0 := by
  unfold logCount
  rw [List.countP_append, List.countP_singleton]
  by_cases e : n = s.name ∧ h = s.handler
  · rw [if_pos e, if_pos (decide_eq_true ⟨e.1.symm, e.2.symm⟩)]
  · rw [if_neg e, if_neg]
    intro e'
    have := of_decide_eq_true e'
    exact e ⟨this.1.symm, this.2.symm⟩

theorem any_snoc (L : List Save) (s : Save) (q : Save → Prop) [DecidablePred q] :
    (if (∃ x ∈ L ++ [s], q x) then some true else none) = if q s then some true else if (∃ x ∈ L, q x) then some true else none := by
  by_cases h : q s
  · rw [if_pos h, if_pos ⟨s, by simp, h⟩]
  · rw [if_neg h]
    by_cases h' : ∃ x ∈ L, q x
    · obtain ⟨x, hx, hq⟩ := h'
      rw [if_pos ⟨x, by simp [hx], hq⟩, if_pos ⟨x, hx, hq⟩]
    · rw [if_neg h', if_neg]
      rintro ⟨x, hx, hq⟩
      rcases List.mem_append.1 hx with hx | hx
      · exact h' ⟨x, hx, hq⟩
      · rw [List.mem_singleton.1 hx] at hq; exact h hq

/-- Storing an instance for which no warning is open. -/
theorem Logged.save_closed {E : Env} {p : PState} {L : List Save} (hl : Logged E p.w L) (hd : p.dWarning = none) :
    Logged E (saveInstance E p).w L := by
  unfold saveInstance
  cases p.inst with
  | none => exact hl
  | some i => simp only [hd]; exact hl

/-- Storing an instance. -/
theorem Logged.save {E : Env} {p : PState} {L : List Save} (hw : Inv p.w) (hl : Logged E p.w L) {i : DInst} (hi : p.inst = some i)
    {d : Nat} (hd : p.dWarning = some d) (hfree : ∀ t lt n, p.w.tid t lt n ≠ some d) {x : DWarn} (hx : p.w.heap[d]? = some x) :
    Logged E (saveInstance E p).w (L ++ [{ handler := p.handler, test := p.test, level := p.level, name := x.name, summary := x.summary, inst := i }]) := by
  unfold saveInstance
  simp only [hi, hd]
  have hw1 : Inv (p.w.change d fun x => { x with instances := x.instances ++ [i] }) := hw.change d _ fun _ => rfl
  have hl1 := hl.change hfree fun x => { x with instances := x.instances ++ [i] }
  have hx1 : ((p.w.change d fun x => { x with instances := x.instances ++ [i] }).heap[d]?).getD { name := [] } =
      { x with instances := x.instances ++ [i] } := by
    rw [change_heap, if_pos rfl, hx]; rfl
  rw [hx1]
  generalize p.w.change d (fun x => { x with instances := x.instances ++ [i] }) = w1 at *
  clear hx1 hfree hx hl hw
  simp only
  cases e : w1.findTest p.test p.level x.name with
  | mk w2 t =>
    obtain ⟨f1, f2, f3, f4⟩ := lookTest_findTest hw1 hl1.tinj e
    simp only
    generalize hg : ({ name := handlerName E p.handler, extra := i.extra, log := i.log } : DInst) = di
    have hc1 := lookTest_change f2 f1 fun y => { y with summary := x.summary }
    have hc2 := lookTest_change (w := w2.change t fun y => { y with summary := x.summary }) f2 f1 fun y => { y with instances := y.instances ++ [di] }
    have hfw : ∀ n, ((w2.change t fun y => { y with summary := x.summary }).change t
        fun y => { y with instances := y.instances ++ [di] }).findWarning n = w1.findWarning n := by
      intro n
      unfold Warns.findWarning Warns.change
      simp only [f4]
    have hbw : ((w2.change t fun y => { y with summary := x.summary }).change t
        fun y => { y with instances := y.instances ++ [di] }).byWarning = w1.byWarning := f4
    rw [hfw, hbw]
    have hset : ∀ (n : Bytes) (wd : WData) (W : Warns), ({ W with byWarning := w1.byWarning.set x.name wd } : Warns).findWarning n =
        if n = x.name then wd else w1.findWarning n := by
      intro n wd W
      unfold Warns.findWarning
      simp only [Map.get_set]
      by_cases h : n = x.name
      · simp only [if_pos h]
      · simp only [if_neg h]
    refine ⟨f2, fun t' lt' n' => ?_, fun n => ?_, fun n h => ?_, fun n h => ?_, fun n t => ?_⟩
    · rw [logTest_snoc]
      refine (hc2 t' lt' n').trans ?_
      by_cases hc : t' = p.test ∧ lt' = levelText p.level ∧ n' = x.name
      · rw [if_pos hc, if_pos hc, hc1, if_pos ⟨rfl, rfl, rfl⟩, f3, if_pos ⟨rfl, rfl, rfl⟩, hl1.tests]
        obtain ⟨rfl, rfl, rfl⟩ := hc
        simp only [Option.map_some, Option.some.injEq, DWarn.mk.injEq, true_and]
        refine ⟨?_, ?_⟩
        · cases hlt : logTest E L p.test (levelText p.level) x.name with
          | none => rfl
          | some y => exact logTest_name hlt
        · rw [← hg]; rfl
      · rw [if_neg hc, if_neg hc, hc1, if_neg hc, f3, if_neg hc, hl1.tests]
    · simp only [Map.get_set, List.mem_append, List.mem_singleton]
      by_cases hn : n = x.name
      · rw [if_pos hn]
        exact ⟨fun _ => ⟨_, .inr rfl, hn.symm⟩, fun _ => rfl⟩
      · rw [if_neg hn, hl1.has]
        constructor
        · rintro ⟨s, hs, e⟩; exact ⟨s, .inl hs, e⟩
        · rintro ⟨s, hs | rfl, e⟩
          · exact ⟨s, hs, e⟩
          · exact absurd e.symm hn
    · rw [hset, logCount_snoc]
      simp only
      by_cases hn : n = x.name
      · subst hn
        simp only [if_true, Map.get_set, true_and]
        by_cases hh : h = p.handler
        · subst hh
          rw [if_pos rfl, if_pos rfl, if_neg (by omega), hl1.count]
          split
          · next h0 => rw [h0]; rfl
          · rfl
        · rw [if_neg hh, if_neg hh, hl1.count]; rfl
      · simp only [if_neg hn, hn, false_and, if_false, Nat.add_zero]
        exact hl1.count n h
    · rw [hset, any_snoc]
      simp only
      by_cases hn : n = x.name
      · subst hn
        simp only [if_true, Map.get_set, true_and]
        by_cases hh : h = p.handler
        · rw [if_pos hh, if_pos hh.symm]
        · rw [if_neg hh, if_neg (Ne.symm hh)]; exact hl1.hdlrs _ _
      · rw [if_neg hn, if_neg fun e => hn e.1.symm]; exact hl1.hdlrs _ _
    · rw [hset, any_snoc]
      simp only
      by_cases hn : n = x.name
      · subst hn
        simp only [if_true, Map.get_set, true_and]
        by_cases hh : t = p.test
        · rw [if_pos hh, if_pos hh.symm]
        · rw [if_neg hh, if_neg (Ne.symm hh)]; exact hl1.tmap _ _
      · rw [if_neg hn, if_neg fun e => hn e.1.symm]; exact hl1.tmap _ _

/-! ### Any text -/

/-- What the parser keeps: the views are those of the instances stored, which are those
stored before and others. -/
structure Kept (E : Env) (L : List Save) (p : PState) : Prop where
  inv : Inv p.w
  free : ∀ d, p.dWarning = some d → d < p.w.heap.length ∧ ∀ t lt n, p.w.tid t lt n ≠ some d
  log : ∃ L', Logged E p.w (L ++ L')

theorem Kept.of_eq {E : Env} {L : List Save} {p p' : PState} (h : Kept E L p) (hw : p'.w = p.w) (hd : p'.dWarning = p.dWarning ∨ p'.dWarning = none) :
    Kept E L p' where
  inv := by rw [hw]; exact h.inv
  free d e := by
    rw [hw]
    rcases hd with hd | hd
    · rw [hd] at e; exact h.free d e
    · rw [hd] at e; cases e
  log := by rw [hw]; exact h.log

/-- Names of tests and data of handlers. -/
theorem Kept.views {E : Env} {L : List Save} {p p' : PState} (h : Kept E L p) (h1 : p'.w.heap = p.w.heap) (h2 : p'.w.byHandler = p.w.byHandler)
    (h3 : p'.w.byTest = p.w.byTest) (h4 : p'.w.byWarning = p.w.byWarning) (hd : p'.dWarning = p.dWarning) : Kept E L p' := by
  have hh : ∀ a b c, p'.w.hid a b c = p.w.hid a b c := fun a b c => by unfold Warns.hid; rw [h2]
  have ht : ∀ a b c, p'.w.tid a b c = p.w.tid a b c := fun a b c => by unfold Warns.tid; rw [h3]
  refine ⟨⟨?_, ?_, ?_, ?_, ?_⟩, ?_, ?_⟩
  · simp only [hh, h1]; exact h.inv.hlt
  · simp only [ht, h1]; exact h.inv.tlt
  · simp only [hh]; exact h.inv.hinj
  · simp only [hh, ht]; exact h.inv.disj
  · simp only [hh, h1]; exact h.inv.hname
  · simp only [hd, h1, ht]; exact h.free
  · obtain ⟨L', hl⟩ := h.log
    exact ⟨L', hl.of_eq ht (fun a b c => by unfold Warns.lookTest; rw [ht, h1]) h4⟩

theorem Inv.save {p : PState} (hw : Inv p.w) (E : Env) : Inv (saveInstance E p).w ∧ p.w.heap.length ≤ (saveInstance E p).w.heap.length ∧
    ∀ d, d < p.w.heap.length → (∀ t lt n, p.w.tid t lt n ≠ some d) → ∀ t lt n, (saveInstance E p).w.tid t lt n ≠ some d := by
  unfold saveInstance
  cases hi : p.inst with
  | none => exact ⟨hw, Nat.le_refl _, fun _ _ h => h⟩
  | some i =>
    cases hd : p.dWarning with
    | none => exact ⟨hw, Nat.le_refl _, fun _ _ h => h⟩
    | some d =>
      simp only
      have hw1 : Inv (p.w.change d fun x => { x with instances := x.instances ++ [i] }) := hw.change d _ fun _ => rfl
      have hlen : (p.w.change d fun x => { x with instances := x.instances ++ [i] }).heap.length = p.w.heap.length := change_length _ _ _
      have ht1 : ∀ a b c, (p.w.change d fun x => { x with instances := x.instances ++ [i] }).tid a b c = p.w.tid a b c := fun _ _ _ => rfl
      generalize p.w.change d (fun x => { x with instances := x.instances ++ [i] }) = w1 at *
      generalize (w1.heap[d]?).getD { name := [] } = dw
      cases e : w1.findTest p.test p.level dw.name with
      | mk w2 t =>
        obtain ⟨hw2, _, _, _⟩ := findTest_inv hw1 e
        obtain ⟨w3, t3, e3, ht3, _, _, hc⟩ := findTest_spec w1 p.test p.level dw.name
        rw [e] at e3
        cases e3
        simp only
        have hw4 := (hw2.change t (fun x => { x with summary := dw.summary }) fun _ => rfl).change t
          (fun x => { x with instances := x.instances ++ [{ name := handlerName E p.handler, extra := i.extra, log := i.log }] }) fun _ => rfl
        refine ⟨⟨hw4.hlt, hw4.tlt, hw4.hinj, hw4.disj, hw4.hname⟩, ?_, fun k hk hfree a b c hc' => ?_⟩
        · simp only [change_length]
          rw [← hlen]
          rcases hc with ⟨_, h⟩ | ⟨_, _, h⟩ <;> rw [h] <;> simp
        · have hc' : w2.tid a b c = some k := hc'
          rw [ht3] at hc'
          split at hc'
          · cases hc'
            rcases hc with ⟨h, _⟩ | ⟨_, h, _⟩
            · rw [ht1] at h; exact hfree _ _ _ h
            · omega
          · rw [ht1] at hc'; exact hfree _ _ _ hc'

/-- `saveInstance` stores one instance or none. -/
theorem Kept.save {E : Env} {L : List Save} {p : PState} (h : Kept E L p) : Kept E L (saveInstance E p) := by
  obtain ⟨h1, h2, h3⟩ := h.inv.save E
  refine ⟨h1, fun d e => ?_, ?_⟩
  · rw [(save_vars E p).2.2.2] at e
    obtain ⟨f1, f2⟩ := h.free d e
    exact ⟨Nat.lt_of_lt_of_le f1 h2, h3 d f1 f2⟩
  · obtain ⟨L', hl⟩ := h.log
    cases hd : p.dWarning with
    | none => exact ⟨L', hl.save_closed hd⟩
    | some d =>
      cases hi : p.inst with
      | none => rw [save_none hi]; exact ⟨L', hl⟩
      | some i =>
        obtain ⟨f1, f2⟩ := h.free d hd
        exact ⟨_, by rw [← List.append_assoc]; exact hl.save h.inv hi hd f2 (List.getElem?_eq_getElem f1)⟩

/-- The state after a step. -/
def Step.Kept (E : Env) (L : List Save) : Step → Prop
  | .next p => Data.Kept E L p
  | .stop p => Data.Kept E L p
  | .panic => True

theorem rest_kept {E : Env} {L : List Save} {source line : Bytes} {p : PState} (hw : Kept E L p) : (bodyRest E source line p).Kept E L := by
  unfold bodyRest
  split
  · exact hw
  split
  · refine ⟨?_, hw.free, ?_⟩
    · have hs : ∀ h lt n i, ({ p.w with byHandler := p.w.byHandler.set p.handler {} } : Warns).hid h lt n = some i → p.w.hid h lt n = some i := by
        intro h lt n i e
        unfold Warns.hid at e ⊢
        simp only [Map.get_set] at e
        split at e
        · simp [id_empty] at e
        · exact e
      exact ⟨fun h lt n i e => hw.inv.hlt h lt n i (hs _ _ _ _ e), hw.inv.tlt, fun h lt n h' lt' n' i e e' =>
        hw.inv.hinj h lt n h' lt' n' i (hs _ _ _ _ e) (hs _ _ _ _ e'), fun h lt n t lt' n' i e => hw.inv.disj h lt n t lt' n' i (hs _ _ _ _ e),
        fun h lt n i e => hw.inv.hname h lt n i (hs _ _ _ _ e)⟩
    · obtain ⟨L', hl⟩ := hw.log
      exact ⟨L', hl.of_eq (fun _ _ _ => rfl) (fun _ _ _ => rfl) rfl⟩
  split
  · exact hw.save.of_eq rfl (.inr rfl)
  split
  · dsimp only
    have hs := hw.save
    cases e : (saveInstance E p).w.findHandler (saveInstance E p).handler (saveInstance E p).level (Caps.text _ 1) with
    | mk w' id =>
      obtain ⟨i1, i2, _⟩ := findHandler_inv hs.inv e
      obtain ⟨L', hl⟩ := hs.log
      have hl' := hl.findHandler hs.inv e
      have hf : ∀ t lt n, w'.tid t lt n ≠ some id := fun t lt n => i1.disj _ _ _ t lt n id i2
      refine ⟨i1.change _ _ fun _ => rfl, fun d hd => ?_, L', hl'.change hf _⟩
      cases hd
      exact ⟨by rw [change_length]; exact i1.hlt _ _ _ _ i2, hf⟩
  split
  · split
    · trivial
    · exact hw.of_eq rfl (.inl rfl)
  split
  · exact hw.of_eq rfl (.inl rfl)
  split
  · simp only [Step.Kept, onInstance]
    generalize (if source ≠ [] then source ++ b!"." ++ testTag _ else testTag _) = t
    split
    · exact hw.save.of_eq rfl (.inl rfl)
    · exact hw.save.views rfl rfl rfl rfl rfl
  · exact hw

/-- The same for a step or the start of a summary. -/
def sumKept (E : Env) (L : List Save) : Step ⊕ Summ → Prop
  | .inl s => s.Kept E L
  | .inr _ => True

theorem top_kept {E : Env} {L : List Save} {source raw : Bytes} {lookup : Map Bytes Bytes} {p : PState} (hw : Kept E L p) :
    sumKept E L (bodyTop E source lookup raw p) := by
  unfold bodyTop
  simp only
  split
  · exact hw
  split
  · simp only [sumKept, Step.Kept, onWarningsFor]
    cases lookup.get _ <;> simp only <;> exact hw.save.views rfl rfl rfl rfl rfl
  split
  · exact hw
  split
  · trivial
  · exact rest_kept hw

theorem summ_kept {E : Env} {L : List Save} {source line : Bytes} {lookup : Map Bytes Bytes} {q : Summ} {p : PState} (hw : Kept E L p) :
    sumKept E L (bodySumm E source lookup line q p) := by
  unfold bodySumm
  split
  · trivial
  split
  · trivial
  · refine rest_kept ?_
    unfold endSummary
    cases lookup.get q.name with
    | none => exact hw
    | some h => exact hw.views rfl rfl rfl rfl rfl

theorem loop_kept {E : Env} {L : List Save} {source : Bytes} {lookup : Map Bytes Bytes} : ∀ (ls : List Bytes) (q : Option Summ) (p : PState) (r : PState × Bool),
    Kept E L p → parseLoop E source lookup q ls p = some r → Kept E L r.1
  | [], none, p, r, hw, h => by
    simp only [parseLoop, Option.some.injEq] at h
    subst h; exact hw
  | [], some q, p, r, hw, h => by
    have := rest_kept (source := source) (line := q.start) hw
    simp only [parseLoop] at h
    cases hb : bodyRest E source q.start p with
    | panic => rw [hb] at h; cases h
    | next p' => rw [hb] at h this; cases h; exact this
    | stop p' => rw [hb] at h this; cases h; exact this
  | l :: ls, none, p, r, hw, h => by
    rw [parseLoop] at h
    have hstep := top_kept (source := source) (lookup := lookup) (raw := l) hw
    generalize bodyTop E source lookup l p = x at hstep h
    match x, hstep, h with
    | .inl (.next p), hs, h => exact loop_kept ls none p r hs h
    | .inl (.stop p), hs, h => cases h; exact hs
    | .inr q, _, h => exact loop_kept ls (some q) p r hw h
  | l :: ls, some q, p, r, hw, h => by
    rw [parseLoop] at h
    have hstep := summ_kept (source := source) (lookup := lookup) (line := l) (q := q) hw
    generalize bodySumm E source lookup l q p = x at hstep h
    match x, hstep, h with
    | .inl (.next p), hs, h => exact loop_kept ls none p r hs h
    | .inl (.stop p), hs, h => cases h; exact hs
    | .inr q, _, h => exact loop_kept ls (some q) p r hw h

/-- Whatever is parsed. -/
theorem parse_kept {E : Env} {L : List Save} {source : Bytes} {lookup : Map Bytes Bytes} {w : Warns} (hi : Inv w) (hw : Logged E w L) {text : Bytes}
    {r : Warns × Bool} (h : parseWarningData E source lookup w text = some r) : Inv r.1 ∧ ∃ L', Logged E r.1 (L ++ L') := by
  unfold parseWarningData at h
  split at h
  · cases h
  · next p s heq =>
    cases h
    have := (loop_kept (L := L) _ none { w } (p, s) ⟨hi, (fun d e => by cases e), [], by rw [List.append_nil]; exact hw⟩ heq).save
    exact ⟨this.inv, this.log⟩

end Verif.Data
