import Verif.Data.WarnParser

/-
What can be looked up in the warning data, and how the steps of the parser change it.
-/

set_option linter.unusedSimpArgs false

namespace Verif.Data
open Go Verif.Warning

/-- The index found under a level and a name. -/
def Levels.id (ls : Levels) (lt n : Bytes) : Option Nat := (ls.lookup.get lt).bind fun l => l.lookup.get n

/-- The index of the warning of a handler. -/
def Warns.hid (w : Warns) (h lt n : Bytes) : Option Nat := (w.byHandler.get h).bind fun ls => ls.id lt n

/-- The index of the warning of a test. -/
def Warns.tid (w : Warns) (t lt n : Bytes) : Option Nat := (w.byTest.get t).bind fun ls => ls.id lt n

/-- The warning of a handler. -/
def Warns.look (w : Warns) (h lt n : Bytes) : Option DWarn := (w.hid h lt n).bind fun id => w.heap[id]?

/-- Every warning reachable is allocated, and no two are the same. -/
structure Inv (w : Warns) : Prop where
  hlt : ∀ h lt n id, w.hid h lt n = some id → id < w.heap.length
  tlt : ∀ t lt n id, w.tid t lt n = some id → id < w.heap.length
  hinj : ∀ h lt n h' lt' n' id, w.hid h lt n = some id → w.hid h' lt' n' = some id → h = h' ∧ lt = lt' ∧ n = n'
  disj : ∀ h lt n t lt' n' id, w.hid h lt n = some id → w.tid t lt' n' ≠ some id
  hname : ∀ h lt n id, w.hid h lt n = some id → (w.heap[id]?).map DWarn.name = some n

theorem inv_new : Inv {} := by
  constructor <;> simp [Warns.hid, Warns.tid, Map.get_nil]

/-! ### findLevel -/

/-- What `findLevel` does. -/
theorem findLevel_spec (ls : Levels) (heap : List DWarn) (lvl : Nat) (n : Bytes) :
    ∃ ls' heap' id, ls.findLevel heap lvl n = (ls', heap', id) ∧
      (∀ lt' n', ls'.id lt' n' = if lt' = levelText lvl ∧ n' = n then some id else ls.id lt' n') ∧
      ((ls.id (levelText lvl) n = some id ∧ heap' = heap) ∨
        (ls.id (levelText lvl) n = none ∧ id = heap.length ∧ heap' = heap ++ [{ name := n }])) := by
  unfold Levels.findLevel DLevel.findWarningGroup Levels.id
  cases h1 : ls.lookup.get (levelText lvl) with
  | none =>
    simp only [Map.get_nil]
    refine ⟨_, _, _, rfl, fun lt' n' => ?_, .inr ⟨by simp, rfl, rfl⟩⟩
    simp only [Map.get_set]
    by_cases h : lt' = levelText lvl
    · subst h
      simp only [if_true, Option.bind_some, h1, Map.get_set, Map.get_nil, true_and, Option.bind_none]
    · simp [h]
  | some lv =>
    simp only
    cases h2 : lv.lookup.get n with
    | some id =>
      refine ⟨_, _, _, rfl, fun lt' n' => ?_, .inl ⟨by simp [h2], rfl⟩⟩
      simp only [Map.get_set]
      by_cases h : lt' = levelText lvl
      · subst h
        simp only [if_true, Option.bind_some, h1, true_and]
        by_cases hn : n' = n
        · subst hn; simp [h2]
        · simp [hn]
      · simp [h]
    | none =>
      refine ⟨_, _, _, rfl, fun lt' n' => ?_, .inr ⟨by simp [h2], rfl, rfl⟩⟩
      simp only [Map.get_set]
      by_cases h : lt' = levelText lvl
      · subst h
        simp only [if_true, Option.bind_some, h1, true_and, Map.get_set]
      · simp [h]

theorem id_empty (lt n : Bytes) : ({} : Levels).id lt n = none := by
  simp [Levels.id, Map.get_nil]

/-- What `findHandler` does. -/
theorem findHandler_spec (w : Warns) (h : Bytes) (lvl : Nat) (n : Bytes) :
    ∃ w' id, w.findHandler h lvl n = (w', id) ∧
      (∀ h' lt' n', w'.hid h' lt' n' = if h' = h ∧ lt' = levelText lvl ∧ n' = n then some id else w.hid h' lt' n') ∧
      (∀ t lt' n', w'.tid t lt' n' = w.tid t lt' n') ∧
      ((w.hid h (levelText lvl) n = some id ∧ w'.heap = w.heap) ∨
        (w.hid h (levelText lvl) n = none ∧ id = w.heap.length ∧ w'.heap = w.heap ++ [{ name := n }])) := by
  unfold Warns.findHandler Warns.hid
  cases h1 : w.byHandler.get h with
  | none =>
    obtain ⟨ls', heap', id, e, hid, hc⟩ := findLevel_spec {} w.heap lvl n
    simp only [e]
    refine ⟨_, _, rfl, fun h' lt' n' => ?_, fun _ _ _ => rfl, ?_⟩
    · simp only [Map.get_set]
      by_cases hh : h' = h
      · subst hh
        simp only [if_true, Option.bind_some, hid, true_and, id_empty, h1, Option.bind_none]
      · simp [hh]
    · rcases hc with ⟨hc, _⟩ | ⟨_, hc⟩
      · rw [id_empty] at hc; cases hc
      · exact .inr ⟨by simp, hc⟩
  | some ls =>
    obtain ⟨ls', heap', id, e, hid, hc⟩ := findLevel_spec ls w.heap lvl n
    simp only [e]
    refine ⟨_, _, rfl, fun h' lt' n' => ?_, fun _ _ _ => rfl, ?_⟩
    · simp only [Map.get_set]
      by_cases hh : h' = h
      · subst hh
        simp only [if_true, Option.bind_some, hid, true_and, h1]
      · simp [hh]
    · rcases hc with hc | hc
      · exact .inl (by simpa using hc)
      · exact .inr (by simpa using hc)

/-- What `findTest` does. -/
theorem findTest_spec (w : Warns) (t : Bytes) (lvl : Nat) (n : Bytes) :
    ∃ w' id, w.findTest t lvl n = (w', id) ∧
      (∀ t' lt' n', w'.tid t' lt' n' = if t' = t ∧ lt' = levelText lvl ∧ n' = n then some id else w.tid t' lt' n') ∧
      w'.byHandler = w.byHandler ∧ w'.byWarning = w.byWarning ∧
      ((w.tid t (levelText lvl) n = some id ∧ w'.heap = w.heap) ∨
        (w.tid t (levelText lvl) n = none ∧ id = w.heap.length ∧ w'.heap = w.heap ++ [{ name := n }])) := by
  unfold Warns.findTest Warns.tid
  cases h1 : w.byTest.get t with
  | none =>
    obtain ⟨ls', heap', id, e, hid, hc⟩ := findLevel_spec {} w.heap lvl n
    simp only [e]
    refine ⟨_, _, rfl, fun h' lt' n' => ?_, rfl, rfl, ?_⟩
    · simp only [Map.get_set]
      by_cases hh : h' = t
      · subst hh
        simp only [if_true, Option.bind_some, hid, true_and, id_empty, h1, Option.bind_none]
      · simp [hh]
    · rcases hc with ⟨hc, _⟩ | ⟨_, hc⟩
      · rw [id_empty] at hc; cases hc
      · exact .inr ⟨by simp, hc⟩
  | some ls =>
    obtain ⟨ls', heap', id, e, hid, hc⟩ := findLevel_spec ls w.heap lvl n
    simp only [e]
    refine ⟨_, _, rfl, fun h' lt' n' => ?_, rfl, rfl, ?_⟩
    · simp only [Map.get_set]
      by_cases hh : h' = t
      · subst hh
        simp only [if_true, Option.bind_some, hid, true_and, h1]
      · simp [hh]
    · rcases hc with hc | hc
      · exact .inl (by simpa using hc)
      · exact .inr (by simpa using hc)

/-! ### Changes -/

theorem change_hid (w : Warns) (d : Nat) (f : DWarn → DWarn) (h lt n : Bytes) : (w.change d f).hid h lt n = w.hid h lt n := rfl
theorem change_tid (w : Warns) (d : Nat) (f : DWarn → DWarn) (h lt n : Bytes) : (w.change d f).tid h lt n = w.tid h lt n := rfl

theorem change_heap (w : Warns) (d : Nat) (f : DWarn → DWarn) (i : Nat) :
    (w.change d f).heap[i]? = if i = d then (w.heap[i]?).map f else w.heap[i]? := by
  unfold Warns.change
  rw [List.getElem?_modify]
  by_cases h : i = d
  · subst h; simp
  · simp [h, Ne.symm h]

theorem change_length (w : Warns) (d : Nat) (f : DWarn → DWarn) : (w.change d f).heap.length = w.heap.length := by
  simp [Warns.change]

theorem Inv.change {w : Warns} (hw : Inv w) (d : Nat) (f : DWarn → DWarn) (hf : ∀ x, (f x).name = x.name) : Inv (w.change d f) where
  hlt := fun h lt n id e => by rw [change_length]; exact hw.hlt h lt n id e
  tlt := fun h lt n id e => by rw [change_length]; exact hw.tlt h lt n id e
  hinj := hw.hinj
  disj := hw.disj
  hname := fun h lt n id e => by
    have := hw.hname h lt n id e
    rw [change_heap]
    split
    · rw [Option.map_map]
      have : DWarn.name ∘ f = DWarn.name := funext hf
      rw [this]; assumption
    · exact this

theorem look_change {w : Warns} (hw : Inv w) {h lt n : Bytes} {d : Nat} (hd : w.hid h lt n = some d) (f : DWarn → DWarn)
    (h' lt' n' : Bytes) : (w.change d f).look h' lt' n' =
      if h' = h ∧ lt' = lt ∧ n' = n then (w.look h lt n).map f else w.look h' lt' n' := by
  unfold Warns.look
  rw [change_hid]
  by_cases e : h' = h ∧ lt' = lt ∧ n' = n
  · obtain ⟨rfl, rfl, rfl⟩ := e
    rw [if_pos ⟨rfl, rfl, rfl⟩, hd]
    simp only [Option.bind_some, change_heap, if_true]
  · rw [if_neg e]
    cases hi : w.hid h' lt' n' with
    | none => rfl
    | some i =>
      simp only [Option.bind_some, change_heap]
      have : i ≠ d := by
        rintro rfl
        exact e (hw.hinj _ _ _ _ _ _ _ hi hd)
      rw [if_neg this]

/-- A change of something no handler has. -/
theorem look_change_other {w : Warns} {d : Nat} (hd : ∀ h lt n, w.hid h lt n ≠ some d) (f : DWarn → DWarn)
    (h lt n : Bytes) : (w.change d f).look h lt n = w.look h lt n := by
  unfold Warns.look
  rw [change_hid]
  cases hi : w.hid h lt n with
  | none => rfl
  | some i =>
    simp only [Option.bind_some, change_heap]
    have : i ≠ d := by rintro rfl; exact hd _ _ _ hi
    rw [if_neg this]

/-- `findTest` keeps what the handlers have. -/
theorem findTest_inv {w w' : Warns} (hw : Inv w) {t n : Bytes} {lvl id : Nat} (e : w.findTest t lvl n = (w', id)) :
    Inv w' ∧ (∀ h lt n, w'.look h lt n = w.look h lt n) ∧ (∀ h lt n, w'.hid h lt n ≠ some id) ∧
      (∀ h lt n, w'.hid h lt n = w.hid h lt n) := by
  obtain ⟨w1, i1, e1, ht, hb, _, hc⟩ := findTest_spec w t lvl n
  rw [e] at e1
  cases e1
  have hh : ∀ h lt n, w'.hid h lt n = w.hid h lt n := fun h lt n => by unfold Warns.hid; rw [hb]
  have hlen : w.heap.length ≤ w'.heap.length := by
    rcases hc with ⟨_, h⟩ | ⟨_, _, h⟩ <;> rw [h] <;> simp
  have hget : ∀ i, i < w.heap.length → w'.heap[i]? = w.heap[i]? := by
    intro i hi
    rcases hc with ⟨_, h⟩ | ⟨_, _, h⟩ <;> rw [h]
    rw [List.getElem?_append_left hi]
  have hidlt : id < w'.heap.length := by
    rcases hc with ⟨h1, h2⟩ | ⟨_, h1, h2⟩
    · rw [h2]; exact hw.tlt _ _ _ _ h1
    · rw [h1, h2]; simp
  have hne : ∀ h lt n, w.hid h lt n ≠ some id := by
    intro h lt n0 hi
    rcases hc with ⟨h1, _⟩ | ⟨_, h1, _⟩
    · exact hw.disj _ _ _ _ _ _ _ hi h1
    · have := hw.hlt _ _ _ _ hi
      omega
  refine ⟨⟨fun h lt n i hi => ?_, fun t' lt n' i hi => ?_, fun h lt n h' lt' n' i h1 h2 => ?_, fun h lt n t' lt' n' i h1 h2 => ?_,
    fun h lt n i hi => ?_⟩, fun h lt n => ?_, fun h lt n => ?_, hh⟩
  · rw [hh] at hi; exact Nat.lt_of_lt_of_le (hw.hlt _ _ _ _ hi) hlen
  · rw [ht] at hi
    split at hi
    · cases hi; exact hidlt
    · exact Nat.lt_of_lt_of_le (hw.tlt _ _ _ _ hi) hlen
  · rw [hh] at h1 h2; exact hw.hinj _ _ _ _ _ _ _ h1 h2
  · rw [hh] at h1
    rw [ht] at h2
    split at h2
    · cases h2; exact hne _ _ _ h1
    · exact hw.disj _ _ _ _ _ _ _ h1 h2
  · rw [hh] at hi
    rw [hget _ (hw.hlt _ _ _ _ hi)]
    exact hw.hname _ _ _ _ hi
  · unfold Warns.look
    rw [hh]
    cases hi : w.hid h lt n with
    | none => rfl
    | some i =>
      simp only [Option.bind_some]
      exact hget _ (hw.hlt _ _ _ _ hi)
  · rw [hh]; exact hne _ _ _

/-- `findHandler` finds the warning or makes a new one. -/
theorem findHandler_inv {w w' : Warns} (hw : Inv w) {h0 n0 : Bytes} {lvl id : Nat} (e : w.findHandler h0 lvl n0 = (w', id)) :
    Inv w' ∧ w'.hid h0 (levelText lvl) n0 = some id ∧
      (∀ h lt n, w'.look h lt n = if h = h0 ∧ lt = levelText lvl ∧ n = n0 then
        some ((w.look h0 (levelText lvl) n0).getD { name := n0 }) else w.look h lt n) := by
  obtain ⟨w1, i1, e1, hh, ht, hc⟩ := findHandler_spec w h0 lvl n0
  rw [e] at e1
  cases e1
  have hlen : w.heap.length ≤ w'.heap.length := by
    rcases hc with ⟨_, h⟩ | ⟨_, _, h⟩ <;> rw [h] <;> simp
  have hget : ∀ i, i < w.heap.length → w'.heap[i]? = w.heap[i]? := by
    intro i hi
    rcases hc with ⟨_, h⟩ | ⟨_, _, h⟩ <;> rw [h]
    rw [List.getElem?_append_left hi]
  have hidlt : id < w'.heap.length := by
    rcases hc with ⟨h1, h2⟩ | ⟨_, h1, h2⟩
    · rw [h2]; exact hw.hlt _ _ _ _ h1
    · rw [h1, h2]; simp
  have hother : ∀ h lt n, w.hid h lt n = some id → h = h0 ∧ lt = levelText lvl ∧ n = n0 := by
    intro h lt n hi
    rcases hc with ⟨h1, _⟩ | ⟨_, h1, _⟩
    · exact hw.hinj _ _ _ _ _ _ _ hi h1
    · have := hw.hlt _ _ _ _ hi
      omega
  have hnew : w'.heap[id]? = some ((w.look h0 (levelText lvl) n0).getD { name := n0 }) := by
    unfold Warns.look
    rcases hc with ⟨h1, h2⟩ | ⟨h0, h1, h2⟩
    · rw [h1, h2]
      have := hw.hlt _ _ _ _ h1
      simp only [Option.bind_some]
      rw [List.getElem?_eq_getElem this]; rfl
    · rw [h0, h2, h1]; simp
  refine ⟨⟨fun h lt n i hi => ?_, fun t' lt n' i hi => ?_, fun h lt n h' lt' n' i h1 h2 => ?_, fun h lt n t' lt' n' i h1 h2 => ?_,
    fun h lt n i hi => ?_⟩, ?_, fun h lt n => ?_⟩
  · rw [hh] at hi
    split at hi
    · cases hi; exact hidlt
    · exact Nat.lt_of_lt_of_le (hw.hlt _ _ _ _ hi) hlen
  · rw [ht] at hi; exact Nat.lt_of_lt_of_le (hw.tlt _ _ _ _ hi) hlen
  · rw [hh] at h1 h2
    split at h1 <;> split at h2
    · rename_i a b; obtain ⟨rfl, rfl, rfl⟩ := a; obtain ⟨rfl, rfl, rfl⟩ := b; exact ⟨rfl, rfl, rfl⟩
    · rename_i a _; cases h1; obtain ⟨rfl, rfl, rfl⟩ := a; obtain ⟨rfl, rfl, rfl⟩ := hother _ _ _ h2; exact ⟨rfl, rfl, rfl⟩
    · rename_i _ a; cases h2; obtain ⟨rfl, rfl, rfl⟩ := a; obtain ⟨rfl, rfl, rfl⟩ := hother _ _ _ h1; exact ⟨rfl, rfl, rfl⟩
    · exact hw.hinj _ _ _ _ _ _ _ h1 h2
  · rw [hh] at h1
    rw [ht] at h2
    split at h1
    · cases h1
      rcases hc with ⟨h1, _⟩ | ⟨_, h1, _⟩
      · exact hw.disj _ _ _ _ _ _ _ h1 h2
      · have := hw.tlt _ _ _ _ h2
        omega
    · exact hw.disj _ _ _ _ _ _ _ h1 h2
  · rw [hh] at hi
    split at hi
    · rename_i a
      obtain ⟨rfl, rfl, rfl⟩ := a
      cases hi
      rw [hnew]
      simp only [Option.map_some]
      cases hl : w.look h (levelText lvl) n with
      | none => rfl
      | some x =>
        unfold Warns.look at hl
        cases hk : w.hid h (levelText lvl) n with
        | none => rw [hk] at hl; cases hl
        | some i =>
          rw [hk] at hl
          have := hw.hname _ _ _ _ hk
          simp only [Option.bind_some] at hl
          rw [hl] at this
          simpa using this
    · rw [hget _ (hw.hlt _ _ _ _ hi)]
      exact hw.hname _ _ _ _ hi
  · rw [hh, if_pos ⟨rfl, rfl, rfl⟩]
  · unfold Warns.look at hnew ⊢
    rw [hh]
    split
    · simp only [Option.bind_some]; exact hnew
    · cases hi : w.hid h lt n with
      | none => rfl
      | some i =>
        simp only [Option.bind_some]
        exact hget _ (hw.hlt _ _ _ _ hi)

/-! ### The state of the parser -/

/-- Nothing is pending, or a warning of the present handler and level is open. -/
structure Good (p : PState) : Prop where
  inv : Inv p.w
  opened : p.inst ≠ none → ∃ d n, p.dWarning = some d ∧ p.w.hid p.handler (levelText p.level) n = some d

/-- The open warning. -/
def Open (p : PState) (n : Bytes) : Prop := ∃ d, p.dWarning = some d ∧ p.w.hid p.handler (levelText p.level) n = some d

theorem save_none {E : Env} {p : PState} (h : p.inst = none) : saveInstance E p = p := by
  unfold saveInstance; rw [h]

theorem save_inst (E : Env) (p : PState) : (saveInstance E p).inst = none := by
  unfold saveInstance
  cases h : p.inst with
  | none => exact h
  | some i =>
    simp only
    cases p.dWarning <;> rfl

theorem save_vars (E : Env) (p : PState) : (saveInstance E p).handler = p.handler ∧ (saveInstance E p).test = p.test ∧
    (saveInstance E p).level = p.level ∧ (saveInstance E p).dWarning = p.dWarning := by
  unfold saveInstance
  cases h : p.inst with
  | none => exact ⟨rfl, rfl, rfl, rfl⟩
  | some i =>
    simp only
    cases p.dWarning <;> exact ⟨rfl, rfl, rfl, rfl⟩

/-- Saving an instance adds it to the open warning, and changes nothing else that
handlers have. -/
theorem save_some {E : Env} {p : PState} {i : DInst} {n : Bytes} (hw : Inv p.w) (hi : p.inst = some i) (ho : Open p n) :
    Inv (saveInstance E p).w ∧ (∀ h lt n, (saveInstance E p).w.hid h lt n = p.w.hid h lt n) ∧
    ∀ h lt n', (saveInstance E p).w.look h lt n' = if h = p.handler ∧ lt = levelText p.level ∧ n' = n then
      (p.w.look h lt n').map fun x => { x with instances := x.instances ++ [i] } else p.w.look h lt n' := by
  obtain ⟨d, hd, ho⟩ := ho
  unfold saveInstance
  simp only [hi, hd]
  have hw1 : Inv (p.w.change d fun x => { x with instances := x.instances ++ [i] }) := hw.change d _ fun _ => rfl
  have hl1 := look_change hw ho fun x => { x with instances := x.instances ++ [i] }
  generalize hg : p.w.change d (fun x => { x with instances := x.instances ++ [i] }) = w1 at *
  have hh1 : ∀ h lt n, w1.hid h lt n = p.w.hid h lt n := fun h lt n => by rw [← hg]; rfl
  clear hg
  generalize hdw : (w1.heap[d]?).getD { name := [] } = dw
  cases e : w1.findTest p.test p.level dw.name with
  | mk w2 t =>
    obtain ⟨hw2, hl2, hn2, hh2⟩ := findTest_inv hw1 e
    simp only
    have hw3 := hw2.change t (fun x => { x with summary := dw.summary }) fun _ => rfl
    have hl3 := look_change_other (w := w2) hn2 (fun x => { x with summary := dw.summary })
    have hw4 := hw3.change t (fun x => { x with instances := x.instances ++ [{ name := handlerName E p.handler, extra := i.extra, log := i.log }] }) fun _ => rfl
    have hl4 := look_change_other (w := w2.change t (fun x => { x with summary := dw.summary })) hn2
      (fun x => { x with instances := x.instances ++ [{ name := handlerName E p.handler, extra := i.extra, log := i.log }] })
    refine ⟨⟨hw4.hlt, hw4.tlt, hw4.hinj, hw4.disj, hw4.hname⟩, fun h lt n => (hh2 h lt n).trans (hh1 h lt n), fun h lt n' => ?_⟩
    refine (hl4 h lt n').trans ((hl3 h lt n').trans ((hl2 h lt n').trans ((hl1 h lt n').trans ?_)))
    by_cases hc : h = p.handler ∧ lt = levelText p.level ∧ n' = n
    · obtain ⟨rfl, rfl, rfl⟩ := hc
      rfl
    · rw [if_neg hc, if_neg hc]

end Verif.Data
