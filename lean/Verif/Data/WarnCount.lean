import Verif.Data.WarnView

/-
What holds of warning data whatever text was parsed: levels are filed under their own
text, none is empty, and warnings with instances are counted.
-/

namespace Verif.Data
open Go Verif.Warning

/-- A level as filed under a text. -/
structure LevelOk (k : Bytes) (d : DLevel) : Prop where
  text : levelText d.level = k
  nodup : d.lookup.keys.Nodup
  ne : d.lookup ≠ []

/-- What any parsing keeps. -/
structure Sound (w : Warns) : Prop where
  inv : Inv w
  keys : w.byHandler.keys.Nodup
  level : ∀ h ls k d, w.byHandler.get h = some ls → ls.lookup.get k = some d → LevelOk k d
  counted : ∀ h lt n x, w.look h lt n = some x → x.instances ≠ [] →
    ∃ wx, w.byWarning.get n = some wx ∧ wx.count ≠ []

theorem sound_new : Sound {} where
  inv := inv_new
  keys := by simp [Map.keys]
  level := by simp [Map.get_nil]
  counted := by simp [Warns.look, Warns.hid, Map.get_nil]

theorem set_ne {K V : Type} [DecidableEq K] (m : Map K V) (k : K) (v : V) : m.set k v ≠ [] := by
  cases m with
  | nil => simp [Map.set]
  | cons e m => obtain ⟨a, b⟩ := e; simp only [Map.set]; split <;> simp

/-- Levels after `findLevel`. -/
theorem findLevel_ok {ls : Levels} (hl : ∀ k d, ls.lookup.get k = some d → LevelOk k d) (heap : List DWarn) (lvl : Nat) (n : Bytes) :
    ∀ k d, (ls.findLevel heap lvl n).1.lookup.get k = some d → LevelOk k d := by
  intro k d hd
  unfold Levels.findLevel DLevel.findWarningGroup at hd
  cases h1 : ls.lookup.get (levelText lvl) with
  | none =>
    simp only [h1, Map.get_nil, Map.get_set] at hd
    split at hd
    · next e => cases hd; subst e; exact ⟨rfl, by simp [Map.set, Map.keys], by simp [Map.set]⟩
    · exact hl k d hd
  | some lv =>
    have ho := hl _ _ h1
    simp only [h1] at hd
    cases h2 : lv.lookup.get n with
    | some id =>
      simp only [h2, Map.get_set] at hd
      split at hd
      · next e => cases hd; subst e; exact ho
      · exact hl k d hd
    | none =>
      simp only [h2, Map.get_set] at hd
      split at hd
      · next e => cases hd; subst e; exact ⟨ho.text, Map.nodup_set ho.nodup _ _, set_ne _ _ _⟩
      · exact hl k d hd

/-- A change that leaves instances alone. -/
theorem Sound.change {w : Warns} (hw : Sound w) (d : Nat) (f : DWarn → DWarn) (hf : ∀ x, (f x).name = x.name)
    (hi : ∀ x, (f x).instances = x.instances) : Sound (w.change d f) where
  inv := hw.inv.change d f hf
  keys := hw.keys
  level := hw.level
  counted h lt n x hx hne := by
    unfold Warns.look at hx
    rw [change_hid] at hx
    cases hid : w.hid h lt n with
    | none => rw [hid] at hx; cases hx
    | some i =>
      rw [hid] at hx
      simp only [Option.bind_some, change_heap] at hx
      split at hx
      · next e =>
        subst e
        obtain ⟨y, hy, rfl⟩ := Option.map_eq_some_iff.1 hx
        exact hw.counted h lt n y (by unfold Warns.look; rw [hid]; exact hy) (by rwa [hi] at hne)
      · exact hw.counted h lt n x (by unfold Warns.look; rw [hid]; exact hx) hne

/-- `findHandler` keeps it. -/
theorem Sound.findHandler {w : Warns} (hw : Sound w) (h0 : Bytes) (lvl : Nat) (n0 : Bytes) : Sound (w.findHandler h0 lvl n0).1 := by
  cases e : w.findHandler h0 lvl n0 with
  | mk w' id =>
    obtain ⟨hi, _, hl⟩ := findHandler_inv hw.inv e
    have hb : w'.byWarning = w.byWarning := by
      unfold Warns.findHandler at e; simp only [Prod.mk.injEq] at e; rw [← e.1]
    have hh : w'.byHandler = w.byHandler.set h0 (((w.byHandler.get h0).getD {}).findLevel w.heap lvl n0).1 := by
      unfold Warns.findHandler at e; simp only [Prod.mk.injEq] at e; rw [← e.1]
      cases w.byHandler.get h0 <;> rfl
    refine ⟨hi, by rw [hh]; exact Map.nodup_set hw.keys _ _, fun h ls k d h1 h2 => ?_, fun h lt n x hx hne => ?_⟩
    · rw [hh, Map.get_set] at h1
      split at h1
      · cases h1
        refine findLevel_ok (fun k d hd => ?_) _ _ _ k d h2
        cases h3 : w.byHandler.get h0 with
        | none => rw [h3] at hd; simp [Map.get_nil] at hd
        | some ls => rw [h3] at hd; exact hw.level h0 ls k d h3 hd
      · exact hw.level h ls k d h1 h2
    · rw [hb]
      rw [hl] at hx
      split at hx
      · next hc =>
        obtain ⟨rfl, rfl, rfl⟩ := hc
        cases h3 : w.look h (levelText lvl) n with
        | none => rw [h3] at hx; cases hx; exact absurd rfl hne
        | some y => rw [h3] at hx; cases hx; exact hw.counted _ _ _ _ h3 hne
      · exact hw.counted h lt n x hx hne

/-- `saveInstance` keeps it. -/
theorem Sound.save {p : PState} (hw : Sound p.w) (E : Env) : Sound (saveInstance E p).w := by
  unfold saveInstance
  cases hi : p.inst with
  | none => exact hw
  | some i =>
    cases hd : p.dWarning with
    | none => exact hw
    | some d =>
      simp only
      have hw1 : Inv (p.w.change d fun x => { x with instances := x.instances ++ [i] }) := hw.inv.change d _ fun _ => rfl
      have hk1 : (p.w.change d fun x => { x with instances := x.instances ++ [i] }).byHandler = p.w.byHandler := rfl
      have hb1 : (p.w.change d fun x => { x with instances := x.instances ++ [i] }).byWarning = p.w.byWarning := rfl
      have hc1 : ∀ h lt n x, (p.w.change d fun x => { x with instances := x.instances ++ [i] }).look h lt n = some x → x.instances ≠ [] →
          p.w.hid h lt n = some d ∨ ∃ wx, p.w.byWarning.get n = some wx ∧ wx.count ≠ [] := by
        intro h lt n x hx hne
        unfold Warns.look at hx
        rw [change_hid] at hx
        cases hid : p.w.hid h lt n with
        | none => rw [hid] at hx; cases hx
        | some j =>
          rw [hid] at hx
          simp only [Option.bind_some, change_heap] at hx
          split at hx
          · next e => exact .inl (by rw [e])
          · exact .inr (hw.counted h lt n x (by unfold Warns.look; rw [hid]; exact hx) hne)
      have hn1 : ∀ h lt n, p.w.hid h lt n = some d →
          (((p.w.change d fun x => { x with instances := x.instances ++ [i] }).heap[d]?).getD { name := [] }).name = n := by
        intro h lt n hid
        have := hw1.hname h lt n d hid
        obtain ⟨y, hy, rfl⟩ := Option.map_eq_some_iff.1 this
        rw [hy]; rfl
      generalize hg : p.w.change d (fun x => { x with instances := x.instances ++ [i] }) = w1 at *
      have hh1 : ∀ h lt n, w1.hid h lt n = p.w.hid h lt n := fun h lt n => by rw [← hg]; rfl
      clear hg
      generalize hdw : (w1.heap[d]?).getD { name := [] } = dw at *
      cases e : w1.findTest p.test p.level dw.name with
      | mk w2 t =>
        obtain ⟨hw2, hl2, hn2, hh2⟩ := findTest_inv hw1 e
        obtain ⟨w', id, e', _, hk2, hb2, _⟩ := findTest_spec w1 p.test p.level dw.name
        rw [e] at e'
        cases e'
        simp only
        have hw3 := hw2.change t (fun x => { x with summary := dw.summary }) fun _ => rfl
        have hl3 := look_change_other (w := w2) hn2 (fun x => { x with summary := dw.summary })
        have hw4 := hw3.change t (fun x => { x with instances := x.instances ++ [{ name := handlerName E p.handler, extra := i.extra, log := i.log }] }) fun _ => rfl
        have hl4 := look_change_other (w := w2.change t (fun x => { x with summary := dw.summary })) hn2
          (fun x => { x with instances := x.instances ++ [{ name := handlerName E p.handler, extra := i.extra, log := i.log }] })
        refine ⟨⟨hw4.hlt, hw4.tlt, hw4.hinj, hw4.disj, hw4.hname⟩, ?_, fun h ls k x h1 h2 => ?_, fun h lt n x hx hne => ?_⟩
        · show w2.byHandler.keys.Nodup
          rw [hk2, hk1]; exact hw.keys
        · have h1 : w2.byHandler.get h = some ls := h1
          rw [hk2, hk1] at h1
          exact hw.level h ls k x h1 h2
        · have hx : w1.look h lt n = some x := ((hl4 h lt n).trans ((hl3 h lt n).trans (hl2 h lt n))).symm.trans hx
          show ∃ wx, Map.get (Map.set w2.byWarning dw.name _) n = some wx ∧ wx.count ≠ []
          rw [Map.get_set]
          split
          · exact ⟨_, rfl, set_ne _ _ _⟩
          · next hne' =>
            rw [hb2, hb1]
            rcases hc1 h lt n x hx hne with hc | hc
            · exact absurd (hn1 h lt n hc).symm hne'
            · exact hc

theorem Sound.handlerData {w : Warns} (hw : Sound w) (h : Bytes) (f : HData → HData) : Sound (w.changeHandlerData h f) :=
  ⟨⟨hw.inv.hlt, hw.inv.tlt, hw.inv.hinj, hw.inv.disj, hw.inv.hname⟩, hw.keys, hw.level, hw.counted⟩

theorem Sound.testNames {w : Warns} (hw : Sound w) (m : Map Bytes Bytes) : Sound { w with testNames := m } :=
  ⟨⟨hw.inv.hlt, hw.inv.tlt, hw.inv.hinj, hw.inv.disj, hw.inv.hname⟩, hw.keys, hw.level, hw.counted⟩

/-- Forgetting what a handler has. -/
theorem Sound.forget {w : Warns} (hw : Sound w) (h0 : Bytes) : Sound { w with byHandler := w.byHandler.set h0 {} } := by
  have hh : ∀ h lt n, ({ w with byHandler := w.byHandler.set h0 {} } : Warns).hid h lt n = if h = h0 then none else w.hid h lt n := by
    intro h lt n
    simp only [Warns.hid, Map.get_set]
    split
    · simp [id_empty]
    · rfl
  have hs : ∀ h lt n i, ({ w with byHandler := w.byHandler.set h0 {} } : Warns).hid h lt n = some i → w.hid h lt n = some i := by
    intro h lt n i e
    rw [hh] at e
    split at e
    · cases e
    · exact e
  refine ⟨⟨fun h lt n i e => hw.inv.hlt h lt n i (hs _ _ _ _ e), hw.inv.tlt, fun h lt n h' lt' n' i e e' =>
    hw.inv.hinj h lt n h' lt' n' i (hs _ _ _ _ e) (hs _ _ _ _ e'), fun h lt n t lt' n' i e => hw.inv.disj h lt n t lt' n' i (hs _ _ _ _ e),
    fun h lt n i e => hw.inv.hname h lt n i (hs _ _ _ _ e)⟩, Map.nodup_set hw.keys _ _, fun h ls k d h1 h2 => ?_, fun h lt n x hx => ?_⟩
  · rw [Map.get_set] at h1
    split at h1
    · cases h1; simp [Map.get_nil] at h2
    · exact hw.level h ls k d h1 h2
  · refine hw.counted h lt n x ?_
    unfold Warns.look at hx ⊢
    rw [hh] at hx
    split at hx
    · cases hx
    · exact hx

/-- The state after a step. -/
def Step.Sound : Step → Prop
  | .next p => Data.Sound p.w
  | .stop p => Data.Sound p.w
  | .panic => True

theorem rest_sound {E : Env} {source line : Bytes} {p : PState} (hw : Sound p.w) : (bodyRest E source line p).Sound := by
  unfold bodyRest
  split
  · exact hw
  split
  · exact hw.forget _
  split
  · exact hw.save E
  split
  · refine Sound.change (Sound.findHandler (hw.save E) _ _ _) _ _ (fun _ => rfl) (fun _ => rfl)
  split
  · split
    · trivial
    · exact hw
  split
  · exact hw
  split
  · simp only [Step.Sound, onInstance]
    generalize (if source ≠ [] then source ++ b!"." ++ testTag _ else testTag _) = t
    split
    · exact hw.save E
    · exact (hw.save E).testNames _
  · exact hw

/-- The same for a step or the start of a summary. -/
def sumSound : Step ⊕ Summ → Prop
  | .inl s => s.Sound
  | .inr _ => True

theorem top_sound {E : Env} {source raw : Bytes} {lookup : Map Bytes Bytes} {p : PState} (hw : Sound p.w) :
    sumSound (bodyTop E source lookup raw p) := by
  unfold bodyTop
  simp only
  split
  · exact hw
  split
  · simp only [sumSound, Step.Sound, onWarningsFor]
    cases lookup.get _ <;> simp only <;> exact (hw.save E).handlerData _ _
  split
  · exact hw
  split
  · trivial
  · exact rest_sound hw

theorem summ_sound {E : Env} {source line : Bytes} {lookup : Map Bytes Bytes} {q : Summ} {p : PState} (hw : Sound p.w) :
    sumSound (bodySumm E source lookup line q p) := by
  unfold bodySumm
  split
  · trivial
  split
  · trivial
  · refine rest_sound ?_
    simp only [endSummary]
    split
    · exact hw
    · exact hw.handlerData _ _

theorem loop_sound {E : Env} {source : Bytes} {lookup : Map Bytes Bytes} : ∀ (ls : List Bytes) (q : Option Summ) (p : PState)
    (r : PState × Bool), Sound p.w → parseLoop E source lookup q ls p = some r → Sound r.1.w
  | [], none, p, r, hw, h => by
    simp only [parseLoop, Option.some.injEq] at h
    subst h; exact hw
  | [], some q, p, r, hw, h => by
    have := rest_sound (E := E) (source := source) (line := q.start) hw
    simp only [parseLoop] at h
    cases hb : bodyRest E source q.start p with
    | panic => rw [hb] at h; cases h
    | next p' => rw [hb] at h this; cases h; exact this
    | stop p' => rw [hb] at h this; cases h; exact this
  | l :: ls, none, p, r, hw, h => by
    rw [parseLoop] at h
    have hstep := top_sound (E := E) (source := source) (lookup := lookup) (raw := l) hw
    generalize bodyTop E source lookup l p = x at hstep h
    match x, hstep, h with
    | .inl (.next p), hs, h => exact loop_sound ls none p r hs h
    | .inl (.stop p), hs, h => cases h; exact hs
    | .inr q, _, h => exact loop_sound ls (some q) p r hw h
  | l :: ls, some q, p, r, hw, h => by
    rw [parseLoop] at h
    have hstep := summ_sound (E := E) (source := source) (lookup := lookup) (line := l) (q := q) hw
    generalize bodySumm E source lookup l q p = x at hstep h
    match x, hstep, h with
    | .inl (.next p), hs, h => exact loop_sound ls none p r hs h
    | .inl (.stop p), hs, h => cases h; exact hs
    | .inr q, _, h => exact loop_sound ls (some q) p r hw h

/-- Whatever is parsed. -/
theorem parse_sound {E : Env} {source : Bytes} {lookup : Map Bytes Bytes} {w : Warns} (hw : Sound w) {text : Bytes} {r : Warns × Bool}
    (h : parseWarningData E source lookup w text = some r) : Sound r.1 := by
  unfold parseWarningData at h
  split at h
  · cases h
  · next p s heq =>
    cases h
    exact Sound.save (loop_sound _ none { w } (p, s) hw heq) E

end Verif.Data
