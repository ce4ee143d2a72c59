import Verif.Data.WarnParser

/-
Invariants of the data that the parser of warnings keeps: it is enough that the operations on the data keep them.
-/

namespace Verif.Data
open Go Verif.Warning

/-- What the parser does to the data (proof only). -/
structure Stable (E : Env) (P : Warns → Prop) : Prop where
  save : ∀ p : PState, P p.w → P (saveInstance E p).w
  forget : ∀ (w : Warns) h, P w → P { w with byHandler := w.byHandler.set h {} }
  warning : ∀ (w : Warns) h l n s, P w → P ((w.findHandler h l n).1.change (w.findHandler h l n).2 fun x => { x with summary := s })
  testNames : ∀ (w : Warns) m, P w → P { w with testNames := m }
  handlerData : ∀ (w : Warns) h f, P w → P (w.changeHandlerData h f)

variable {E : Env} {P : Warns → Prop}

/-- The state after a step. -/
def Step.All (P : Warns → Prop) : Step → Prop
  | .next p => P p.w
  | .stop p => P p.w
  | .panic => True

/-- The same for a step or the start of a summary. -/
def sumAll (P : Warns → Prop) : Step ⊕ Summ → Prop
  | .inl s => s.All P
  | .inr _ => True

theorem Stable.rest (hP : Stable E P) {source line : Bytes} {p : PState} (hw : P p.w) : (bodyRest E source line p).All P := by
  unfold bodyRest
  split
  · exact hw
  split
  · exact hP.forget _ _ hw
  split
  · exact hP.save _ hw
  split
  · exact hP.warning _ _ _ _ _ (hP.save _ hw)
  split
  · split
    · trivial
    · exact hw
  split
  · exact hw
  split
  · simp only [Step.All, onInstance]
    generalize (if source ≠ [] then source ++ b!"." ++ testTag _ else testTag _) = t
    split
    · exact hP.save _ hw
    · exact hP.testNames _ _ (hP.save _ hw)
  · exact hw

theorem Stable.top (hP : Stable E P) {source raw : Bytes} {lookup : Map Bytes Bytes} {p : PState} (hw : P p.w) :
    sumAll P (bodyTop E source lookup raw p) := by
  unfold bodyTop
  simp only
  split
  · exact hw
  split
  · simp only [sumAll, Step.All, onWarningsFor]
    cases lookup.get _ <;> simp only <;> exact hP.handlerData _ _ _ (hP.save _ hw)
  split
  · exact hw
  split
  · trivial
  · exact hP.rest hw

theorem Stable.summ (hP : Stable E P) {source line : Bytes} {lookup : Map Bytes Bytes} {q : Summ} {p : PState} (hw : P p.w) :
    sumAll P (bodySumm E source lookup line q p) := by
  unfold bodySumm
  split
  · trivial
  split
  · trivial
  · refine hP.rest ?_
    simp only [endSummary]
    split
    · exact hw
    · exact hP.handlerData _ _ _ hw

theorem Stable.loop (hP : Stable E P) {source : Bytes} {lookup : Map Bytes Bytes} : ∀ (ls : List Bytes) (q : Option Summ) (p : PState)
    (r : PState × Bool), P p.w → parseLoop E source lookup q ls p = some r → P r.1.w
  | [], none, p, r, hw, h => by
    simp only [parseLoop, Option.some.injEq] at h
    subst h; exact hw
  | [], some q, p, r, hw, h => by
    have := hP.rest (source := source) (line := q.start) hw
    simp only [parseLoop] at h
    cases hb : bodyRest E source q.start p with
    | panic => rw [hb] at h; cases h
    | next p' => rw [hb] at h this; cases h; exact this
    | stop p' => rw [hb] at h this; cases h; exact this
  | l :: ls, none, p, r, hw, h => by
    rw [parseLoop] at h
    have hstep := hP.top (source := source) (lookup := lookup) (raw := l) hw
    generalize bodyTop E source lookup l p = x at hstep h
    match x, hstep, h with
    | .inl (.next p), hs, h => exact Stable.loop hP ls none p r hs h
    | .inl (.stop p), hs, h => cases h; exact hs
    | .inr q, _, h => exact Stable.loop hP ls (some q) p r hw h
  | l :: ls, some q, p, r, hw, h => by
    rw [parseLoop] at h
    have hstep := hP.summ (source := source) (lookup := lookup) (line := l) (q := q) hw
    generalize bodySumm E source lookup l q p = x at hstep h
    match x, hstep, h with
    | .inl (.next p), hs, h => exact Stable.loop hP ls none p r hs h
    | .inl (.stop p), hs, h => cases h; exact hs
    | .inr q, _, h => exact Stable.loop hP ls (some q) p r hw h

/-- Whatever is parsed. -/
theorem Stable.parse (hP : Stable E P) {source : Bytes} {lookup : Map Bytes Bytes} {w : Warns} (hw : P w) {text : Bytes} {r : Warns × Bool}
    (h : parseWarningData E source lookup w text = some r) : P r.1 := by
  unfold parseWarningData at h
  split at h
  · cases h
  · next p s heq =>
    cases h
    exact hP.save _ (hP.loop _ none { w } (p, s) hw heq)

/-- The maps of a warning have every key once. -/
def Keyed (w : Warns) : Prop := ∀ n, (w.findWarning n).hdlrMap.keys.Nodup ∧ (w.findWarning n).testMap.keys.Nodup

theorem keyed_stable (E : Env) : Stable E Keyed where
  save := by
    intro p h
    unfold saveInstance
    split
    · exact h
    split
    · exact h
    · intro n
      have hw : ∀ (w : Warns) t l m, (w.findTest t l m).1.byWarning = w.byWarning := fun _ _ _ _ => rfl
      simp only [Warns.findWarning, Warns.change, hw, Map.get_set]
      split
      · rename_i d hd
        split at hd
        · cases hd
          exact ⟨Map.nodup_set (h _).1 _ _, Map.nodup_set (h _).2 _ _⟩
        · have := h n
          unfold Warns.findWarning at this
          rw [hd] at this
          exact this
      · exact ⟨.nil, .nil⟩
  forget := fun _ _ h => h
  warning := fun _ _ _ _ _ h => h
  testNames := fun _ _ h => h
  handlerData := fun _ _ _ h => h

theorem keyed_new : Keyed {} := fun _ => ⟨.nil, .nil⟩

end Verif.Data
