import Verif.Tools.Creator

/-
C52: creators hand out handlers and loggers.
-/

namespace Verif.Props.Creator

open Verif Verif.Go Verif.Tools

variable {W O H L : Type}

/-- Construction is refused exactly when there is no name or no function; otherwise what was given is kept. -/
theorem C52_refused (name : Bytes) (hf : Option (W → O → Option H)) (lf : Option (W → O → Option L)) (summary : Bytes)
    (links : Map Bytes Bytes) :
    (newCreator name hf lf summary links = none ↔ name = [] ∨ (hf = none ∧ lf = none)) ∧
      ∀ c, newCreator name hf lf summary links = some c → c.name = name ∧ c.handlerFn = hf ∧ c.loggerFn = lf ∧ c.summary = summary ∧ c.links = links := by
  unfold newCreator
  by_cases hn : name = []
  · simp [hn]
  · cases hf <;> cases lf <;> simp [hn]
    all_goals exact fun c e => e ▸ ⟨rfl, rfl, rfl, rfl, rfl⟩

/-- With a function for handlers, which returns handlers: handlers are that function's, and loggers are those of the function
for loggers if there is one (returning loggers), else loggers over handlers of the function. -/
theorem C52_with_handlers (name : Bytes) (f : W → O → Option H) (lf : Option (W → O → Option L)) (summary : Bytes)
    (links : Map Bytes Bytes) (c : Creator W O H L) (hc : newCreator name (some f) lf summary links = some c) (w : W) (o : O)
    (h : H) (hh : f w o = some h) :
    c.canMakeHandler = true ∧ c.newHandler w o = some h ∧
      (lf = none → c.newLogger w o = .some (.over h)) ∧
      ∀ g l, lf = some g → g w o = some l → c.newLogger w o = .some (.own l) := by
  obtain ⟨_, e1, e2, _⟩ := (C52_refused name (some f) lf summary links).2 c hc
  refine ⟨by rw [Creator.canMakeHandler, e1]; rfl, by rw [Creator.newHandler, e1]; exact hh, ?_, ?_⟩
  · rintro rfl
    rw [Creator.newLogger, e2, e1]
    simp only [hh]
  · rintro g l rfl hl
    rw [Creator.newLogger, e2]
    simp only [hl]

/-- With only a function for loggers there are no handlers, but loggers. -/
theorem C52_only_loggers (name : Bytes) (g : W → O → Option L) (summary : Bytes) (links : Map Bytes Bytes) (c : Creator W O H L)
    (hc : newCreator name none (some g) summary links = some c) :
    c.canMakeHandler = false ∧ (∀ w o, c.newHandler w o = none) ∧
      ∀ w o l, g w o = some l → c.newLogger w o = .some (.own l) := by
  obtain ⟨_, e1, e2, _⟩ := (C52_refused name none (some g) summary links).2 c hc
  refine ⟨by rw [Creator.canMakeHandler, e1]; rfl, fun w o => by rw [Creator.newHandler, e1], ?_⟩
  intro w o l hl
  rw [Creator.newLogger, e2]
  simp only [hl]

/-- `NewLogger` of a creator that was made panics exactly when there is no function for loggers and the one for handlers
returns nil. -/
theorem C52_panic (name : Bytes) (hf : Option (W → O → Option H)) (lf : Option (W → O → Option L)) (summary : Bytes)
    (links : Map Bytes Bytes) (c : Creator W O H L) (hc : newCreator name hf lf summary links = some c) (w : W) (o : O) :
    c.newLogger w o = .panic ↔ lf = none ∧ ∃ f, hf = some f ∧ f w o = none := by
  have hr := C52_refused name hf lf summary links
  obtain ⟨_, e1, e2, _⟩ := hr.2 c hc
  have hne : ¬ (hf = none ∧ lf = none) := fun h => by
    have := hr.1.2 (Or.inr h)
    rw [this] at hc
    cases hc
  rw [Creator.newLogger, e2, e1]
  cases lf with
  | some g => cases e : g w o <;> simp [e]
  | none =>
    cases hf with
    | none => exact absurd ⟨rfl, rfl⟩ hne
    | some f => cases e : f w o <;> simp [e]

/-- Both functions, only one, none; and a creator that was not made by `NewCreator`. -/
example :
    ((newCreator b!"x" (some fun (w o : Nat) => some (w + o)) (none : Option (Nat → Nat → Option Nat)) [] []).map fun c =>
        (c.canMakeHandler, c.newHandler 3 4, c.newLogger 3 4)) = some (true, some 7, .some (.over 7)) ∧
      ((newCreator b!"x" (some fun (w o : Nat) => some (w + o)) (some fun (w o : Nat) => some (w * o)) [] []).map fun c =>
        (c.canMakeHandler, c.newHandler 3 4, c.newLogger 3 4)) = some (true, some 7, .some (.own 12)) ∧
      ((newCreator b!"x" (none : Option (Nat → Nat → Option Nat)) (some fun (w o : Nat) => some (w * o)) [] []).map fun c =>
        (c.canMakeHandler, c.newHandler 3 4, c.newLogger 3 4)) = some (false, none, .some (.own 12)) ∧
      (newCreator b!"x" (none : Option (Nat → Nat → Option Nat)) (none : Option (Nat → Nat → Option Nat)) [] []).isNone ∧
      ({ } : Creator Nat Nat Nat Nat).newLogger 1 2 = .panic := by
  refine ⟨rfl, rfl, rfl, rfl, rfl⟩

/-- Links and summary are reported exactly when there are any. -/
theorem C52_links_summary (c : Creator W O H L) : (c.hasLinks = true ↔ c.links ≠ []) ∧ (c.hasSummary = true ↔ c.summary ≠ []) := by
  constructor
  · unfold Creator.hasLinks
    cases c.links <;> simp
  · unfold Creator.hasSummary
    simp

end Verif.Props.Creator
