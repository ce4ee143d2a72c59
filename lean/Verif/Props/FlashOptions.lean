import Verif.Flash.Options
import Verif.Flash.Errors
import Verif.Flash.Sample

/-
Properties C13, C14, C15 for flash.
-/

set_option linter.unusedSimpArgs false

namespace Verif.Props
open Slog LogTree Flash

/-! ### C13 -/

/-- C13 for flash. Whatever the options and extras, at every moment and for
every derived handler: a level is enabled exactly if it is at least the level the
options answer at that moment; without options or level, exactly from Info up. -/
theorem C13_flash_enabled (env : Env) (o : Option RawOptions) (x : Option RawExtras) (ops : List Op)
    (h : H) (hd : (H.plain (build env o x)).derive ops = some h) (now : Nat) (level : Int) :
    (∀ opts lv, o = some opts → opts.level = some lv → (h.enabled now level = true ↔ lv now ≤ level)) ∧
    ((o = none ∨ ∃ opts, o = some opts ∧ opts.level = none) →
      (h.enabled now level = true ↔ 0 ≤ level)) := by
  have hu : h.Uniform (build env o x) :=
    derive_uniform (h := .plain (build env o x)) ⟨rfl, rfl, rfl⟩ hd
  have e : h.enabled now level = decide ((build env o x).options.level now ≤ level) := by
    rw [H.enabled, hu.core.2.1]
  rw [e]
  constructor
  · rintro opts lv rfl hl
    simp [build, newHandler, RawOptions.view, fixOptions, hl]
  · rintro (rfl | ⟨opts, rfl, hl⟩)
    · simp only [build, newHandler, RawOptions.view, fixOptions, levelInfo, Option.getD_none, Option.getD_some]
      exact decide_eq_true_iff
    · simp [build, newHandler, RawOptions.view, fixOptions, hl, levelInfo]

/-- A level that changes with time, seen through a derived handler. -/
example : ∃ h, (H.plain (build Sample.env (some { level := some fun t => if t < 5 then -4 else 8 }) none)).derive
    Sample.ops = some h ∧ h.enabled 4 0 = true ∧ h.enabled 5 0 = false := ⟨_, rfl, by decide, by decide⟩

/-! ### C14 -/

/-- What the documentation promises for a text field: the user's text, or the
default if it is empty. -/
def Filled (given dflt result : Bytes) : Prop :=
  (given ≠ [] → result = given) ∧ (given = [] → result = dflt)

/-- C14 for extras: every text field set by the user is kept, every unset one
gets its default, and no field is left empty. -/
theorem C14_flash_extras_fields (x : RawExtras) :
    Filled x.timeFormat b!"2006-01-02T15:04:05.999999999Z07:00" (fixExtras (some x)).timeFormat ∧
    Filled x.levelKey b!"level" (fixExtras (some x)).levelKey ∧
    Filled x.messageKey b!"msg" (fixExtras (some x)).messageKey ∧
    Filled x.sourceKey b!"source" (fixExtras (some x)).sourceKey ∧
    Filled x.timeKey b!"time" (fixExtras (some x)).timeKey ∧
    (fixExtras (some x)).timeFormat ≠ [] ∧ (fixExtras (some x)).levelKey ≠ [] ∧
    (fixExtras (some x)).messageKey ≠ [] ∧ (fixExtras (some x)).sourceKey ≠ [] ∧
    (fixExtras (some x)).timeKey ≠ [] := by
  have f : ∀ g d, Filled g d (orDefault g d) := by
    intro g d; constructor <;> intro h <;> simp [orDefault, h]
  have n : ∀ g d, d ≠ [] → orDefault g d ≠ [] := by
    intro g d hd; unfold orDefault; split <;> assumption
  exact ⟨f _ _, f _ _, f _ _, f _ _, f _ _, n _ _ (by decide), n _ _ (by decide), n _ _ (by decide),
    n _ _ (by decide), n _ _ (by decide)⟩

/-- The four levels that get a name. -/
def standardName (l : Int) : Option Bytes :=
  if l = -4 then some b!"DEBUG" else if l = 0 then some b!"INFO"
  else if l = 4 then some b!"WARN" else if l = 8 then some b!"ERROR" else none

theorem fixLevel_apply (l : Int) (m : Int → Option Bytes) (x : Int) :
    fixLevel l m x = if x = l ∧ (m l).getD [] = [] then some (levelString l) else m x := by
  unfold fixLevel
  by_cases h : (m l).getD [] = []
  · simp [h]
  · simp [h]

/-- C14 for level names: a non-empty name given by the user is kept; each of the
four standard levels without one gets its standard name; every other entry stays
as it was. -/
theorem C14_flash_level_names (x : RawExtras) (names : Int → Option Bytes)
    (hx : x.levelNames.getD (fun _ => none) = names) :
    ∃ fixed, (fixExtras (some x)).levelNames = some fixed ∧ ∀ l : Int,
      (∀ s, names l = some s → s ≠ [] → fixed l = some s) ∧
      ((names l).getD [] = [] → ∀ s, standardName l = some s → fixed l = some s) ∧
      (standardName l = none → fixed l = names l) := by
  refine ⟨_, rfl, ?_⟩
  intro l
  simp only [Option.getD_some, hx]
  have d : levelString (-4) = b!"DEBUG" := by decide
  have i : levelString 0 = b!"INFO" := by decide
  have w : levelString 4 = b!"WARN" := by decide
  have e : levelString 8 = b!"ERROR" := by decide
  simp only [fixLevel_apply, standardName, levelDebug, levelInfo, levelWarn, levelError, d, i, w, e]
  by_cases h1 : l = -4
  · subst h1; simp; grind
  by_cases h2 : l = 0
  · subst h2; simp; grind
  by_cases h3 : l = 4
  · subst h3; simp; grind
  by_cases h4 : l = 8
  · subst h4; simp; grind
  simp [h1, h2, h3, h4]
  exact fun _ h _ => h

/-- C14 for options: nothing but a missing level changes. -/
theorem C14_flash_options (o : RawOptions) :
    (fixOptions (some o)).addSource = o.addSource ∧ (fixOptions (some o)).replace = o.replace ∧
    (∀ lv, o.level = some lv → (fixOptions (some o)).level = some lv) ∧
    (o.level = none → ∃ lv, (fixOptions (some o)).level = some lv ∧ ∀ now, lv now = 0) := by
  unfold fixOptions
  simp only [Option.getD_some]
  cases h : o.level with
  | none => simp [levelInfo]
  | some lv => simp [h]

/-- C14: nil behaves like an empty object, and fixing twice is fixing once. -/
theorem C14_flash_idempotent (o : Option RawOptions) (x : Option RawExtras) :
    fixOptions none = fixOptions (some {}) ∧ fixExtras none = fixExtras (some {}) ∧
    fixOptions (some (fixOptions o)) = fixOptions o ∧
    fixExtras (some (fixExtras x)) = fixExtras x := by
  refine ⟨rfl, rfl, ?_, ?_⟩
  · unfold fixOptions
    simp only [Option.getD_some]
    cases h : (o.getD {}).level with
    | none => rfl
    | some lv => simp [h]
  · have od : ∀ g d, d ≠ [] → orDefault (orDefault g d) d = orDefault g d := by
      intro g d hd; unfold orDefault; grind
    have names : ∀ m : Int → Option Bytes,
        fixLevel levelError (fixLevel levelWarn (fixLevel levelInfo (fixLevel levelDebug
          (fixLevel levelError (fixLevel levelWarn (fixLevel levelInfo (fixLevel levelDebug m))))))) =
        fixLevel levelError (fixLevel levelWarn (fixLevel levelInfo (fixLevel levelDebug m))) := by
      intro m
      funext l
      have d : levelString levelDebug ≠ [] := by decide
      have i : levelString levelInfo ≠ [] := by decide
      have w : levelString levelWarn ≠ [] := by decide
      have e : levelString levelError ≠ [] := by decide
      simp only [fixLevel_apply, levelDebug, levelInfo, levelWarn, levelError] at *
      grind
    unfold fixExtras
    simp only [Option.getD_some, names]
    congr 1 <;> exact od _ _ (by decide)

/-- An extras object with some fields set. -/
def sampleExtras : RawExtras where
  levelKey := b!"lvl"
  levelNames := some fun l =>
    if l = 0 then some b!"I" else if l = 2 then some b!"notice" else if l = 4 then some [] else none

example : (fixExtras (some sampleExtras)).view.levelNames 4 = b!"WARN" ∧
    (fixExtras (some sampleExtras)).view.levelNames 0 = b!"I" ∧ (fixExtras none).view.messageKey = b!"msg" := by decide

/-! ### C15 -/

/-- C15 in full: with the default extras every level has a name of its own. -/
def C15_flash_statement : Prop :=
  (∀ l, (fixExtras none).view.levelNames l ≠ []) ∧
  ∀ l l', (fixExtras none).view.levelNames l = (fixExtras none).view.levelNames l' → l = l'

/-- C15 is false: a record of level Info+1 or Error+4 is logged with an empty
level. -/
theorem C15_flash_unnamed_level : ¬ C15_flash_statement := by
  intro h
  exact h.1 1 (by decide)

/-- The same seen in the line. -/
theorem C15_flash_unnamed_level_line :
    (H.plain (build Sample.env none none)).handle none { time := none, level := 1, message := b!"m" } =
      .line b!"{\"level\": \"\", \"msg\": \"m\"}\n" := by decide

/-- C15 as far as it goes: with any extras, the level text is empty exactly for
the levels that are not standard and have no name of their own; with the default
extras the four standard levels have different names. Missing for the full
statement: names for all other levels. -/
theorem C15_flash_level_named_partial (x : RawExtras) (l : Int) :
    ((fixExtras (some x)).view.levelNames l ≠ [] ↔
      (l = -4 ∨ l = 0 ∨ l = 4 ∨ l = 8 ∨
        ∃ m s, x.levelNames = some m ∧ m l = some s ∧ s ≠ [])) ∧
    (∀ a ∈ [-4, 0, 4, 8], ∀ b ∈ [-4, 0, 4, 8],
      (fixExtras none).view.levelNames a = (fixExtras none).view.levelNames b → a = b) := by
  constructor
  · obtain ⟨fixed, h1, h2⟩ := C14_flash_level_names x _ rfl
    obtain ⟨k1, k2, k3⟩ := h2 l
    have hv : (fixExtras (some x)).view.levelNames l = (fixed l).getD [] := by
      simp only [RawExtras.view, h1, Option.getD_some]
    rw [hv]
    have names : ∀ s, (x.levelNames.getD fun _ => none) l = some s ↔
        ∃ m, x.levelNames = some m ∧ m l = some s := by
      intro s
      cases x.levelNames <;> simp
    constructor
    · intro hne
      by_cases hs : standardName l = none
      · rw [k3 hs] at hne
        cases hm : (x.levelNames.getD fun _ => none) l with
        | none => rw [hm] at hne; exact absurd rfl hne
        | some s =>
          rw [hm] at hne
          obtain ⟨m, m1, m2⟩ := (names s).1 hm
          exact Or.inr (Or.inr (Or.inr (Or.inr ⟨m, s, m1, m2, hne⟩)))
      · unfold standardName at hs
        grind
    · intro h
      by_cases hu : ∃ m s, x.levelNames = some m ∧ m l = some s ∧ s ≠ []
      · obtain ⟨m, s, m1, m2, m3⟩ := hu
        rw [k1 s ((names s).2 ⟨m, m1, m2⟩) m3]
        exact m3
      · have hg : ((x.levelNames.getD fun _ => none) l).getD [] = [] := by
          cases hm : (x.levelNames.getD fun _ => none) l with
          | none => rfl
          | some s =>
            obtain ⟨m, m1, m2⟩ := (names s).1 hm
            by_contra hs
            exact hu ⟨m, s, m1, m2, hs⟩
        have hs : ∃ s, standardName l = some s ∧ s ≠ [] := by
          unfold standardName
          rcases h with rfl | rfl | rfl | rfl | h
          · exact ⟨_, rfl, by decide⟩
          · exact ⟨_, rfl, by decide⟩
          · exact ⟨_, rfl, by decide⟩
          · exact ⟨_, rfl, by decide⟩
          · exact absurd h hu
        obtain ⟨s, s1, s2⟩ := hs
        rw [k2 hg s s1]
        exact s2
  · decide

/-- A case: with names for the levels 1 and 2, where the second is empty, level 1 has a
name, level 2 has none, and level 8 has the standard one. -/
example : (fixExtras (some { levelNames := some fun l => if l = 1 then some b!"NOTICE" else if l = 2 then some [] else none })).view.levelNames 1 ≠ [] ∧
    (fixExtras (some { levelNames := some fun l => if l = 1 then some b!"NOTICE" else if l = 2 then some [] else none })).view.levelNames 2 = [] ∧
    (fixExtras (some { levelNames := some fun l => if l = 1 then some b!"NOTICE" else if l = 2 then some [] else none })).view.levelNames 8 ≠ [] :=
  ⟨(C15_flash_level_named_partial _ 1).1.2 (.inr (.inr (.inr (.inr ⟨_, _, rfl, rfl, by decide⟩)))), by decide,
    (C15_flash_level_named_partial _ 8).1.2 (.inr (.inr (.inr (.inl rfl))))⟩

end Verif.Props
