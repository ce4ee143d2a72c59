import Verif.Verify.Keeps

/-
Which warnings, when expected, are sure to be mentioned by a test: recorded, or noted as not seen.
-/

namespace Verif.Verify
open Go Warning Slog Bench

variable {F : Type} [DecidableEq F]

/-- What is recorded under a name. -/
def notes (m : Manager) (name : Bytes) : List Instance := ((m.warnings.get name).map (·.data)).getD []

theorem notes_add (m : Manager) (fn : Bytes) (w : Warning) (text record name : Bytes) :
    notes (m.addWarning fn w text record) name =
      if w.name = name then
        notes m name ++ [⟨fn, if record ≠ [] then trimRightNL record else [], text⟩]
      else notes m name := by
  unfold notes Manager.addWarning Manager.addWarningFnText
  dsimp only
  rw [Map.get_set]
  by_cases h : w.name = name
  · subst h
    simp only [if_true, Option.map_some, Option.getD_some]
    cases Map.get m.warnings w.name <;> rfl
  · rw [if_neg h]
    by_cases h' : name = w.name
    · exact absurd h'.symm h
    · rw [if_neg h']

/-- What is added under a name. -/
theorem adds_notes {A : Warning → Bytes → Prop} {fn : Bytes} {a b : Manager} (h : Adds A fn a b) (name : Bytes) :
    ∃ new, notes b name = notes a name ++ new ∧
      ∀ i ∈ new, i.function = fn ∧ ∃ w, w.name = name ∧ A w i.text := by
  induction h with
  | refl => exact ⟨[], by simp, by simp⟩
  | step w text record _ ha ih =>
    obtain ⟨new, hn, hi⟩ := ih
    rw [notes_add]
    by_cases hw : w.name = name
    · rw [if_pos hw, hn]
      refine ⟨new ++ [_], List.append_assoc _ _ _, ?_⟩
      intro i hm
      rcases List.mem_append.mp hm with hm | hm
      · exact hi i hm
      · rw [List.mem_singleton] at hm
        subst hm
        exact ⟨rfl, w, hw, ha⟩
    · rw [if_neg hw]
      exact ⟨new, hn, hi⟩

/-- How often a warning is mentioned: recorded, or noted as not seen. -/
def mentions (w : Warning) (m : Manager) : Nat :=
  (notes m w.name).length + (notes m unused.name).countP fun i => decide (i.text = w.name)

theorem mentions_mono {A : Warning → Bytes → Prop} {fn : Bytes} {a b : Manager} (h : Adds A fn a b) (w : Warning) :
    mentions w a ≤ mentions w b := by
  obtain ⟨n1, h1, _⟩ := adds_notes h w.name
  obtain ⟨n2, h2, _⟩ := adds_notes h unused.name
  unfold mentions
  rw [h1, h2, List.length_append, List.countP_append]
  omega

/-- A piece of a test fails, or mentions the warning. -/
structure Marks (S : Suite F) (E : Warning → Bool) (w : Warning) {α : Type} (t : Run α) : Prop where
  holds : ∀ s, Expects S E s.mgr → s.fails < (t s).2.fails ∨ mentions w s.mgr < mentions w (t s).2.mgr

variable {S : Suite F} {E : Warning → Bool} {w : Warning} {α β : Type}

omit [DecidableEq F] in
theorem marks_left {x : Run α} {f : α → Run β} (hk : Keeps S E (Allowed E) x) (hx : Marks S E w x)
    (hf : ∀ a, Keeps S E (Allowed E) (f a)) : Marks S E w (x >>= f) := by
  refine ⟨fun s hs => ?_⟩
  have h1 := hx.holds s hs
  have k1 := hk.holds s hs
  rcases h : x s with ⟨o, s'⟩
  rw [h] at h1 k1
  cases o with
  | none => rw [bind_none h]; exact h1
  | some a =>
    rw [bind_some h]
    have k := (hf a).holds s' (hs.adds k1.1)
    rcases h1 with h1 | h1
    · exact .inl (Nat.lt_of_lt_of_le h1 k.2.2.1)
    · exact .inr (Nat.lt_of_lt_of_le h1 (mentions_mono k.1 w))

omit [DecidableEq F] in
theorem marks_right {x : Run α} {f : α → Run β} (hk : Keeps S E (Allowed E) x) (hf : ∀ a, Marks S E w (f a)) :
    Marks S E w (x >>= f) := by
  refine ⟨fun s hs => ?_⟩
  have k1 := hk.holds s hs
  rcases h : x s with ⟨o, s'⟩
  rw [h] at k1
  cases o with
  | none => rw [bind_none h]; exact .inl (k1.2.2.2 rfl)
  | some a =>
    rw [bind_some h]
    rcases (hf a).holds s' (hs.adds k1.1) with h1 | h1
    · exact .inl (Nat.lt_of_le_of_lt k1.2.2.1 h1)
    · exact .inr (Nat.lt_of_le_of_lt (mentions_mono k1.1 w) h1)

omit [DecidableEq F] in
theorem marks_has {v : Warning} {f : Bool → Run β} (hf : Marks S E w (f (E v))) : Marks S E w (has S v >>= f) := by
  refine ⟨fun s hs => ?_⟩
  have h : has S v s = (some (E v), s) := by rw [has, hs v]
  rw [bind_some h]
  exact hf.holds s hs

omit [DecidableEq F] in
theorem marks_hasAny {ws : List Warning} {f : List Warning → Run β} (hf : ∀ l, l = ws.filter E → Marks S E w (f l)) :
    Marks S E w (hasAny S ws >>= f) := by
  refine ⟨fun s hs => ?_⟩
  rw [bind_some (hasAny_eq hs)]
  exact (hf _ rfl).holds s hs

omit [DecidableEq F] in
theorem marks_add {text record : Bytes} : Marks S E w (addWarning w text record) := by
  refine ⟨fun s _ => .inr ?_⟩
  show mentions w s.mgr < mentions w (s.mgr.addWarning s.test w text record)
  unfold mentions
  rw [notes_add, notes_add, if_pos rfl, List.length_append]
  generalize (if record ≠ [] then trimRightNL record else []) = r
  split
  · rw [List.countP_append]; simp only [List.length_singleton]; omega
  · simp only [List.length_singleton]; omega

omit [DecidableEq F] in
theorem marks_unused {record : Bytes} : Marks S E w (addUnused w record) := by
  refine ⟨fun s _ => .inr ?_⟩
  show mentions w s.mgr < mentions w (s.mgr.addWarning s.test unused w.name record)
  unfold mentions
  rw [notes_add, notes_add, if_pos rfl, List.countP_append]
  have : List.countP (fun i : Instance => decide (i.text = w.name))
      [⟨s.test, if record ≠ [] then trimRightNL record else [], w.name⟩] = 1 := by
    rw [List.countP_singleton]; simp
  rw [this]
  generalize (if record ≠ [] then trimRightNL record else []) = r
  split
  · rw [List.length_append]; simp only [List.length_singleton]; omega
  · omega

omit [DecidableEq F] in
theorem marks_assert : Marks S E w (assert false) := ⟨fun _ _ => .inl (Nat.lt_succ_self _)⟩

omit [DecidableEq F] in
theorem marks_require : Marks S E w (require false) := ⟨fun _ _ => .inl (Nat.lt_succ_self _)⟩

omit [DecidableEq F] in
theorem marks_each {f : α → Run Unit} {a : α} {l : List α} (hf : ∀ a, Keeps S E (Allowed E) (f a))
    (hm : Marks S E w (f a)) : Marks S E w (each f (a :: l)) :=
  marks_left (hf a) hm fun _ => keeps_each hf l

/-- A rule for a piece of a test. -/
syntax "mark_rule" : tactic

macro_rules | `(tactic| mark_rule) => `(tactic| with_reducible first
  | exact marks_add
  | exact marks_unused
  | exact marks_assert
  | exact marks_require
  | contradiction)

/-- All steps. -/
syntax "marks" : tactic

macro_rules | `(tactic| marks) => `(tactic| first
  | (mark_rule; done)
  | (with_reducible refine marks_has ?_; marks; done)
  | (with_reducible refine marks_hasAny ?_; intro _ _; marks; done)
  | (with_reducible refine marks_left ?_ ?_ ?_; focus (keeps; done)
     focus (marks; done)
     focus (intro _; keeps; done))
  | (with_reducible refine marks_right ?_ ?_; focus (keeps; done)
     focus (intro _; marks; done))
  | (dsimp only; marks; done)
  | (split <;> marks; done))

theorem marks_canceledContext (h : E canceledContext = true) : Marks S E canceledContext (testCanceledContext S) := by
  unfold testCanceledContext ; marks

omit [DecidableEq F] in
theorem marks_defaultLevel (h : E defaultLevel = true) : Marks S E defaultLevel (testDefaultLevel S) := by
  unfold testDefaultLevel
  refine marks_each ?_ ?_
  · intro _; keeps
  · marks

omit [DecidableEq F] in
theorem marks_levelVar (h : E levelVar = true) : Marks S E levelVar (testLevelVar S) := by
  unfold testLevelVar ; marks

theorem marks_timeMillis (h : E timeMillis = true) : Marks S E timeMillis (testLogAttributes S) := by
  unfold testLogAttributes checkWhen; marks

theorem marks_durationString (h : E durationString = true) : Marks S E durationString (testLogAttributes S) := by
  unfold testLogAttributes checkHowLong; marks

theorem marks_durationSeconds (h : E durationSeconds = true) (hs : ¬ E durationString = true) : Marks S E durationSeconds (testLogAttributes S) := by
  unfold testLogAttributes checkHowLong; marks

theorem marks_durationMillis (h : E durationMillis = true) (hs : ¬ E durationString = true) (ht : ¬ E durationSeconds = true) : Marks S E durationMillis (testLogAttributes S) := by
  unfold testLogAttributes checkHowLong; marks

theorem marks_stringAny (h : E stringAny = true) : Marks S E stringAny (testAnyMap S) := by
  unfold testAnyMap ; marks

omit [DecidableEq F] in
theorem marks_levelMath (h : E levelMath = true) : Marks S E levelMath (testLevelVar S) := by
  unfold testLevelVar checkLevelMath; marks

theorem marks_groupWithTop (h : E groupWithTop = true) : Marks S E groupWithTop (testGroupWithTop S) := by
  unfold testGroupWithTop ; marks

theorem marks_groupDuration (h : E groupDuration = true) (hs : ¬ E durationString = true) : Marks S E groupDuration (testGroupDuration S) := by
  unfold testGroupDuration checkInner; marks

theorem marks_messageKey (h : E messageKey = true) : Marks S E messageKey (testKeys S) := by
  unfold testKeys checkBasics checkMessageKey; marks

theorem marks_emptyAttributes (h : E emptyAttributes = true) : Marks S E emptyAttributes (testAttributesEmpty S) := by
  unfold testAttributesEmpty checkNoEmptyAttribute; marks

theorem marks_noEmptyName (h : E noEmptyName = true) : Marks S E noEmptyName (testAttributeEmptyName S) := by
  unfold testAttributeEmptyName checkEmptyName emptyNameWarning; marks

omit [DecidableEq F] in
theorem marks_groupEmpty (h : E groupEmpty = true) : Marks S E groupEmpty (testGroupEmpty S) := by
  unfold testGroupEmpty emptyGroupWarning; marks

omit [DecidableEq F] in
theorem marks_withGroupEmpty (h : E withGroupEmpty = true) : Marks S E withGroupEmpty (testWithGroupEmpty S) := by
  unfold testWithGroupEmpty emptyGroupWarning; marks

theorem marks_groupInline (h : E groupInline = true) : Marks S E groupInline (testGroupInline S) := by
  unfold testGroupInline checkInline; marks

theorem marks_withGroup (h : E withGroup = true) : Marks S E withGroup (testGroupWithMulti S) := by
  unfold testGroupWithMulti ; marks

theorem marks_resolver (h : E resolver = true) : Marks S E resolver (testResolveValuer S) := by
  unfold testResolveValuer checkResolution; marks

theorem marks_zeroPC (h : E zeroPC = true) : Marks S E zeroPC (testZeroPC S) := by
  unfold testZeroPC ; marks

theorem marks_zeroTime (h : E zeroTime = true) : Marks S E zeroTime (testZeroTime S) := by
  unfold testZeroTime ; marks

theorem marks_noReplAttr (h : E noReplAttr = true) : Marks S E noReplAttr (testReplaceAttr S) := by
  unfold testReplaceAttr report; marks

theorem marks_replAttrGroup (h : E replAttrGroup = true) (hs : ¬ E noReplAttr = true) : Marks S E replAttrGroup (testReplaceAttrGroup S) := by
  unfold testReplaceAttrGroup ; marks

theorem marks_sourceCaller (h : E sourceCaller = true) : Marks S E sourceCaller (testSourceKey S) := by
  unfold testSourceKey checkSourceKey; marks

theorem marks_sourceKey (h : E sourceKey = true) : Marks S E sourceKey (testSourceKey S) := by
  unfold testSourceKey checkSourceKey sourceKeyPart; marks

omit [DecidableEq F] in
theorem marks_skipDedup (h : E skipDedup = true) : Marks S E skipDedup (testAttributeDuplicate S) := by
  unfold testAttributeDuplicate checkDuplicates skipTest; marks

theorem marks_noReplAttrBasic (h : E noReplAttrBasic = true) : Marks S E noReplAttrBasic (testReplaceAttrFnMulti S) := by
  unfold testReplaceAttrFnMulti
  refine marks_right (by keeps) fun _ => marks_right (by keeps) fun m => ?_
  dsimp only
  refine marks_hasAny fun l hl => ?_
  rw [List.filter_cons_of_pos h] at hl
  subst hl
  marks

end Verif.Verify
