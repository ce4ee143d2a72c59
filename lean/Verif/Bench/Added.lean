import Verif.Bench.Data

/-
What the checks of the benchmark suite add to the manager of warnings.
-/

namespace Verif.Bench
open Go Warning

/-- A manager after warnings were added to it that meet a condition on the warning, the
function and the text. -/
inductive Grown (P : Warning → Bytes → Bytes → Prop) (m : Manager) : Manager → Prop
  | same : Grown P m m
  | add {m' : Manager} {w : Warning} {fn text : Bytes} (record : Bytes) :
      Grown P m m' → P w fn text → Grown P m (m'.addWarningFnText w fn text record)

variable {P Q : Warning → Bytes → Bytes → Prop}

theorem Grown.trans {a b c : Manager} (h : Grown P a b) (h' : Grown P b c) : Grown P a c := by
  induction h' with
  | same => exact h
  | add r _ hp ih => exact .add r ih hp

theorem Grown.mono {a b : Manager} (h : Grown P a b) (hpq : ∀ w f t, P w f t → Q w f t) : Grown Q a b := by
  induction h with
  | same => exact .same
  | add r _ hp ih => exact .add r ih (hpq _ _ _ hp)

theorem Grown.one {m : Manager} {w : Warning} {fn text : Bytes} (record : Bytes) (h : P w fn text) :
    Grown P m (m.addWarningFnText w fn text record) := .add record .same h

/-- The instances of a warning. -/
def instancesOf (m : Manager) (k : Bytes) : List Instance := ((m.warnings.get k).map Instances.data).getD []

theorem instancesOf_add (m : Manager) (w : Warning) (fn text record k : Bytes) :
    ∃ r, instancesOf (m.addWarningFnText w fn text record) k =
      if k = w.name then instancesOf m k ++ [⟨fn, r, text⟩] else instancesOf m k := by
  refine ⟨if record ≠ [] then trimRightNL record else [], ?_⟩
  unfold instancesOf Manager.addWarningFnText
  dsimp only
  rw [Map.get_set]
  by_cases h : k = w.name
  · subst h
    rw [if_pos rfl, if_pos rfl]
    cases m.warnings.get w.name <;> rfl
  · rw [if_neg h, if_neg h]

/-- What was there stays, and what is new meets the condition. -/
theorem Grown.instances {a b : Manager} (h : Grown P a b) (k : Bytes) :
    ∃ new, instancesOf b k = instancesOf a k ++ new ∧
      ∀ i ∈ new, ∃ w, w.name = k ∧ P w i.function i.text := by
  induction h with
  | same => exact ⟨[], by simp, by simp⟩
  | @add m' w fn text record _ hp ih =>
    obtain ⟨new, e, hn⟩ := ih
    obtain ⟨r, e'⟩ := instancesOf_add m' w fn text record k
    by_cases hk : k = w.name
    · rw [if_pos hk] at e'
      refine ⟨new ++ [⟨fn, r, text⟩], by rw [e', e, List.append_assoc], fun i hi => ?_⟩
      rcases List.mem_append.1 hi with hi | hi
      · exact hn i hi
      · rw [List.mem_singleton.1 hi]
        exact ⟨w, hk.symm, hp⟩
    · rw [if_neg hk] at e'
      exact ⟨new, by rw [e', e], hn⟩

theorem Grown.warnOnly {a b : Manager} (h : Grown P a b) : b.warnOnly = a.warnOnly := by
  induction h with
  | same => rfl
  | add _ _ _ ih => exact ih

variable {F : Type} [DecidableEq F]

/-- What reading the captured bytes adds. -/
def ReadAdds (L : Lib F) (w : Warning) (fn : Bytes) (_ : Bytes) : Prop := w = testError ∧ fn = L.fn

omit [DecidableEq F] in
theorem getLogMap_adds (L : Lib F) (captured : Bytes) (lm : Option (AMap F)) (m : Manager) :
    Grown (ReadAdds L) m (getLogMap L captured lm m).2 := by
  unfold getLogMap
  split
  · exact .same
  · split
    · exact .same
    · exact .one _ ⟨rfl, rfl⟩

/-- A check adds nothing but warnings that meet the condition. -/
def Adds (P : Warning → Bytes → Bytes → Prop) (c : Check F) : Prop :=
  ∀ captured lm m, Grown P m (c captured lm m).2.1

omit [DecidableEq F] in
theorem Adds.mono {c : Check F} (h : Adds P c) (hpq : ∀ w f t, P w f t → Q w f t) : Adds Q c :=
  fun captured lm m => (h captured lm m).mono hpq

/-- What the check of the big group adds. -/
def GroupAdds (L : Lib F) (w : Warning) (fn text : Bytes) : Prop :=
  ReadAdds L w fn text ∨ w = mismatch ∧ fn = L.fn

omit [DecidableEq F] in
theorem bigGroupChecker_adds (L : Lib F) (name : Bytes) : Adds (GroupAdds L) (bigGroupChecker L name) := by
  intro captured lm m
  have h := (getLogMap_adds L captured lm m).mono (Q := GroupAdds L) fun _ _ _ h => .inl h
  unfold bigGroupChecker
  obtain ⟨r, e⟩ : ∃ r, r = getLogMap L captured lm m := ⟨_, rfl⟩
  rw [← e] at h ⊢
  obtain ⟨x, m1⟩ := r
  dsimp only at h ⊢
  split
  · exact h
  · split
    · exact .add _ h (.inr ⟨rfl, rfl⟩)
    · split
      · exact .add _ h (.inr ⟨rfl, rfl⟩)
      · exact h
  · exact .add _ h (.inr ⟨rfl, rfl⟩)

omit [DecidableEq F] in
theorem fields_adds (L : Lib F) (name : Bytes) (names : List Bytes) : Adds (GroupAdds L) (fields L name names) := by
  intro captured lm m
  have h := (getLogMap_adds L captured lm m).mono (Q := GroupAdds L) fun _ _ _ h => .inl h
  unfold fields
  obtain ⟨r, e⟩ : ∃ r, r = getLogMap L captured lm m := ⟨_, rfl⟩
  rw [← e] at h ⊢
  obtain ⟨x, m1⟩ := r
  dsimp only at h ⊢
  split
  · exact .add _ h (.inr ⟨rfl, rfl⟩)
  · exact h

/-- What `matcher` adds. -/
def MatchAdds (L : Lib F) (name : Bytes) (w : Warning) (fn text : Bytes) : Prop :=
  ReadAdds L w fn text ∨ w = mismatch ∧ fn = name ∧ text = []

theorem matcher_adds (L : Lib F) (name : Bytes) (e : AMap F) : Adds (MatchAdds L name) (matcher L name e) := by
  intro captured lm m
  have h := (getLogMap_adds L captured lm m).mono (Q := MatchAdds L name) fun _ _ _ h => .inl h
  unfold matcher
  obtain ⟨r, e⟩ : ∃ r, r = getLogMap L captured lm m := ⟨_, rfl⟩
  rw [← e] at h ⊢
  obtain ⟨x, m1⟩ := r
  dsimp only at h ⊢
  split
  · exact .add _ h (.inr ⟨rfl, rfl, rfl⟩)
  · exact h

omit [DecidableEq F] in
/-- `noDuplicates` adds nothing of its own: its counter has not parsed anything (C66). -/
theorem noDuplicates_adds (L : Lib F) (name : Bytes) : Adds (ReadAdds L) (noDuplicates L name) := by
  intro captured lm m
  have h := getLogMap_adds L captured lm m
  unfold noDuplicates
  obtain ⟨r, e⟩ : ∃ r, r = getLogMap L captured lm m := ⟨_, rfl⟩
  rw [← e] at h ⊢
  obtain ⟨x, m1⟩ := r
  have hd : ¬ (Count.new captured).duplicates.length > 0 := Nat.lt_irrefl 0
  dsimp only at h ⊢
  rw [if_neg hd]
  exact h

/-- What `sourcerer` adds. -/
def SourceAdds (L : Lib F) (name : Bytes) (w : Warning) (fn text : Bytes) : Prop :=
  ReadAdds L w fn text ∨ (w = sourceKey ∨ w = sourceCaller) ∧ fn = name

omit [DecidableEq F] in
theorem sourcerer_adds (L : Lib F) (name : Bytes) : Adds (SourceAdds L name) (sourcerer L name) := by
  intro captured lm m
  have h := (getLogMap_adds L captured lm m).mono (Q := SourceAdds L name) fun _ _ _ h => .inl h
  unfold sourcerer
  obtain ⟨r, e⟩ : ∃ r, r = getLogMap L captured lm m := ⟨_, rfl⟩
  rw [← e] at h ⊢
  obtain ⟨x, m1⟩ := r
  dsimp only at h ⊢
  split
  · split
    · exact .add _ h (.inr ⟨.inl rfl, rfl⟩)
    · exact h
  · exact .add _ h (.inr ⟨.inl rfl, rfl⟩)
  · split
    · exact .add _ h (.inr ⟨.inr rfl, rfl⟩)
    · exact .add _ h (.inr ⟨.inl rfl, rfl⟩)

mutual
/-- All keys of a value meet a condition. -/
def KeysOf (R : Bytes → Prop) : Any F → Prop
  | .map e => KeysOfAll R e
  | _ => True
/-- All keys of the entries of a map. -/
def KeysOfAll (R : Bytes → Prop) : List (Bytes × Any F) → Prop
  | [] => True
  | (k, v) :: e => R k ∧ KeysOf R v ∧ KeysOfAll R e
end

theorem differs_keys {R : Bytes → Prop} {L : Lib F} {k : Bytes} (hk : R k) {v a : Any F} {bf sf : List Bytes}
    (h : differs L k v a = some (bf, sf)) : (∀ f ∈ bf, R f) ∧ ∀ f ∈ sf, R f := by
  unfold differs at h
  split at h
  · cases h; simp
  · split at h
    · split at h
      · cases h
      · split at h <;> cases h <;> simp [hk]
    · cases h; simp [hk]

omit [DecidableEq F] in
theorem sort_keys {R : Bytes → Prop} (L : Lib F) {l : List Bytes} (h : ∀ f ∈ l, R f) : ∀ f ∈ sortStrings L l, R f :=
  fun f hf => h f ((L.sorter.perm less l).mem_iff.1 hf)

mutual
theorem finderField_keys {R : Bytes → Prop} {L : Lib F} {k : Bytes} (hk : R k) : ∀ (v a : Any F), KeysOf R v →
    ∀ bf sf, finderField L k v a = some (bf, sf) → (∀ f ∈ bf, R f) ∧ ∀ f ∈ sf, R f
  | .map e, a, hv, bf, sf, h => by
    cases a with
    | map a =>
      rw [finderField] at h
      split at h
      · cases h
      · rename_i bf' sf' e'
        obtain ⟨h1, h2⟩ := finderLoop_keys e a hv bf' sf' e'
        cases h
        exact ⟨sort_keys L h1, sort_keys L h2⟩
    | nil => rw [finderField] at h <;> first | exact differs_keys hk h | simp
    | bool _ => rw [finderField] at h <;> first | exact differs_keys hk h | simp
    | num _ => rw [finderField] at h <;> first | exact differs_keys hk h | simp
    | str _ => rw [finderField] at h <;> first | exact differs_keys hk h | simp
    | list _ => rw [finderField] at h <;> first | exact differs_keys hk h | simp
  | .nil, a, _, bf, sf, h => by rw [finderField] at h <;> first | exact differs_keys hk h | simp
  | .bool _, a, _, bf, sf, h => by rw [finderField] at h <;> first | exact differs_keys hk h | simp
  | .num _, a, _, bf, sf, h => by rw [finderField] at h <;> first | exact differs_keys hk h | simp
  | .str _, a, _, bf, sf, h => by rw [finderField] at h <;> first | exact differs_keys hk h | simp
  | .list _, a, _, bf, sf, h => by rw [finderField] at h <;> first | exact differs_keys hk h | simp
theorem finderLoop_keys {R : Bytes → Prop} {L : Lib F} : ∀ (e a : List (Bytes × Any F)), KeysOfAll R e →
    ∀ bf sf, finderLoop L e a = some (bf, sf) → (∀ f ∈ bf, R f) ∧ ∀ f ∈ sf, R f
  | [], a, _, bf, sf, h => by rw [finderLoop] at h; cases h; simp
  | (k, v) :: e, a, he, bf, sf, h => by
    rw [finderLoop] at h
    split at h
    · cases h
    · rename_i bf1 sf1 e1
      split at h
      · cases h
      · rename_i bf2 sf2 e2
        obtain ⟨h1, h2⟩ := finderField_keys he.1 v _ he.2.1 bf1 sf1 e1
        obtain ⟨h3, h4⟩ := finderLoop_keys e a he.2.2 bf2 sf2 e2
        cases h
        refine ⟨fun f hf => ?_, fun f hf => ?_⟩
        · rcases List.mem_append.1 hf with hf | hf
          · exact h1 f hf
          · exact h3 f hf
        · rcases List.mem_append.1 hf with hf | hf
          · exact h2 f hf
          · exact h4 f hf
end

/-- What `finder` adds: the function is the name of the test and a list of fields, not
empty, that are keys of the expected map, some of them quoted. -/
def FindAdds (R : Bytes → Prop) (L : Lib F) (name : Bytes) (w : Warning) (fn text : Bytes) : Prop :=
  ReadAdds L w fn text ∨ w = unused ∧ fn = L.fn ∨
  (w = stringAny ∨ w = mismatch) ∧ text = [] ∧ ∃ fs, fs ≠ [] ∧
    (∀ f ∈ fs, R f ∨ ∃ g, R g ∧ f = 0x22 :: (g ++ [0x22])) ∧ fn = name ++ b!": " ++ joinComma fs

theorem finder_adds {R : Bytes → Prop} (L : Lib F) (name : Bytes) {e : AMap F} (he : KeysOf R (.map e)) :
    Adds (FindAdds R L name) (finder L name e) := by
  intro captured lm m
  have ne : ∀ l : List Bytes, l.length > 0 → l ≠ [] := fun l h e => by rw [e] at h; simp at h
  have hs : ∀ bf sf m, (∀ f ∈ sf, R f) → Grown (FindAdds R L name) m (finderStrings L name captured bf sf m).2 := by
    intro bf sf m hsf
    unfold finderStrings
    split
    · rename_i hl
      split
      · exact .one _ (.inr (.inr ⟨.inl rfl, rfl, sf, ne _ hl, fun f hf => .inl (hsf f hf), rfl⟩))
      · exact .same
    · split
      · exact .one _ (.inr (.inl ⟨rfl, rfl⟩))
      · exact .same
  have hq : ∀ bf sf m, (∀ f ∈ bf, R f) → (∀ f ∈ sf, R f) →
      ∀ f ∈ (finderStrings L name captured bf sf m).1, R f ∨ ∃ g, R g ∧ f = 0x22 :: (g ++ [0x22]) := by
    intro bf sf m hbf hsf f hf
    unfold finderStrings at hf
    split at hf
    · split at hf
      · exact .inl (hbf f hf)
      · rcases List.mem_append.1 hf with hf | hf
        · exact .inl (hbf f hf)
        · obtain ⟨g, hg, rfl⟩ := List.mem_map.1 hf
          exact .inr ⟨g, hsf g hg, rfl⟩
    · split at hf
      · exact .inl (hbf f hf)
      · exact .inl (hbf f hf)
  have hr : ∀ bf m, (∀ f ∈ bf, R f ∨ ∃ g, R g ∧ f = 0x22 :: (g ++ [0x22])) →
      Grown (FindAdds R L name) m (finderReport L name captured bf m).1 := by
    intro bf m hbf
    unfold finderReport
    split
    · rename_i hl
      split
      · exact .one _ (.inr (.inr ⟨.inr rfl, rfl, bf, ne _ hl, hbf, rfl⟩))
      · exact .same
    · split
      · exact .one _ (.inr (.inl ⟨rfl, rfl⟩))
      · exact .same
  have h := (getLogMap_adds L captured lm m).mono (Q := FindAdds R L name) fun _ _ _ h => .inl h
  unfold finder
  split
  · exact .same
  · obtain ⟨r, e⟩ : ∃ r, r = getLogMap L captured lm m := ⟨_, rfl⟩
    rw [← e] at h ⊢
    obtain ⟨x, m1⟩ := r
    dsimp only at h ⊢
    split
    · exact h
    · rename_i bf sf e2
      have hk : (∀ f ∈ bf, R f) ∧ ∀ f ∈ sf, R f := by
        unfold finderDeep at e2
        split at e2
        · cases e2
        · rename_i bf' sf' e3
          obtain ⟨h1, h2⟩ := finderLoop_keys _ _ he bf' sf' e3
          cases e2
          exact ⟨sort_keys L h1, sort_keys L h2⟩
      exact (h.trans (hs bf sf m1 hk.2)).trans (hr _ _ (hq bf sf m1 hk.1 hk.2))

omit [DecidableEq F] in
theorem runAll_adds (captured : Bytes) : ∀ (fns : List (Check F)), (∀ f ∈ fns, Adds P f) → ∀ lm m,
    Grown P m (runAll captured fns lm m).2.1
  | [], _, _, _ => .same
  | f :: fns, h, lm, m => by
    rw [runAll]
    have h1 := h f (by simp) captured lm m
    have h2 := runAll_adds captured fns (fun g hg => h g (by simp [hg])) (f captured lm m).1 (f captured lm m).2.1
    exact h1.trans h2

omit [DecidableEq F] in
theorem verify_adds {L : Lib F} {fns : List (Check F)} (hr : ∀ w f t, ReadAdds L w f t → P w f t)
    (h : ∀ f ∈ fns, Adds P f) : Adds P (verify L fns) := by
  intro captured lm m
  unfold verify
  exact ((getLogMap_adds L captured lm m).mono hr).trans (runAll_adds captured fns h _ _)

omit [DecidableEq F] in
theorem verifyLines_adds {L : Lib F} {size : Nat} {fns : List (Check F)} (hr : ∀ w f t, ReadAdds L w f t → P w f t)
    (h : ∀ f ∈ fns, Adds P f) {captured : Bytes} {m m' : Manager} {e : Option Err}
    (hv : verifyLinesWith L size fns captured m = some (m', e)) : Grown P m m' := by
  have key : ∀ n input buffer m, linesLoop L size fns n input buffer m = some (m', e) → Grown P m m' := by
    intro n
    induction n with
    | zero => intro _ _ _ h; cases h
    | succ n ih =>
      intro input buffer m hl
      rw [linesLoop] at hl
      split at hl
      · cases hl; exact .same
      · exact ih _ _ _ hl
      · rename_i chunk rest _
        dsimp only at hl
        have h1 := (getLogMap_adds L (buffer ++ chunk) none m).mono hr
        have h2 := runAll_adds (P := P) (buffer ++ chunk) fns h (getLogMap L (buffer ++ chunk) none m).1
          (getLogMap L (buffer ++ chunk) none m).2
        split at hl
        · cases hl; exact h1.trans h2
        · exact (h1.trans h2).trans (ih _ _ _ hl)
  exact key _ _ _ _ hv

/-- What the check of Disabled adds. -/
def DisabledAdds (L : Lib F) (w : Warning) (fn _text : Bytes) : Prop := w = notDisabled ∧ fn = L.fn

omit [DecidableEq F] in
theorem disabled_adds {L : Lib F} {captured : Bytes} {m m' : Manager} {e : Option Err}
    (h : disabledCheck L captured m = some (m', e)) : Grown (DisabledAdds L) m m' := by
  unfold disabledCheck at h
  split at h <;> cases h
  · exact .one _ ⟨rfl, rfl⟩
  · exact .same

omit [DecidableEq F] in
theorem run_adds {c : Check F} (hc : Adds P c) {captured : Bytes} {m m' : Manager} {e : Option Err}
    (h : c.run captured m = some (m', e)) : Grown P m m' := by
  have := hc captured none m
  unfold Check.run at h
  have h := Option.some.inj h
  rw [h] at this
  exact this

end Verif.Bench
