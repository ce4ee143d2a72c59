import Verif.Verify.ReplTests
import Verif.Spec.Recorded

/-
What a piece of a test does to the warning manager and to the number of failed assertions,
whatever the handler under test does: rules for the pieces the tests of Verif.Verify are made of.
-/

namespace Verif.Verify
open Go Warning Slog Bench

variable {F : Type} [DecidableEq F]

/-- `m'` comes from `m` by recording warnings that `A` allows. -/
inductive Adds (A : Warning → Bytes → Prop) (fn : Bytes) : Manager → Manager → Prop
  | refl (m : Manager) : Adds A fn m m
  | step {m m' : Manager} (w : Warning) (text record : Bytes) (h : Adds A fn m m') (ha : A w text) :
    Adds A fn m (m'.addWarning fn w text record)

theorem Adds.trans {A : Warning → Bytes → Prop} {fn : Bytes} {a b c : Manager} (h : Adds A fn a b)
    (h' : Adds A fn b c) : Adds A fn a c := by
  induction h' with
  | refl => exact h
  | step w text record _ ha ih => exact .step w text record ih ha

theorem Adds.warnOnly {A : Warning → Bytes → Prop} {fn : Bytes} {a b : Manager} (h : Adds A fn a b) :
    b.warnOnly = a.warnOnly := by
  induction h with
  | refl => rfl
  | step _ _ _ _ _ ih => exact ih

theorem Adds.mono {A B : Warning → Bytes → Prop} {fn : Bytes} {a b : Manager} (h : Adds A fn a b)
    (hab : ∀ w text, A w text → B w text) : Adds B fn a b := by
  induction h with
  | refl => exact .refl _
  | step w text record _ ha ih => exact .step w text record ih (hab _ _ ha)

/-- The manager expects just the warnings `E`. -/
def Expects (S : Suite F) (E : Warning → Bool) (m : Manager) : Prop := ∀ w, m.hasWarning S.useWarnings w = E w

omit [DecidableEq F] in
theorem Expects.adds {S : Suite F} {E : Warning → Bool} {A : Warning → Bytes → Prop} {fn : Bytes} {a b : Manager}
    (h : Expects S E a) (hab : Adds A fn a b) : Expects S E b := fun w => by
  rw [← h w, Manager.hasWarning, Manager.hasWarning, hab.warnOnly]

/-- A piece of a test records nothing but what `A` allows, never takes back a failure, and ends the
test only with one. -/
structure Keeps (S : Suite F) (E : Warning → Bool) (A : Warning → Bytes → Prop) {α : Type} (t : Run α) : Prop where
  holds : ∀ s, Expects S E s.mgr → Adds A s.test s.mgr (t s).2.mgr ∧ (t s).2.test = s.test ∧ s.fails ≤ (t s).2.fails ∧
    ((t s).1 = none → s.fails < (t s).2.fails)

variable {S : Suite F} {E : Warning → Bool} {A : Warning → Bytes → Prop} {α β : Type}

omit [DecidableEq F] in
theorem Keeps.mono {B : Warning → Bytes → Prop} {t : Run α} (h : Keeps S E A t) (hab : ∀ w text, A w text → B w text) :
    Keeps S E B t := ⟨fun s hs => ⟨(h.holds s hs).1.mono hab, (h.holds s hs).2⟩⟩

omit [DecidableEq F] in
theorem keeps_pure (a : α) : Keeps S E A (pure a : Run α) := ⟨fun s _ =>
  ⟨.refl _, rfl, Nat.le_refl _, by intro h; cases h⟩⟩

theorem bind_some {x : Run α} {f : α → Run β} {s s' : St} {a : α} (h : x s = (some a, s')) :
    (x >>= f) s = f a s' := by
  show Run.bind x f s = _
  simp only [Run.bind, h]

theorem bind_none {x : Run α} {f : α → Run β} {s s' : St} (h : x s = (none, s')) :
    (x >>= f) s = (none, s') := by
  show Run.bind x f s = _
  simp only [Run.bind, h]

omit [DecidableEq F] in
theorem keeps_bind {x : Run α} {f : α → Run β} (hx : Keeps S E A x) (hf : ∀ a, Keeps S E A (f a)) :
    Keeps S E A (x >>= f) := by
  refine ⟨fun s hs => ?_⟩
  obtain ⟨h1, h2, h3, h4⟩ := hx.holds s hs
  rcases h : x s with ⟨o, s'⟩
  rw [h] at h1 h2 h3 h4
  cases o with
  | none => rw [bind_none h]; exact ⟨h1, h2, h3, fun _ => h4 rfl⟩
  | some a =>
    rw [bind_some h]
    obtain ⟨g1, g2, g3, g4⟩ := (hf a).holds s' (hs.adds h1)
    dsimp only at h1 h2 h3
    rw [h2] at g1 g2
    exact ⟨h1.trans g1, g2, Nat.le_trans h3 g3, fun hn => Nat.lt_of_le_of_lt h3 (g4 hn)⟩

omit [DecidableEq F] in
theorem keeps_has {w : Warning} {f : Bool → Run β} (hf : Keeps S E A (f (E w))) :
    Keeps S E A (has S w >>= f) := by
  refine ⟨fun s hs => ?_⟩
  have h : has S w s = (some (E w), s) := by rw [has, hs w]
  rw [bind_some h]
  exact hf.holds s hs

/-- What `HasWarnings` finds. -/
theorem hasLoop_filter (use : Bool) (m : Manager) (found ws : List Warning) :
    hasLoop use m found ws = found ++ ws.filter (m.hasWarning use) := by
  induction ws generalizing found with
  | nil => simp [hasLoop]
  | cons w ws ih =>
    rw [hasLoop, ih]
    by_cases h : m.hasWarning use w = true
    · rw [if_pos h, List.filter_cons_of_pos h, List.append_assoc]; rfl
    · rw [if_neg h, List.filter_cons_of_neg h]

theorem hasWarnings_filter (use : Bool) (m : Manager) (ws : List Warning) :
    m.hasWarnings use ws = ws.filter (m.hasWarning use) := by
  unfold Manager.hasWarnings
  cases use with
  | true => rw [if_pos rfl, hasLoop_filter, List.nil_append]
  | false =>
    rw [if_neg (by decide)]
    symm
    rw [List.filter_eq_nil_iff]
    intro w _
    simp [Manager.hasWarning]

omit [DecidableEq F] in
theorem hasAny_eq {ws : List Warning} {s : St} (hs : Expects S E s.mgr) :
    hasAny S ws s = (some (ws.filter E), s) := by
  rw [hasAny, hasWarnings_filter]
  have : (s.mgr.hasWarning S.useWarnings) = E := funext hs
  rw [this]

omit [DecidableEq F] in
theorem keeps_hasAny {ws : List Warning} {f : List Warning → Run β} (hf : ∀ l, l = ws.filter E → Keeps S E A (f l)) :
    Keeps S E A (hasAny S ws >>= f) := by
  refine ⟨fun s hs => ?_⟩
  rw [bind_some (hasAny_eq hs)]
  exact (hf _ rfl).holds s hs

omit [DecidableEq F] in
theorem keeps_add {w : Warning} {text record : Bytes} (h : A w text) : Keeps S E A (addWarning w text record) :=
  ⟨fun _ _ => ⟨.step w text record (.refl _) h, rfl, Nat.le_refl _, by intro h; cases h⟩⟩

omit [DecidableEq F] in
theorem keeps_unused {w : Warning} {record : Bytes} (h : A unused w.name) : Keeps S E A (addUnused w record) :=
  ⟨fun _ _ => ⟨.step unused w.name record (.refl _) h, rfl, Nat.le_refl _, by intro h; cases h⟩⟩

omit [DecidableEq F] in
theorem keeps_assert (b : Bool) : Keeps S E A (assert b) := by
  refine ⟨fun s _ => ?_⟩
  cases b
  · exact ⟨.refl _, rfl, Nat.le_succ _, by intro h; cases h⟩
  · exact ⟨.refl _, rfl, Nat.le_refl _, by intro h; cases h⟩

omit [DecidableEq F] in
theorem keeps_require (b : Bool) : Keeps S E A (require b) := by
  refine ⟨fun s _ => ?_⟩
  cases b
  · exact ⟨.refl _, rfl, Nat.le_succ _, fun _ => Nat.lt_succ_self _⟩
  · exact ⟨.refl _, rfl, Nat.le_refl _, by intro h; cases h⟩

omit [DecidableEq F] in
theorem keeps_captured : Keeps S E A captured := ⟨fun _ _ =>
  ⟨.refl _, rfl, Nat.le_refl _, by intro h; cases h⟩⟩

omit [DecidableEq F] in
theorem keeps_reset : Keeps S E A bufferReset := ⟨fun _ _ =>
  ⟨.refl _, rfl, Nat.le_refl _, by intro h; cases h⟩⟩

omit [DecidableEq F] in
theorem keeps_tick : Keeps S E A tick := ⟨fun _ _ =>
  ⟨.refl _, rfl, Nat.le_refl _, by intro h; cases h⟩⟩

omit [DecidableEq F] in
theorem keeps_emit (b : Bytes) : Keeps S E A (emit b) := ⟨fun _ _ =>
  ⟨.refl _, rfl, Nat.le_refl _, by intro h; cases h⟩⟩

omit [DecidableEq F] in
theorem keeps_ctx : Keeps S E A (ctx S) := ⟨fun _ _ =>
  ⟨.refl _, rfl, Nat.le_refl _, by intro h; cases h⟩⟩

omit [DecidableEq F] in
theorem keeps_each {f : α → Run Unit} (hf : ∀ a, Keeps S E A (f a)) (l : List α) : Keeps S E A (each f l) := by
  induction l with
  | nil => exact keeps_pure _
  | cons a l ih => exact keeps_bind (hf a) fun _ => ih

/-- A rule for a piece of a test. -/
syntax "keep_rule" : tactic

macro_rules | `(tactic| keep_rule) => `(tactic| with_reducible first
  | assumption
  | exact keeps_pure _
  | exact keeps_assert _
  | exact keeps_require _
  | exact keeps_captured
  | exact keeps_reset
  | exact keeps_tick
  | exact keeps_emit _
  | exact keeps_ctx)

theorem allowed_first {ws : List Warning} {w : Warning} {l : List Warning} (h : w :: l = ws.filter E) : E w = true :=
  (List.mem_filter.mp (h ▸ List.mem_cons_self)).2

theorem allowed_looked {ws : List Warning} {w : Warning} {l : List Warning} (h : w :: l = ws.filter E)
    (hw : ∀ v ∈ ws, v ∈ lookedFor) : w ∈ lookedFor :=
  hw w (List.mem_filter.mp (h ▸ List.mem_cons_self)).1

/-- A warning is looked for. -/
macro "looked" : tactic => `(tactic| first
  | (simp only [lookedFor, List.mem_cons, true_or, or_true]; done)
  | (refine allowed_looked (by assumption) ?_
     intro v hv
     simp only [List.mem_cons, List.not_mem_nil, or_false] at hv
     rcases hv with h | h <;> (rw [h]; simp only [lookedFor, List.mem_cons, true_or, or_true])))

/-- A warning is allowed. -/
macro "allow" : tactic => `(tactic| first
  | exact Allowed.expected (by assumption) (by looked)
  | exact Allowed.unused (by assumption) (by looked)
  | exact Allowed.level (by assumption)
  | exact Allowed.caller (by assumption)
  | exact Allowed.skipping (by assumption)
  | exact Allowed.stray (v := timeSeconds) (by assumption) (by decide)
  | exact Allowed.strayUnused (v := timeSeconds) (by assumption) (by decide)
  | exact Allowed.expected (allowed_first (by assumption)) (by looked)
  | exact Allowed.unused (allowed_first (by assumption)) (by looked))

/-- One step of a proof of `Keeps`: a rule, or a case distinction. -/
macro "keep_step" : tactic => `(tactic| first
  | with_reducible refine keeps_has ?_
  | (with_reducible refine keeps_hasAny ?_; intro _ _)
  | (with_reducible refine keeps_bind ?_ ?_)
  | (with_reducible refine keeps_each ?_ _; intro _)
  | (with_reducible refine keeps_add ?_; allow)
  | (with_reducible refine keeps_unused ?_; allow)
  | keep_rule
  | intro _
  | split)

/-- All steps. -/
macro "keeps" : tactic => `(tactic| ((try dsimp only); repeat' keep_step))

omit [DecidableEq F] in
theorem keeps_enabled (l : Logger) (level : Int) : Keeps S E A (enabled S l level) := by
  unfold enabled; keeps
macro_rules | `(tactic| keep_rule) => `(tactic| with_reducible exact keeps_enabled _ _)

omit [DecidableEq F] in
theorem keeps_log (l : Logger) (c : Bool) (level : Int) (as : List Attr) : Keeps S E A (log S l c level as) := by
  unfold log; keeps
macro_rules | `(tactic| keep_rule) => `(tactic| with_reducible exact keeps_log _ _ _ _)

omit [DecidableEq F] in
theorem keeps_info (l : Logger) (as : List Attr) : Keeps S E A (info S l as) := by
  unfold info; keeps
macro_rules | `(tactic| keep_rule) => `(tactic| with_reducible exact keeps_info _ _)

omit [DecidableEq F] in
theorem keeps_now : Keeps S E A (now S) := by
  unfold now; keeps
macro_rules | `(tactic| keep_rule) => `(tactic| with_reducible exact keeps_now )

theorem keeps_field (m : AMap F) (k : Bytes) (x : Any F) : Keeps S E A (assertField m k x) := by
  unfold assertField; keeps
macro_rules | `(tactic| keep_rule) => `(tactic| with_reducible exact keeps_field _ _ _)

omit [DecidableEq F] in
theorem keeps_counted : Keeps S E A (counted S) := by
  unfold counted; keeps
macro_rules | `(tactic| keep_rule) => `(tactic| with_reducible exact keeps_counted )

omit [DecidableEq F] in
theorem keeps_logMap : Keeps S E A (logMap S) := by
  unfold logMap; keeps
macro_rules | `(tactic| keep_rule) => `(tactic| with_reducible exact keeps_logMap )

omit [DecidableEq F] in
theorem keeps_skip : Keeps S E (Allowed E) (skipTest S skipDedup) := by
  unfold skipTest; keeps
macro_rules | `(tactic| keep_rule) => `(tactic| with_reducible exact keeps_skip )

omit [DecidableEq F] in
theorem keeps_exactFields (n : Nat) (m : AMap F) : Keeps S E A (exactFields S n m) := by
  unfold exactFields; keeps
macro_rules | `(tactic| keep_rule) => `(tactic| with_reducible exact keeps_exactFields _ _)

omit [DecidableEq F] in
theorem keeps_checkFieldCount (n : Nat) (m : AMap F) : Keeps S E (Allowed E) (checkFieldCount S n m) := by
  unfold checkFieldCount; keeps
macro_rules | `(tactic| keep_rule) => `(tactic| with_reducible exact keeps_checkFieldCount _ _)

theorem keeps_checkLevelKey (l : Bytes) (m : AMap F) : Keeps S E (Allowed E) (checkLevelKey S l m) := by
  unfold checkLevelKey; keeps
macro_rules | `(tactic| keep_rule) => `(tactic| with_reducible exact keeps_checkLevelKey _ _)

omit [DecidableEq F] in
theorem keeps_checkLevelMath (l : Logger) (level : Int) (b : Bool) (t : Bytes) : Keeps S E (Allowed E) (checkLevelMath S l level b t) := by
  unfold checkLevelMath; keeps
macro_rules | `(tactic| keep_rule) => `(tactic| with_reducible exact keeps_checkLevelMath _ _ _ _)

theorem keeps_checkMessageKey (l : Bytes) (m : AMap F) : Keeps S E (Allowed E) (checkMessageKey S l m) := by
  unfold checkMessageKey; keeps
macro_rules | `(tactic| keep_rule) => `(tactic| with_reducible exact keeps_checkMessageKey _ _)

omit [DecidableEq F] in
theorem keeps_noBlankField (n : Nat) (m : AMap F) : Keeps S E (Allowed E) (noBlankField S n m) := by
  unfold noBlankField; keeps
macro_rules | `(tactic| keep_rule) => `(tactic| with_reducible exact keeps_noBlankField _ _)

omit [DecidableEq F] in
theorem keeps_checkNoEmptyAttribute (n : Nat) (m : AMap F) : Keeps S E (Allowed E) (checkNoEmptyAttribute S n m) := by
  unfold checkNoEmptyAttribute; keeps
macro_rules | `(tactic| keep_rule) => `(tactic| with_reducible exact keeps_checkNoEmptyAttribute _ _)

theorem keeps_checkResolution (v : Bytes) (a : Any F) : Keeps S E (Allowed E) (checkResolution S v a) := by
  unfold checkResolution; keeps
macro_rules | `(tactic| keep_rule) => `(tactic| with_reducible exact keeps_checkResolution _ _)

omit [DecidableEq F] in
theorem keeps_exactSource (n : Nat) (m : AMap F) : Keeps S E (Allowed E) (exactSource S n m) := by
  unfold exactSource; keeps
macro_rules | `(tactic| keep_rule) => `(tactic| with_reducible exact keeps_exactSource _ _)

omit [DecidableEq F] in
theorem keeps_sourceKeyPart (n : Nat) (m : AMap F) : Keeps S E (Allowed E) (sourceKeyPart S n m) := by
  unfold sourceKeyPart; keeps
macro_rules | `(tactic| keep_rule) => `(tactic| with_reducible exact keeps_sourceKeyPart _ _)

omit [DecidableEq F] in
theorem keeps_checkSourceKey (n : Nat) (m : AMap F) : Keeps S E (Allowed E) (checkSourceKey S n m) := by
  unfold checkSourceKey; keeps
macro_rules | `(tactic| keep_rule) => `(tactic| with_reducible exact keeps_checkSourceKey _ _)

omit [DecidableEq F] in
theorem keeps_parseTime (a : Any F) : Keeps S E A (parseTime S a) := by
  unfold parseTime; keeps
macro_rules | `(tactic| keep_rule) => `(tactic| with_reducible exact keeps_parseTime _)

theorem keeps_checkFirst (m : AMap F) : Keeps S E A (checkFirst m) := by
  unfold checkFirst; keeps
macro_rules | `(tactic| keep_rule) => `(tactic| with_reducible exact keeps_checkFirst _)

theorem keeps_checkSecond (m : AMap F) : Keeps S E A (checkSecond S m) := by
  unfold checkSecond; keeps
macro_rules | `(tactic| keep_rule) => `(tactic| with_reducible exact keeps_checkSecond _)

theorem keeps_checkPi (m : AMap F) : Keeps S E A (checkPi S m) := by
  unfold checkPi; keeps
macro_rules | `(tactic| keep_rule) => `(tactic| with_reducible exact keeps_checkPi _)

theorem keeps_checkThree (m : AMap F) : Keeps S E A (checkThree S m) := by
  unfold checkThree; keeps
macro_rules | `(tactic| keep_rule) => `(tactic| with_reducible exact keeps_checkThree _)

theorem keeps_checkInline (m : AMap F) : Keeps S E (Allowed E) (checkInline S m) := by
  unfold checkInline; keeps
macro_rules | `(tactic| keep_rule) => `(tactic| with_reducible exact keeps_checkInline _)

theorem keeps_checkBasics (m : AMap F) : Keeps S E (Allowed E) (checkBasics S m) := by
  unfold checkBasics; keeps
macro_rules | `(tactic| keep_rule) => `(tactic| with_reducible exact keeps_checkBasics _)

theorem keeps_checkResolved : Keeps S E (Allowed E) (checkResolved S) := by
  unfold checkResolved; keeps
macro_rules | `(tactic| keep_rule) => `(tactic| with_reducible exact keeps_checkResolved )

omit [DecidableEq F] in
theorem keeps_handleRecord (l : Logger) (r : Record) : Keeps S E A (handleRecord S l r) := by
  unfold handleRecord; keeps
macro_rules | `(tactic| keep_rule) => `(tactic| with_reducible exact keeps_handleRecord _ _)

omit [DecidableEq F] in
theorem keeps_noTime (m : AMap F) : Keeps S E (Allowed E) (noTime S m) := by
  unfold noTime; keeps
macro_rules | `(tactic| keep_rule) => `(tactic| with_reducible exact keeps_noTime _)

theorem keeps_checkEmptyName : Keeps S E (Allowed E) (checkEmptyName S) := by
  unfold checkEmptyName emptyNameWarning; keeps
macro_rules | `(tactic| keep_rule) => `(tactic| with_reducible exact keeps_checkEmptyName )

theorem keeps_checkNil : Keeps S E (Allowed E) (checkNil S) := by
  unfold checkNil; keeps
macro_rules | `(tactic| keep_rule) => `(tactic| with_reducible exact keeps_checkNil )

omit [DecidableEq F] in
theorem keeps_checkDuplicates : Keeps S E (Allowed E) (checkDuplicates S) := by
  unfold checkDuplicates; keeps
macro_rules | `(tactic| keep_rule) => `(tactic| with_reducible exact keeps_checkDuplicates )

theorem keeps_checkPlain : Keeps S E (Allowed E) (checkPlain S) := by
  unfold checkPlain; keeps
macro_rules | `(tactic| keep_rule) => `(tactic| with_reducible exact keeps_checkPlain )

omit [DecidableEq F] in
theorem keeps_assertEnabled (l : Logger) (level : Int) (b : Bool) : Keeps S E A (assertEnabled S l level b) := by
  unfold assertEnabled; keeps
macro_rules | `(tactic| keep_rule) => `(tactic| with_reducible exact keeps_assertEnabled _ _ _)

omit [DecidableEq F] in
theorem keeps_defaultLevels (l : Logger) : Keeps S E (Allowed E) (defaultLevels S l) := by
  unfold defaultLevels; keeps
macro_rules | `(tactic| keep_rule) => `(tactic| with_reducible exact keeps_defaultLevels _)

omit [DecidableEq F] in
theorem keeps_checkWhen (t : Nat) (w : Bytes) : Keeps S E (Allowed E) (checkWhen S t w) := by
  unfold checkWhen; keeps
macro_rules | `(tactic| keep_rule) => `(tactic| with_reducible exact keeps_checkWhen _ _)

theorem keeps_checkHowLong (a : Any F) : Keeps S E (Allowed E) (checkHowLong S a) := by
  unfold checkHowLong; keeps
macro_rules | `(tactic| keep_rule) => `(tactic| with_reducible exact keeps_checkHowLong _)

omit [DecidableEq F] in
theorem keeps_checkOuter (a : Any F) : Keeps S E (Allowed E) (checkOuter S a) := by
  unfold checkOuter; keeps
macro_rules | `(tactic| keep_rule) => `(tactic| with_reducible exact keeps_checkOuter _)

theorem keeps_checkInner (a b : Any F) : Keeps S E (Allowed E) (checkInner S a b) := by
  unfold checkInner; keeps
macro_rules | `(tactic| keep_rule) => `(tactic| with_reducible exact keeps_checkInner _ _)

omit [DecidableEq F] in
theorem keeps_replCount (m : AMap F) : Keeps S E (Allowed E) (replCount S m) := by
  unfold replCount; keeps
macro_rules | `(tactic| keep_rule) => `(tactic| with_reducible exact keeps_replCount _)

theorem keeps_checkBasicRepl (m : AMap F) : Keeps S E (Allowed E) (checkBasicRepl S m) := by
  unfold checkBasicRepl; keeps
macro_rules | `(tactic| keep_rule) => `(tactic| with_reducible exact keeps_checkBasicRepl _)

omit [DecidableEq F] in
theorem keeps_checkNoBlank (m : AMap F) : Keeps S E (Allowed E) (checkNoBlank S m) := by
  unfold checkNoBlank; keeps
macro_rules | `(tactic| keep_rule) => `(tactic| with_reducible exact keeps_checkNoBlank _)

omit [DecidableEq F] in
theorem keeps_checkTimeGone (m : AMap F) : Keeps S E (Allowed E) (checkTimeGone S m) := by
  unfold checkTimeGone; keeps
macro_rules | `(tactic| keep_rule) => `(tactic| with_reducible exact keeps_checkTimeGone _)

omit [DecidableEq F] in
theorem keeps_least (l : Logger) (ns : List Bytes) (level : Int) (name : Bytes) :
    Keeps S E A (leastEnabled S l ns level name) := by
  induction ns generalizing level name with
  | nil => exact keeps_pure _
  | cons n ns ih =>
    unfold leastEnabled
    refine keeps_bind (keeps_enabled _ _) fun e => ?_
    split
    · exact ih _ _
    · exact ih _ _
macro_rules | `(tactic| keep_rule) => `(tactic| with_reducible exact keeps_least _ _ _ _)

theorem keeps_testAnyMap : Keeps S E (Allowed E) (testAnyMap S) := by
  unfold testAnyMap; keeps

omit [DecidableEq F] in
theorem keeps_testAttributeDuplicate : Keeps S E (Allowed E) (testAttributeDuplicate S) := by
  unfold testAttributeDuplicate; keeps

theorem keeps_testAttributeEmptyName : Keeps S E (Allowed E) (testAttributeEmptyName S) := by
  unfold testAttributeEmptyName; keeps

theorem keeps_testAttributeNil : Keeps S E (Allowed E) (testAttributeNil S) := by
  unfold testAttributeNil; keeps

omit [DecidableEq F] in
theorem keeps_testAttributeWithDuplicate : Keeps S E (Allowed E) (testAttributeWithDuplicate S) := by
  unfold testAttributeWithDuplicate; keeps

theorem keeps_testAttributeWithEmpty : Keeps S E (Allowed E) (testAttributeWithEmpty S) := by
  unfold testAttributeWithEmpty; keeps

theorem keeps_testAttributeWithEmptyName : Keeps S E (Allowed E) (testAttributeWithEmptyName S) := by
  unfold testAttributeWithEmptyName; keeps

theorem keeps_testAttributeWithNil : Keeps S E (Allowed E) (testAttributeWithNil S) := by
  unfold testAttributeWithNil; keeps

theorem keeps_testAttributes : Keeps S E (Allowed E) (testAttributes S) := by
  unfold testAttributes; keeps

theorem keeps_testAttributesEmpty : Keeps S E (Allowed E) (testAttributesEmpty S) := by
  unfold testAttributesEmpty; keeps

theorem keeps_testAttributesNotEmpty : Keeps S E (Allowed E) (testAttributesNotEmpty S) := by
  unfold testAttributesNotEmpty emptyNameWarning; keeps

theorem keeps_testAttributesWith : Keeps S E (Allowed E) (testAttributesWith S) := by
  unfold testAttributesWith; keeps

theorem keeps_testAttributesWithEmpty : Keeps S E (Allowed E) (testAttributesWithEmpty S) := by
  unfold testAttributesWithEmpty; keeps

theorem keeps_testAttributesWithNotEmpty : Keeps S E (Allowed E) (testAttributesWithNotEmpty S) := by
  unfold testAttributesWithNotEmpty emptyNameWarning; keeps

theorem keeps_testCanceledContext : Keeps S E (Allowed E) (testCanceledContext S) := by
  unfold testCanceledContext; keeps

omit [DecidableEq F] in
theorem keeps_testDefaultLevel : Keeps S E (Allowed E) (testDefaultLevel S) := by
  unfold testDefaultLevel; keeps

theorem keeps_testDerivedInvariantWith : Keeps S E (Allowed E) (testDerivedInvariantWith S) := by
  unfold testDerivedInvariantWith; keeps

theorem keeps_testDerivedInvariantWithGroup : Keeps S E (Allowed E) (testDerivedInvariantWithGroup S) := by
  unfold testDerivedInvariantWithGroup; keeps

omit [DecidableEq F] in
theorem keeps_testDisabled : Keeps S E (Allowed E) (testDisabled S) := by
  unfold testDisabled; keeps

theorem keeps_testGroup : Keeps S E (Allowed E) (testGroup S) := by
  unfold testGroup; keeps

theorem keeps_testGroupDuration : Keeps S E (Allowed E) (testGroupDuration S) := by
  unfold testGroupDuration; keeps

omit [DecidableEq F] in
theorem keeps_testGroupEmpty : Keeps S E (Allowed E) (testGroupEmpty S) := by
  unfold testGroupEmpty emptyGroupWarning; keeps

theorem keeps_testGroupInline : Keeps S E (Allowed E) (testGroupInline S) := by
  unfold testGroupInline; keeps

theorem keeps_testGroupWith : Keeps S E (Allowed E) (testGroupWith S) := by
  unfold testGroupWith; keeps

theorem keeps_testGroupWithMulti : Keeps S E (Allowed E) (testGroupWithMulti S) := by
  unfold testGroupWithMulti; keeps

theorem keeps_testGroupWithTop : Keeps S E (Allowed E) (testGroupWithTop S) := by
  unfold testGroupWithTop; keeps

theorem keeps_testKeyCase : Keeps S E (Allowed E) (testKeyCase S) := by
  unfold testKeyCase; keeps

theorem keeps_testKeys : Keeps S E (Allowed E) (testKeys S) := by
  unfold testKeys; keeps

omit [DecidableEq F] in
theorem keeps_testLevelConfigured : Keeps S E (Allowed E) (testLevelConfigured S) := by
  unfold testLevelConfigured; keeps

omit [DecidableEq F] in
theorem keeps_testLevelDifferent : Keeps S E (Allowed E) (testLevelDifferent S) := by
  unfold testLevelDifferent; keeps

omit [DecidableEq F] in
theorem keeps_testLevelVar : Keeps S E (Allowed E) (testLevelVar S) := by
  unfold testLevelVar; keeps

theorem keeps_testLogAttributes : Keeps S E (Allowed E) (testLogAttributes S) := by
  unfold testLogAttributes; keeps

theorem keeps_testReplaceAttr : Keeps S E (Allowed E) (testReplaceAttr S) := by
  unfold testReplaceAttr report; keeps

theorem keeps_testReplaceAttrBasic : Keeps S E (Allowed E) (testReplaceAttrBasic S) := by
  unfold testReplaceAttrBasic report; keeps

omit [DecidableEq F] in
theorem keeps_testReplaceAttrFnChangeKey : Keeps S E (Allowed E) (testReplaceAttrFnChangeKey S) := by
  unfold testReplaceAttrFnChangeKey report; keeps

omit [DecidableEq F] in
theorem keeps_testReplaceAttrFnLevelCase : Keeps S E (Allowed E) (testReplaceAttrFnLevelCase S) := by
  unfold testReplaceAttrFnLevelCase report; keeps

theorem keeps_testReplaceAttrFnMulti : Keeps S E (Allowed E) (testReplaceAttrFnMulti S) := by
  unfold testReplaceAttrFnMulti; keeps

theorem keeps_testReplaceAttrFnRemoveEmptyKey : Keeps S E (Allowed E) (testReplaceAttrFnRemoveEmptyKey S) := by
  unfold testReplaceAttrFnRemoveEmptyKey report; keeps

omit [DecidableEq F] in
theorem keeps_testReplaceAttrFnRemoveTime : Keeps S E (Allowed E) (testReplaceAttrFnRemoveTime S) := by
  unfold testReplaceAttrFnRemoveTime report; keeps

theorem keeps_testReplaceAttrGroup : Keeps S E (Allowed E) (testReplaceAttrGroup S) := by
  unfold testReplaceAttrGroup; keeps

theorem keeps_testResolveGroup : Keeps S E (Allowed E) (testResolveGroup S) := by
  unfold testResolveGroup; keeps

theorem keeps_testResolveGroupWith : Keeps S E (Allowed E) (testResolveGroupWith S) := by
  unfold testResolveGroupWith; keeps

theorem keeps_testResolveValuer : Keeps S E (Allowed E) (testResolveValuer S) := by
  unfold testResolveValuer; keeps

theorem keeps_testResolveWith : Keeps S E (Allowed E) (testResolveWith S) := by
  unfold testResolveWith; keeps

theorem keeps_testSourceKey : Keeps S E (Allowed E) (testSourceKey S) := by
  unfold testSourceKey; keeps

theorem keeps_testStringEscape : Keeps S E (Allowed E) (testStringEscape S) := by
  unfold testStringEscape; keeps

omit [DecidableEq F] in
theorem keeps_testTimestampFormat : Keeps S E (Allowed E) (testTimestampFormat S) := by
  unfold testTimestampFormat; keeps

omit [DecidableEq F] in
theorem keeps_testWithGroupEmpty : Keeps S E (Allowed E) (testWithGroupEmpty S) := by
  unfold testWithGroupEmpty emptyGroupWarning; keeps

theorem keeps_testWithGroupInline : Keeps S E (Allowed E) (testWithGroupInline S) := by
  unfold testWithGroupInline; keeps

theorem keeps_testZeroPC : Keeps S E (Allowed E) (testZeroPC S) := by
  unfold testZeroPC; keeps

theorem keeps_testZeroTime : Keeps S E (Allowed E) (testZeroTime S) := by
  unfold testZeroTime; keeps

theorem keeps_testGroupWithMultiSubEmpty : Keeps S E (Allowed E) (testGroupWithMultiSubEmpty S) := by
  have hw : (E withGroup = true ∨ E groupEmpty = true) → ∀ text, Allowed E withGroup text := by
    rintro (h | h) text
    · allow
    · exact .stray h (by simp [strays])
  have hg : (E withGroup = true ∨ E groupEmpty = true) → ∀ text, Allowed E groupEmpty text := by
    rintro (h | h) text
    · exact .stray h (by simp [strays])
    · allow
  have uw : (E withGroup = true ∨ E groupEmpty = true) → Allowed E unused withGroup.name := by
    rintro (h | h)
    · allow
    · exact .strayUnused h (by simp [strays])
  have ug : (E withGroup = true ∨ E groupEmpty = true) → Allowed E unused groupEmpty.name := by
    rintro (h | h)
    · exact .strayUnused h (by simp [strays])
    · allow
  unfold testGroupWithMultiSubEmpty
  refine keeps_bind (keeps_info _ _) fun _ => keeps_bind keeps_logMap fun m => ?_
  dsimp only
  refine keeps_has (keeps_has ?_)
  split
  · keeps
  · rename_i h
    have h : E withGroup = true ∨ E groupEmpty = true := by
      clear hw hg uw ug
      revert h
      cases E withGroup <;> cases E groupEmpty <;> simp
    split
    · exact keeps_bind (keeps_unused (uw h)) fun _ => keeps_unused (ug h)
    · refine keeps_bind keeps_captured fun _ => keeps_add ?_
      unfold subEmptyIssue
      split
      · exact hw h _
      · split
        · exact hw h _
        · split
          · exact hg h _
          · exact hw h _

/-! ### `TestComplexCases` -/

theorem adds_nothing {fn : Bytes} {a b : Manager} (h : Adds (fun _ _ => False) fn a b) : b = a := by
  induction h with
  | refl => rfl
  | step _ _ _ _ ha => exact ha.elim

theorem keeps_round (p : Bytes) : Keeps S E A (complexRound S p) := by
  unfold complexRound
  keeps

theorem keeps_loop (ps : List Bytes) : Keeps S E A (complexLoop S ps) := by
  induction ps with
  | nil => exact keeps_pure _
  | cons p ps ih =>
    unfold complexLoop
    exact keeps_bind (keeps_round p) fun _ => keeps_bind ih fun _ => keeps_pure _

/-- What comes after a failure-free start. -/
theorem run_bind {x : Run α} {f : α → Run β} {s s' : St} {b : β} (h : (x >>= f) s = (some b, s')) :
    ∃ a s1, x s = (some a, s1) ∧ f a s1 = (some b, s') := by
  rcases hx : x s with ⟨o, s1⟩
  cases o with
  | none => rw [bind_none hx] at h; cases h
  | some a => rw [bind_some hx] at h; exact ⟨a, s1, rfl, h⟩

/-- A mismatch is expected, or a failure. -/
theorem round_bad {p : Bytes} {s s' : St} (hs : Expects S E s.mgr) (h : complexRound S p s = (some true, s')) :
    E mismatch = true ∨ s.fails < s'.fails := by
  unfold complexRound at h
  obtain ⟨_, s1, h1, h⟩ := run_bind h
  obtain ⟨C, s2, h2, h⟩ := run_bind h
  obtain ⟨_, s3, h3, h⟩ := run_bind h
  obtain ⟨_, s4, h4, h⟩ := run_bind h
  obtain ⟨actual, s5, h5, h⟩ := run_bind h
  have k1 := (keeps_reset (S := S) (E := E) (A := fun _ _ => False)).holds s hs
  rw [h1] at k1
  have k2 := (keeps_ctx (S := S) (E := E) (A := fun _ _ => False)).holds s1 (hs.adds k1.1)
  rw [h2] at k2
  have k3 := (keeps_each (S := S) (E := E) (A := fun _ _ => False)
    (fun e : List Op × List Attr => keeps_info ⟨simple, e.1⟩ e.2) (runProgram C p).1.logged).holds s2 ((hs.adds k1.1).adds k2.1)
  rw [h3] at k3
  have k4 := (keeps_assert (S := S) (E := E) (A := fun _ _ => False) (!(runProgram C p).2)).holds s3 (((hs.adds k1.1).adds k2.1).adds k3.1)
  rw [h4] at k4
  have k5 := (keeps_logMap (S := S) (E := E) (A := fun _ _ => False)).holds s4
    ((((hs.adds k1.1).adds k2.1).adds k3.1).adds k4.1)
  rw [h5] at k5
  have hs5 := (((((hs.adds k1.1).adds k2.1).adds k3.1).adds k4.1).adds k5.1)
  have hle : s.fails ≤ s5.fails :=
    Nat.le_trans k1.2.2.1 (Nat.le_trans k2.2.2.1 (Nat.le_trans k3.2.2.1 (Nat.le_trans k4.2.2.1 k5.2.2.1)))
  dsimp only at h
  have hh : has S mismatch s5 = (some (E mismatch), s5) := by rw [has, hs5 mismatch]
  rw [bind_some hh] at h
  cases he : E mismatch with
  | true => exact .inl rfl
  | false =>
    rw [he, if_neg (by decide)] at h
    obtain ⟨_, s6, h6, h⟩ := run_bind h
    have e : (some (!deepEqual (Any.map (Parser.expected C (runProgram C p).1)) (Any.map (fixActual C actual))), s6) =
        (some true, s') := h
    have hb := Option.some.inj (Prod.mk.inj e).1
    have hb : deepEqual (Any.map (Parser.expected C (runProgram C p).1)) (Any.map (fixActual C actual)) = false := by
      simpa using hb
    rw [hb] at h6
    have e6 : (some (), { s5 with fails := s5.fails + 1 }) = (some (), s6) := h6
    have := (Prod.mk.inj e6).2
    right
    rw [← (Prod.mk.inj e).2, ← this]
    exact Nat.lt_succ_of_le hle

theorem loop_bad {ps : List Bytes} {s s' : St} {l : List Bytes} (hs : Expects S E s.mgr)
    (h : complexLoop S ps s = (some l, s')) (hl : l ≠ []) : E mismatch = true ∨ s.fails < s'.fails := by
  induction ps generalizing s l with
  | nil =>
    have e : (some ([] : List Bytes), s) = (some l, s') := h
    exact absurd (Option.some.inj (Prod.mk.inj e).1).symm hl
  | cons p ps ih =>
    unfold complexLoop at h
    obtain ⟨bad, s1, h1, h⟩ := run_bind h
    obtain ⟨rest, s2, h2, h⟩ := run_bind h
    have k1 := (keeps_round (S := S) (E := E) (A := fun _ _ => False) p).holds s hs
    rw [h1] at k1
    have hs1 := hs.adds k1.1
    have k2 := (keeps_loop (S := S) (E := E) (A := fun _ _ => False) ps).holds s1 hs1
    rw [h2] at k2
    have e : (some (if bad = true then p :: rest else rest), s2) = (some l, s') := h
    have e1 := Option.some.inj (Prod.mk.inj e).1
    have e2 := (Prod.mk.inj e).2
    subst e2
    cases bad with
    | true => exact (round_bad hs h1).imp id fun h => Nat.lt_of_lt_of_le h k2.2.2.1
    | false =>
      rw [if_neg (by decide)] at e1
      subst e1
      exact (ih hs1 h2 hl).imp id fun h => Nat.lt_of_le_of_lt k1.2.2.1 h

/-- `TestComplexCases` records what is allowed; or, the mismatch not being expected, it fails and
records one mismatch and nothing else. -/
theorem complex_keeps (s : St) (hs : Expects S E s.mgr) :
    (testComplexCases S s).2.test = s.test ∧ s.fails ≤ (testComplexCases S s).2.fails ∧
      ((testComplexCases S s).1 = none → s.fails < (testComplexCases S s).2.fails) ∧
      (Adds (fun w text => Allowed E w text ∨ w = mismatch ∧ E mismatch = true) s.test s.mgr (testComplexCases S s).2.mgr ∨
        (s.fails < (testComplexCases S s).2.fails ∧
          ∃ text record, (testComplexCases S s).2.mgr = s.mgr.addWarning s.test mismatch text record)) := by
  unfold testComplexCases
  have ks := (keeps_skip (S := S) (E := E)).holds s hs
  rcases h1 : skipTest S skipDedup s with ⟨o, s1⟩
  rw [h1] at ks
  cases o with
  | none =>
    rw [bind_none h1]
    exact ⟨ks.2.1, ks.2.2.1, fun _ => ks.2.2.2 rfl, .inl (ks.1.mono fun _ _ h => .inl h)⟩
  | some b =>
    rw [bind_some h1]
    cases b with
    | true => exact ⟨ks.2.1, ks.2.2.1, (by intro h; cases h), .inl (ks.1.mono fun _ _ h => .inl h)⟩
    | false =>
      have hsame : s1 = s := by
        have hk : skipTest S skipDedup s = (some false, s1) := h1
        unfold skipTest at hk
        have hh : has S skipDedup s = (some (E skipDedup), s) := by rw [has, hs skipDedup]
        rw [bind_some hh] at hk
        cases he : E skipDedup with
        | true =>
          rw [he] at hk
          have e : (some true, _) = (some false, s1) := hk
          cases (Prod.mk.inj e).1
        | false =>
          rw [he] at hk
          have e : (some false, s) = (some false, s1) := hk
          exact ((Prod.mk.inj e).2).symm
      subst hsame
      rw [if_neg (by decide)]
      have kl := (keeps_loop (S := S) (E := E) (A := fun _ _ => False) programs).holds s1 hs
      rcases h2 : complexLoop S programs s1 with ⟨o, s2⟩
      rw [h2] at kl
      have hm : s2.mgr = s1.mgr := adds_nothing kl.1
      cases o with
      | none =>
        rw [bind_none h2]
        exact ⟨kl.2.1, kl.2.2.1, fun _ => kl.2.2.2 rfl, .inl (hm ▸ .refl _)⟩
      | some l =>
        rw [bind_some h2]
        by_cases hl : l = []
        · subst hl
          rw [if_neg (by decide)]
          refine ⟨kl.2.1, kl.2.2.1, (by intro h; cases h), .inl ?_⟩
          show Adds _ s1.test s1.mgr s2.mgr
          exact hm ▸ .refl _
        · rw [if_pos (List.length_pos_iff.mpr hl)]
          have e : (captured >>= fun b => addWarning mismatch (S.showMismatches l) b) s2 =
              (some (), { s2 with mgr := s2.mgr.addWarning s2.test mismatch (S.showMismatches l) s2.buffer }) := rfl
          rw [e]
          have ht : s2.test = s1.test := kl.2.1
          refine ⟨ht, kl.2.2.1, (by intro h; cases h), ?_⟩
          dsimp only
          rw [hm, ht]
          rcases loop_bad hs h2 hl with h | h
          · exact .inl (.step _ _ _ (.refl _) (.inr ⟨rfl, h⟩))
          · exact .inr ⟨h, _, _, rfl⟩

end Verif.Verify
