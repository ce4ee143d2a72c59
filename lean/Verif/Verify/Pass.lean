import Verif.Verify.Line
import Verif.Verify.ReplTests
import Verif.Verify.Keeps
import Verif.Verify.ComplexMap

/-
Rules to show that a piece of a test finds nothing wrong: no assertion fails and the warning
manager stays as it is.
-/

namespace Verif.Verify
open Go Warning Slog Bench Json LogTree Flash

variable {F : Type} [DecidableEq F]

/-- Nothing is expected but duplicates. -/
def OnlyDuplicates (E : Warning → Bool) : Prop := ∀ w, w.name ≠ duplicates.name → E w = false

/-- With the buffer `b` a piece of a test finds nothing wrong; the value it gives and the buffer
afterwards are as `Q` says. -/
def Pass (S : Suite F) (E : Warning → Bool) (b : Bytes) {α : Type} (x : Run α) (Q : α → Bytes → Prop) : Prop :=
  ∀ s, Expects S E s.mgr → s.buffer = b →
    ∃ a s', x s = (some a, s') ∧ s'.mgr = s.mgr ∧ s'.fails = s.fails ∧ s'.test = s.test ∧ Q a s'.buffer

/-- It gives `a` and leaves the buffer. -/
def Still (S : Suite F) (E : Warning → Bool) (b : Bytes) {α : Type} (x : Run α) (a : α) : Prop :=
  Pass S E b x fun a' b' => a' = a ∧ b' = b

variable {S : Suite F} {E : Warning → Bool} {α β : Type} {b : Bytes}

omit [DecidableEq F] in
theorem pass_bind {x : Run α} {f : α → Run β} {Q : α → Bytes → Prop} {R : β → Bytes → Prop} (hx : Pass S E b x Q)
    (hf : ∀ a b', Q a b' → Pass S E b' (f a) R) : Pass S E b (x >>= f) R := by
  intro s hs hb
  obtain ⟨a, s', h1, h2, h3, h4, h5⟩ := hx s hs hb
  obtain ⟨c, s2, g1, g2, g3, g4, g5⟩ := hf a s'.buffer h5 s' (by rw [h2]; exact hs) rfl
  exact ⟨c, s2, by rw [bind_some h1, g1], by rw [g2, h2], by rw [g3, h3], by rw [g4, h4], g5⟩

omit [DecidableEq F] in
theorem still_bind {x : Run α} {a : α} {f : α → Run β} {R : β → Bytes → Prop} (hx : Still S E b x a)
    (hf : Pass S E b (f a) R) : Pass S E b (x >>= f) R := by
  refine pass_bind hx ?_
  rintro a' b' ⟨rfl, rfl⟩
  exact hf

omit [DecidableEq F] in
theorem Pass.mono {x : Run α} {Q R : α → Bytes → Prop} (h : Pass S E b x Q) (hq : ∀ a b', Q a b' → R a b') :
    Pass S E b x R := by
  intro s hs hb
  obtain ⟨a, s', h1, h2, h3, h4, h5⟩ := h s hs hb
  exact ⟨a, s', h1, h2, h3, h4, hq _ _ h5⟩

omit [DecidableEq F] in
theorem Still.done {x : Run α} {a : α} (h : Still S E b x a) : Pass S E b x fun _ _ => True := h.mono fun _ _ _ => trivial

omit [DecidableEq F] in
theorem pass_pure (a : α) {Q : α → Bytes → Prop} (h : Q a b) : Pass S E b (pure a : Run α) Q :=
  fun s _ hb => ⟨a, s, rfl, rfl, rfl, rfl, by rw [hb]; exact h⟩

omit [DecidableEq F] in
theorem still_pure (a : α) : Still S E b (pure a : Run α) a := pass_pure a ⟨rfl, rfl⟩

omit [DecidableEq F] in
theorem still_assert {c : Bool} (h : c = true) : Still S E b (assert c) () :=
  fun s _ hb => ⟨(), s, by rw [assert, h]; rfl, rfl, rfl, rfl, rfl, hb⟩

omit [DecidableEq F] in
theorem still_require {c : Bool} (h : c = true) : Still S E b (require c) () :=
  fun s _ hb => ⟨(), s, by rw [require, h]; rfl, rfl, rfl, rfl, rfl, hb⟩

omit [DecidableEq F] in
theorem still_has (w : Warning) : Still S E b (has S w) (E w) :=
  fun s hs hb => ⟨E w, s, by rw [has, hs w], rfl, rfl, rfl, rfl, hb⟩

omit [DecidableEq F] in
theorem still_captured : Still S E b captured b :=
  fun s _ hb => ⟨b, s, by rw [captured, hb], rfl, rfl, rfl, rfl, hb⟩

omit [DecidableEq F] in
theorem pass_reset : Pass S E b bufferReset fun _ b' => b' = [] :=
  fun _ _ _ => ⟨(), _, rfl, rfl, rfl, rfl, rfl⟩

omit [DecidableEq F] in
theorem reset_bind {f : Unit → Run β} {R : β → Bytes → Prop} (hf : Pass S E [] (f ()) R) :
    Pass S E b (bufferReset >>= f) R := by
  refine pass_bind pass_reset ?_
  rintro _ _ rfl
  exact hf

omit [DecidableEq F] in
/-- A warning that is not expected. -/
theorem has_bind (hE : OnlyDuplicates E) {w : Warning} (hw : w.name ≠ duplicates.name) {f : Bool → Run β}
    {R : β → Bytes → Prop} (hf : Pass S E b (f false) R) : Pass S E b (has S w >>= f) R := by
  refine still_bind (still_has w) ?_
  rw [hE w hw]
  exact hf

omit [DecidableEq F] in
theorem hasAny_bind (hE : OnlyDuplicates E) {ws : List Warning} (hw : ∀ w ∈ ws, w.name ≠ duplicates.name)
    {f : List Warning → Run β} {R : β → Bytes → Prop} (hf : Pass S E b (f []) R) : Pass S E b (hasAny S ws >>= f) R := by
  have : ws.filter E = [] := by
    rw [List.filter_eq_nil_iff]
    intro w h
    rw [hE w (hw w h)]
    decide
  refine still_bind (a := []) (fun s hs hb => ⟨[], s, ?_, rfl, rfl, rfl, rfl, hb⟩) hf
  rw [hasAny_eq hs, this]

omit [DecidableEq F] in
theorem tick_bind {f : Nat → Run β} {R : β → Bytes → Prop} (hf : ∀ n, Pass S E b (f n) R) : Pass S E b (tick >>= f) R := by
  intro s hs hb
  obtain ⟨a, s', h1, h2, h3, h4, h5⟩ := hf s.moment { s with moment := s.moment + 1 } hs hb
  exact ⟨a, s', by rw [← h1]; rfl, h2, h3, h4, h5⟩

omit [DecidableEq F] in
theorem pass_emit (c : Bytes) : Pass S E b (emit c) fun _ b' => b' = b ++ c :=
  fun s _ hb => ⟨(), _, rfl, rfl, rfl, rfl, by rw [hb]⟩

omit [DecidableEq F] in
theorem still_each {f : α → Run Unit} {l : List α} (h : ∀ a ∈ l, Still S E b (f a) ()) : Still S E b (each f l) () := by
  induction l with
  | nil => exact still_pure ()
  | cons a l ih =>
    exact still_bind (h a (by simp)) (ih fun x hx => h x (by simp [hx]))

omit [DecidableEq F] in
theorem now_bind {f : Nat → Run β} {R : β → Bytes → Prop} (hf : ∀ n, Pass S E b (f (S.clock n).1) R) :
    Pass S E b (now S >>= f) R := by
  refine pass_bind (Q := fun a b' => (∃ n, a = (S.clock n).1) ∧ b' = b) ?_ ?_
  · refine tick_bind fun n => ?_
    exact pass_pure _ ⟨⟨n, rfl⟩, rfl⟩
  · rintro _ _ ⟨⟨n, rfl⟩, rfl⟩
    exact hf n

/-! ### The surroundings -/

/-- The numerals in the lines of the tests. -/
def knownNumerals : List Bytes :=
  [decInt 2, decInt 3, decInt 23, decInt (-64), decInt 79, decInt 60000000000, decInt 29002000000000,
   pi64.text, e64.text, sqrtPi64.text, sqrtE64.text, phi64.text, (F64.fin false 23 [7, 9]).text, (F64.fin false 23 [7]).text]

/-- The surroundings of the suite are those of a Go program: times and callers can be printed, JSON
texts are decoded faithfully and white space in front of them does not matter, numerals are
decoded to the numbers they stand for, the letters used by the suite have the upper and lower
case they have, dates are those of the times and midnight does not pass. -/
structure Around (S : Suite F) (env : Env) (num : Bytes → Option F) (now : Nat) : Prop where
  world : World env S.clock now
  nums : NumsFit S.N num
  floats : ∀ x ∈ [sqrtPi64, sqrtE64, phi64, F64.fin false 23 [7, 9], F64.fin false 23 [7]],
    num x.text = some (S.N.ofF64 x)
  faithful : Faithful num S.unmarshal
  front : ∀ w t, Ws w → S.unmarshal (w ++ t) = S.unmarshal t
  latin : Count.Latin S.U
  upper : ∀ s ∈ levelNames, S.L.toUpper s = s
  upperOmega : S.L.toUpper b!"omega" = b!"OMEGA"
  lowerInfo : S.L.toLower b!"INFO" = b!"info"
  string : ∀ s, S.L.valueString (.string s) = s
  format : S.formatTime rfc3339Nano = env.formatTime defaultTimeFormat
  parse : ∀ i, S.parseDate (env.formatTime defaultTimeFormat (S.clock i).1) = some (S.date (S.clock i).1)
  day : ∀ i j, S.date (S.clock i).1 = S.date (S.clock j).1
  pick : ∀ ks, (S.pick ks).Perm ks
  stamp : Utf8.Valid S.stamp ∧ NoRepl S.stamp = true
  noCaller : Utf8.Valid (env.frame 0).1 ∧ Utf8.Valid (env.frame 0).2.1

/-- The handler under test follows the documentation, and the surroundings are those of a Go
program. -/
structure Fair (S : Suite F) (env : Env) (num : Bytes → Option F) (now : Nat) : Prop extends Around S env num now where
  sut : Contract env S.sut

variable {env : Env} {num : Bytes → Option F} {now : Nat}

omit [DecidableEq F] in
theorem Fair.known (V : Fair S env num now) : ∀ t ∈ knownNumerals, (num t).isSome = true := by
  intro t ht
  have ints : ∀ i : Int, -2 ^ 63 ≤ i → i < 2 ^ 64 → (num (decInt i)).isSome = true := by
    intro i h1 h2; rw [V.nums.ints i h1 h2]; rfl
  have fl : ∀ x ∈ [sqrtPi64, sqrtE64, phi64, F64.fin false 23 [7, 9], F64.fin false 23 [7]], (num x.text).isSome = true := by
    intro x hx; rw [V.floats x hx]; rfl
  simp only [knownNumerals, List.mem_cons, List.not_mem_nil, or_false] at ht
  rcases ht with rfl | rfl | rfl | rfl | rfl | rfl | rfl | rfl | rfl | rfl | rfl | rfl | rfl | rfl
  · exact ints _ (by decide) (by decide)
  · exact ints _ (by decide) (by decide)
  · exact ints _ (by decide) (by decide)
  · exact ints _ (by decide) (by decide)
  · exact ints _ (by decide) (by decide)
  · exact ints _ (by decide) (by decide)
  · exact ints _ (by decide) (by decide)
  · rw [V.nums.pi]; rfl
  · rw [V.nums.e]; rfl
  all_goals exact fl _ (by simp)

/-- Members of the tests: not too deep, with known numerals, nothing named `fields`. -/
structure Tidy (pl : List (Bytes × Tree)) : Prop where
  fits : fitsMembers 8 pl = true
  nums : ∀ t ∈ numeralsMembers pl, t ∈ knownNumerals
  names : fieldlessMembers pl = true

/-- The same, computed. -/
def tidy (pl : List (Bytes × Tree)) : Bool :=
  fitsMembers 8 pl && (numeralsMembers pl).all (fun t => knownNumerals.contains t) && fieldlessMembers pl

theorem Tidy.of {pl : List (Bytes × Tree)} (h : tidy pl = true) : Tidy pl := by
  simp only [tidy, Bool.and_eq_true, List.all_eq_true, List.contains_iff_mem] at h
  exact ⟨h.1.1, h.1.2, h.2⟩

/-- Time, level and message. -/
def three (env : Env) (t : Nat) (level : Bytes) : List (Bytes × Tree) :=
  [(b!"time", .str (env.formatTime defaultTimeFormat t)), (b!"level", .str level), (b!"msg", .str Verify.message)]

/-- The level with a name. -/
theorem plain_level {name : Bytes} (h : name ∈ levelNames) : plainExtras.levelNames (levelOf name) = name := by
  simp only [levelNames, List.mem_cons, List.not_mem_nil, or_false] at h
  rcases h with rfl | rfl | rfl | rfl <;> decide +kernel

theorem valid_level {name : Bytes} (h : name ∈ levelNames) : Utf8.Valid name ∧ NoRepl name = true := by
  simp only [levelNames, List.mem_cons, List.not_mem_nil, or_false] at h
  rcases h with rfl | rfl | rfl | rfl <;> exact ⟨by decide, by decide +kernel⟩

omit [DecidableEq F] in
/-- The record of a call can be printed. -/
theorem Fair.record (V : Fair S env num now) {name : Bytes} (h : name ∈ levelNames) (i pc : Nat) (as : List Attr)
    (hpc : pc = (S.clock i).2) (ha : ListClean env defaultTimeFormat as) :
    RecordClean env plainExtras ⟨some (S.clock i).1, levelOf name, Verify.message, pc, as⟩ where
  timeKey := by decide
  levelKey := by decide
  messageKey := by decide
  sourceKey := by decide
  time := fun t ht => by cases ht; exact (V.world.time i).1
  level := by rw [plain_level h]; exact (valid_level h).1
  message := show Utf8.Valid Verify.message by decide
  function := by rw [hpc]; exact (V.world.function i).1
  file := by rw [hpc]; exact (V.world.file i).1
  attrs := ha

omit [DecidableEq F] in
theorem Fair.line (V : Fair S env num now) {t : Bytes} {ms : List (Bytes × Tree)} (ht : LineText t (.obj ms))
    (hf : fitsMembers 8 ms = true) (hn : ∀ t ∈ numeralsMembers ms, t ∈ knownNumerals) (hk : fieldlessMembers ms = true) :
    Line num (t ++ [0x0A]) ms :=
  ⟨⟨t, rfl, ht.1⟩, fitsMembers_mono _ (by decide) hf, fun s hs => V.known s (hn s hs), hk⟩

omit [DecidableEq F] in
theorem Fair.three_tidy (V : Fair S env num now) (i : Nat) {name : Bytes} (h : name ∈ levelNames) :
    Tidy (three env (S.clock i).1 name) := by
  refine ⟨?_, ?_, ?_⟩
  · have k : ∀ s ∈ [b!"time", b!"level", b!"msg", Verify.message], NoRepl s = true := by decide +kernel
    simp only [three, fitsMembers, Go.fits, k b!"time" (by simp), k b!"level" (by simp), k b!"msg" (by simp),
      k Verify.message (by simp), (V.world.time i).2, (valid_level h).2, Bool.and_self]
  · intro t ht; simp [three, numeralsMembers, numerals] at ht
  · have k : ∀ s ∈ [b!"time", b!"level", b!"msg"], (s != b!"fields") = true := by decide +kernel
    simp only [three, fieldlessMembers, fieldless, k b!"time" (by simp), k b!"level" (by simp), k b!"msg" (by simp),
      Bool.and_self]

theorem Tidy.append {a c : List (Bytes × Tree)} (ha : Tidy a) (hc : Tidy c) : Tidy (a ++ c) where
  fits := fitsMembers_append ha.fits hc.fits
  nums := by
    intro t ht
    rw [numerals_append, List.mem_append] at ht
    exact ht.elim (ha.nums t) (hc.nums t)
  names := fieldless_append ha.names hc.names

/-! ### Loggers -/

omit [DecidableEq F] in
theorem Fair.enabled (V : Fair S env num now) {o : RawOptions} {ops : List Op} (hd : Derivable env o ops) {v : Int}
    (hv : (o.level = some fun _ => v) ∨ o.level = none ∧ v = levelInfo) (level : Int) :
    Still S E b (enabled S ⟨o, ops⟩ level) (decide (v ≤ level)) := by
  refine tick_bind fun n => pass_pure _ ⟨?_, rfl⟩
  rw [V.sut.enabled n o ops level hd]
  rcases hv with h | ⟨h, rfl⟩ <;> rw [h] <;> rfl

omit [DecidableEq F] in
theorem Fair.assertEnabled (V : Fair S env num now) {o : RawOptions} {ops : List Op} (hd : Derivable env o ops) {v : Int}
    (hv : (o.level = some fun _ => v) ∨ o.level = none ∧ v = levelInfo) {level : Int} {want : Bool}
    (hw : decide (v ≤ level) = want) : Still S E b (assertEnabled S ⟨o, ops⟩ level want) () := by
  refine still_bind (V.enabled hd hv level) (still_assert ?_)
  rw [hw]
  cases want <;> rfl

omit [DecidableEq F] in
theorem Fair.levelMath (V : Fair S env num now) (hE : OnlyDuplicates E) {o : RawOptions} {ops : List Op}
    (hd : Derivable env o ops) {v : Int} (hv : (o.level = some fun _ => v) ∨ o.level = none ∧ v = levelInfo) {level : Int}
    {want : Bool} (hw : decide (v ≤ level) = want) (text : Bytes) :
    Still S E b (checkLevelMath S ⟨o, ops⟩ level want text) () := by
  refine still_bind (V.enabled hd hv level) (has_bind hE (by decide) (still_assert ?_))
  rw [hw]
  cases want <;> rfl

/-- The conditions of `Fair.log`. -/
structure Call (env : Env) (o : RawOptions) (ops : List Op) (as : List Attr) (pl : List (Bytes × Tree)) : Prop where
  replace : o.replace = none
  source : o.addSource = false
  clear : Clear env ops (recordAttrs as) pl
  tidy : Tidy pl

omit [DecidableEq F] in
theorem Call.derivable {o : RawOptions} {ops : List Op} {as : List Attr} {pl : List (Bytes × Tree)}
    (C : Call env o ops as pl) : Derivable env o ops := .inl ⟨C.replace, C.clear.chain, C.clear.chainDepth⟩

omit [DecidableEq F] in
/-- Logging. -/
theorem Fair.log (V : Fair S env num now) {o : RawOptions} {ops : List Op} {as : List Attr} {pl : List (Bytes × Tree)}
    (C : Call env o ops as pl) {v : Int} (hv : o.level = some fun _ => v) {name : Bytes} (hn : name ∈ levelNames)
    (hle : v ≤ levelOf name) (cancelled : Bool) {f : Unit → Run β} {R : β → Bytes → Prop}
    (hf : ∀ i b, Line num b (three env (S.clock i).1 name ++ pl) → Pass S E b (f ()) R) :
    Pass S E [] (Verify.log S ⟨o, ops⟩ cancelled (levelOf name) as >>= f) R := by
  refine pass_bind (Q := fun _ b => ∃ i, Line num b (three env (S.clock i).1 name ++ pl)) ?_ ?_
  · unfold Verify.log
    refine still_bind (V.enabled C.derivable (.inl hv) (levelOf name)) ?_
    rw [decide_eq_true hle]
    refine tick_bind fun n => ?_
    refine (pass_emit _).mono ?_
    rintro _ b' rfl
    obtain ⟨t, h1, h2⟩ := V.sut.plain n o ops cancelled
      ⟨some (S.clock n).1, levelOf name, Verify.message, (S.clock n).2, recordAttrs as⟩ pl C.replace
      (V.record hn n _ _ rfl C.clear.attrs) C.clear
    refine ⟨n, ?_⟩
    rw [h1, List.nil_append]
    have e : builtins env plainExtras o.addSource
        ⟨some (S.clock n).1, levelOf name, Verify.message, (S.clock n).2, recordAttrs as⟩ = three env (S.clock n).1 name := by
      unfold builtins
      dsimp only
      rw [C.source, plain_level hn]
      rfl
    rw [e] at h2
    have T := (V.three_tidy n hn).append C.tidy
    exact V.line h2 T.fits T.nums T.names
  · rintro _ b ⟨i, h⟩
    exact hf i b h

omit [DecidableEq F] in
/-- Logging with `Info`. -/
theorem Fair.info (V : Fair S env num now) {ops : List Op} {as : List Attr} {pl : List (Bytes × Tree)}
    (C : Call env simple ops as pl) {f : Unit → Run β} {R : β → Bytes → Prop}
    (hf : ∀ i b, Line num b (three env (S.clock i).1 b!"INFO" ++ pl) → Pass S E b (f ()) R) :
    Pass S E [] (Verify.info S ⟨simple, ops⟩ as >>= f) R :=
  V.log C rfl (name := b!"INFO") (by simp [levelNames]) (by decide) false hf

/-! ### Checks -/

omit [DecidableEq F] in
/-- The decoded line. -/
theorem Fair.logMap (V : Fair S env num now) {ms : List (Bytes × Tree)} (h : Line num b ms) {f : AMap F → Run β}
    {R : β → Bytes → Prop} (hf : ∀ m, IsAny num (.obj ms) (.map m) → Pass S E b (f m) R) :
    Pass S E b (Verify.logMap S >>= f) R := by
  obtain ⟨t, rfl, ht⟩ := h.text
  obtain ⟨a, ha⟩ := Option.isSome_iff_exists.1 (toAny_some num (.obj ms) (by simp only [numerals]; exact h.nums))
  obtain ⟨m, h1, h2⟩ := V.faithful t ms [0x0A] a ht Props.BenchFlash.ws_newline h.fits (toAny_isAny num _ a ha)
  refine still_bind (a := m) ?_ (hf m h2)
  unfold Verify.logMap
  refine still_bind still_captured ?_
  rw [h1]
  exact still_pure m

omit [DecidableEq F] in
theorem Fair.exact (V : Fair S env num now) {ms : List (Bytes × Tree)} (h : Line num b ms) {m : AMap F}
    (hm : IsAny num (.obj ms) (.map m)) (hn : (ms.map Prod.fst).Nodup) {n : Nat} (hl : ms.length = n) :
    Still S E b (exactFields S n m) () := by
  obtain ⟨c, hc, h1, h2⟩ := h.counted V.latin hn
  refine still_bind (still_assert (by rw [map_length hm hn, hl]; exact beq_self_eq_true n)) ?_
  refine still_bind (a := c) ?_ ?_
  · unfold Verify.counted
    refine still_bind still_captured ?_
    rw [hc]
    exact still_pure c
  · refine still_bind (still_assert (by rw [h1, hl]; exact beq_self_eq_true n)) ?_
    exact still_assert (by rw [h2]; rfl)

omit [DecidableEq F] in
theorem Fair.count (V : Fair S env num now) {ms : List (Bytes × Tree)} (h : Line num b ms) {m : AMap F}
    (hm : IsAny num (.obj ms) (.map m)) (hn : (ms.map Prod.fst).Nodup) {n : Nat} (hl : ms.length = n) :
    Still S E b (checkFieldCount S n m) () := by
  obtain ⟨c, hc, h1, h2⟩ := h.counted V.latin hn
  unfold checkFieldCount
  refine still_bind (still_has _) ?_
  split
  · refine still_bind (a := c) ?_ ?_
    · unfold Verify.counted
      refine still_bind still_captured ?_
      rw [hc]
      exact still_pure c
    · rw [h2]
      exact V.exact h hm hn hl
  · exact V.exact h hm hn hl

theorem still_field {ms : List (Bytes × Tree)} {m : AMap F} (hm : IsAny num (.obj ms) (.map m)) {k : Bytes} {t : Tree}
    (ht : lastOf ms k = some t) {x : Any F} (hx : IsAny num t x) : Still S E b (assertField m k x) () :=
  still_assert (field_eq hm ht hx)

theorem Fair.levelKey (V : Fair S env num now) (hE : OnlyDuplicates E) {name : Bytes} (hn : name ∈ levelNames)
    {ms : List (Bytes × Tree)} {m : AMap F} (hm : IsAny num (.obj ms) (.map m))
    (ht : lastOf ms b!"level" = some (.str name)) : Still S E b (checkLevelKey S name m) () := by
  unfold checkLevelKey
  refine has_bind hE (by decide) ?_
  rw [V.upper name hn]
  exact still_field hm ht (.str _)

theorem Fair.messageKey (_ : Fair S env num now) (hE : OnlyDuplicates E) {ms : List (Bytes × Tree)} {m : AMap F}
    (hm : IsAny num (.obj ms) (.map m)) (ht : lastOf ms b!"msg" = some (.str Verify.message)) :
    Still S E b (checkMessageKey S Verify.message m) () := by
  unfold checkMessageKey
  exact has_bind hE (by decide) (still_field hm ht (.str _))

theorem Fair.basics (V : Fair S env num now) (hE : OnlyDuplicates E) {ms : List (Bytes × Tree)} {m : AMap F}
    (hm : IsAny num (.obj ms) (.map m)) (hl : lastOf ms b!"level" = some (.str b!"INFO"))
    (hg : lastOf ms b!"msg" = some (.str Verify.message)) {s : Bytes} (ht : lastOf ms b!"time" = some (.str s)) :
    Still S E b (checkBasics S m) () := by
  unfold checkBasics
  refine still_bind (V.levelKey hE (by simp [levelNames]) hm hl) (still_bind (V.messageKey hE hm hg) ?_)
  exact still_assert (by rw [field_str hm ht]; rfl)

omit [DecidableEq F] in
theorem Fair.noBlank (V : Fair S env num now) (hE : OnlyDuplicates E) {ms : List (Bytes × Tree)} (h : Line num b ms)
    {m : AMap F} (hm : IsAny num (.obj ms) (.map m)) (hn : (ms.map Prod.fst).Nodup) {n : Nat} (hl : ms.length = n)
    (hb : lastOf ms [] = none) : Still S E b (checkNoEmptyAttribute S n m) () := by
  unfold checkNoEmptyAttribute
  refine has_bind hE (by decide) ?_
  unfold noBlankField
  refine still_bind (V.count h hm hn hl) (still_assert ?_)
  rw [get_none hm hb]; rfl

theorem Fair.resolution (_ : Fair S env num now) (hE : OnlyDuplicates E) {ms : List (Bytes × Tree)} {m : AMap F}
    (hm : IsAny num (.obj ms) (.map m)) {k s : Bytes} (ht : lastOf ms k = some (.str s)) :
    Still S E b (checkResolution S s (field m k)) () := by
  unfold checkResolution
  exact has_bind hE (by decide) (still_assert (field_eq hm ht (.str _)))

end Verif.Verify
