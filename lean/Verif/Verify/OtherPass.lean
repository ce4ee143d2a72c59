import Verif.Verify.SlogPass

/-
The tests of documented.go and other.go find nothing wrong with a handler that follows the
documentation.
-/

namespace Verif.Verify
open Go Warning Slog Bench Json LogTree Flash

variable {F β : Type} [DecidableEq F] {S : Suite F} {E : Warning → Bool} {b : Bytes} {env : Env} {num : Bytes → Option F}
  {now : Nat}

/-! ### documented.go -/

omit [DecidableEq F] in
/-- A message without attributes. -/
theorem Fair.bare (V : Fair S env num now) : Call env simple [] [] [] := V.call rfl rfl (by decide +kernel) rfl rfl

theorem Fair.plain (V : Fair S env num now) (hE : OnlyDuplicates E) {i : Nat}
    (h : Line num b (three env (S.clock i).1 b!"INFO" ++ [])) :
    Pass S E b (checkPlain S) fun _ b' => b' = b := by
  unfold checkPlain
  refine V.logMap h fun m hm => ?_
  refine still_bind (V.count h hm (three_nodup (by decide +kernel) _ _) rfl) ?_
  exact (V.basics hE hm rfl rfl rfl).mono fun _ _ h => h.2

theorem Fair.canceledContext (V : Fair S env num now) (hE : OnlyDuplicates E) :
    Pass S E [] (testCanceledContext S) fun _ _ => True := by
  unfold testCanceledContext
  have hi : b!"INFO" ∈ levelNames := by simp [levelNames]
  have hl : levelOf b!"INFO" = levelInfo := by decide
  have hle : levelInfo ≤ levelOf b!"INFO" := by decide
  rw [← hl]
  refine V.log V.bare (v := levelInfo) rfl hi hle false fun i b h => ?_
  refine pass_bind (V.plain hE h) fun _ _ _ => reset_bind ?_
  refine V.log V.bare (v := levelInfo) rfl hi hle false fun i b h => ?_
  refine pass_bind (V.plain hE h) fun _ _ _ => reset_bind ?_
  refine V.log V.bare (v := levelInfo) rfl hi hle true fun i b h => ?_
  refine has_bind hE (by decide) ?_
  exact (V.plain hE h).mono fun _ _ _ => trivial

omit [DecidableEq F] in
theorem Fair.defaultLevel (V : Fair S env num now) (hE : OnlyDuplicates E) :
    Pass S E [] (testDefaultLevel S) fun _ _ => True := by
  unfold testDefaultLevel
  refine (still_each fun addSource _ => ?_).done
  refine has_bind hE (by decide) ?_
  have hd : Derivable env { addSource } [] := .inl ⟨rfl, trivial, Nat.lt_of_le_of_lt (by decide) V.world.stack⟩
  have hv : ({ addSource } : RawOptions).level = some (fun _ => levelInfo) ∨
    ({ addSource } : RawOptions).level = none ∧ levelInfo = levelInfo := .inr ⟨rfl, rfl⟩
  unfold defaultLevels
  refine still_bind (V.assertEnabled hd hv (by decide)) ?_
  refine still_bind (V.assertEnabled hd hv (by decide)) ?_
  refine still_bind (V.assertEnabled hd hv (by decide)) ?_
  refine still_bind (V.assertEnabled hd hv (by decide)) ?_
  refine still_bind (V.levelMath hE hd hv (by decide) _) ?_
  refine still_bind (V.assertEnabled hd hv (by decide)) ?_
  exact V.assertEnabled hd hv (by decide)

omit [DecidableEq F] in
/-- Members without the time. -/
theorem isAny_del {ms : List (Bytes × Tree)} {m : AMap F} (h : IsAny num (.obj ms) (.map m)) (k : Bytes) :
    IsAny num (.obj (ms.filter fun e => e.1 ≠ k)) (.map (Map.del m k)) := by
  obtain ⟨h1, h2, h3⟩ := isAny_obj h
  have key := lastOf_filter ms k
  refine .obj (Map.nodup_del h1 k) (fun k' => ?_) fun k' t a ht ha => ?_
  · rw [Map.get_del, key]
    split
    · rfl
    · exact h2 k'
  · rw [Map.get_del] at ha
    rw [key] at ht
    split at ht
    · cases ht
    · rename_i hk
      rw [if_neg hk] at ha
      exact h3 k' t a ht ha

theorem Fair.derivedInvariantWith (V : Fair S env num now) :
    Pass S E [] (testDerivedInvariantWith S) fun _ _ => True := by
  unfold testDerivedInvariantWith
  refine V.info V.bare fun i b h => V.logMap h fun m hm => reset_bind ?_
  refine V.info (pl := [(b!"alpha", .str b!"omega")]) (V.call rfl rfl (by decide +kernel) rfl rfl) fun j b h' => reset_bind ?_
  refine V.info V.bare fun k b h2 => V.logMap h2 fun m2 hm2 => ?_
  refine (still_assert (deep_of (t := .obj [(b!"level", .str b!"INFO"), (b!"msg", .str Verify.message)])
    (isAny_del hm b!"time") (isAny_del hm2 b!"time"))).done

theorem Fair.derivedInvariantWithGroup (V : Fair S env num now) :
    Pass S E [] (testDerivedInvariantWithGroup S) fun _ _ => True := V.derivedInvariantWith

omit [DecidableEq F] in
theorem Fair.disabled (V : Fair S env num now) : Pass S E [] (testDisabled S) fun _ _ => True := by
  unfold testDisabled Verify.log
  refine still_bind (a := ()) ?_ ?_
  · refine still_bind (V.enabled V.bare.derivable (.inl rfl) levelDebug) ?_
    exact still_pure ()
  · refine still_bind still_captured ?_
    exact (still_assert rfl).done

theorem Fair.sourceKey (V : Fair S env num now) (hE : OnlyDuplicates E) :
    Pass S E [] (testSourceKey S) fun _ _ => True := by
  unfold testSourceKey
  refine tick_bind fun n => ?_
  refine V.handle (bm := Props.BenchFlash.head env (S.clock n).1 (S.clock n).2 true Verify.message) rfl rfl
    { timeKey := by decide
      levelKey := by decide
      messageKey := by decide
      sourceKey := by decide
      time := fun t ht => by cases ht; exact (V.world.time n).1
      level := show Utf8.Valid (plainExtras.levelNames levelInfo) by decide
      message := show Utf8.Valid Verify.message by decide
      function := (V.world.function n).1
      file := (V.world.file n).1
      attrs := show ListClean _ _ [] from trivial } ?_ fun t ht => ?_
  · exact Props.BenchFlash.builtins_head V.world n true Verify.message []
  have h : Line num (t ++ [0x0A]) (Props.BenchFlash.head env (S.clock n).1 (S.clock n).2 true Verify.message) := by
    refine ⟨⟨t, rfl, ht.1⟩, ?_, ?_, ?_⟩
    · exact fitsMembers_mono _ (by decide) (Props.BenchFlash.head_fits V.world n true (by decide +kernel))
    · intro s hs
      have hl := V.world.line n
      have : s = decNat (env.frame (S.clock n).2).2.2 := by
        simpa [Props.BenchFlash.head, numeralsMembers, numerals] using hs
      have : s = decInt ((env.frame (S.clock n).2).2.2 : Nat) := this
      rw [this, V.nums.ints _ (by omega) (by omega)]; rfl
    · have k : ∀ s ∈ [b!"time", b!"level", b!"msg", b!"source", b!"function", b!"file", b!"line"],
          (s != b!"fields") = true := by decide +kernel
      simp only [Props.BenchFlash.head, if_true, List.cons_append, List.nil_append, fieldlessMembers, fieldless,
        k b!"time" (by simp), k b!"level" (by simp), k b!"msg" (by simp), k b!"source" (by simp),
        k b!"function" (by simp), k b!"file" (by simp), k b!"line" (by simp), Bool.and_self]
  refine V.logMap h fun m hm => ?_
  refine still_bind (V.basics hE hm rfl rfl rfl) ?_
  unfold checkSourceKey
  refine has_bind hE (by decide) ?_
  unfold sourceKeyPart
  refine has_bind hE (by decide) ?_
  unfold exactSource
  refine still_bind (V.count h hm ?_ rfl) ?_
  · exact show ([b!"time", b!"level", b!"msg", b!"source"] : List Bytes).Nodup by decide +kernel
  obtain ⟨g, hg, hg'⟩ := field_obj (k := b!"source") hm rfl
  rw [hg]
  refine still_bind (still_assert ?_) ?_
  · rw [map_length hg' ?_]
    · rfl
    · exact show ([b!"function", b!"file", b!"line"] : List Bytes).Nodup by decide +kernel
  refine (still_each fun f hf => ?_).done
  have hf : f ∈ sourceNames := (V.pick _).mem_iff.1 hf
  simp only [sourceNames, List.mem_cons, List.not_mem_nil, or_false] at hf
  rcases hf with rfl | rfl | rfl
  · rw [field_str hg' (k := b!"file") rfl]
    exact still_bind (still_assert rfl) (still_assert rfl)
  · rw [field_str hg' (k := b!"function") rfl]
    exact still_bind (still_assert rfl) (still_assert rfl)
  · rw [field_num hg' (k := b!"line") rfl
      (V.nums.ints ((env.frame (S.clock n).2).2.2 : Nat) (by omega) (by have := V.world.line n; omega))]
    exact still_bind (still_assert rfl) (still_assert rfl)

omit [DecidableEq F] in
/-- A loop that starts each time with an empty buffer. -/
theorem pass_each {α : Type} {f : α → Run Unit} {l : List α}
    (h : ∀ a ∈ l, Pass S E [] (f a) fun _ b' => b' = []) : Pass S E [] (each f l) fun _ _ => True := by
  induction l with
  | nil => exact pass_pure _ trivial
  | cons a l ih =>
    refine pass_bind (h a (by simp)) ?_
    rintro _ _ rfl
    exact ih fun x hx => h x (by simp [hx])

theorem Fair.keyCase (V : Fair S env num now) (hE : OnlyDuplicates E) :
    Pass S E [] (testKeyCase S) fun _ _ => True := by
  unfold testKeyCase
  refine pass_each fun name hn => ?_
  have hn : name ∈ levelNames := (V.pick _).mem_iff.1 hn
  refine V.log (pl := []) (V.call rfl rfl (by decide +kernel) rfl rfl) (v := levelDebug) rfl hn ?_ false fun i b h => ?_
  · simp only [levelNames, List.mem_cons, List.not_mem_nil, or_false] at hn
    rcases hn with rfl | rfl | rfl | rfl <;> decide
  refine V.logMap h fun m hm => ?_
  refine still_bind (V.levelKey hE hn hm rfl) ?_
  exact pass_reset

omit [DecidableEq F] in
/-- The level is read anew each time. -/
theorem Fair.levelVar (V : Fair S env num now) (hE : OnlyDuplicates E) :
    Pass S E [] (testLevelVar S) fun _ _ => True := by
  intro s hs hb
  have hd : ∀ f, Derivable env { level := some f } [] :=
    fun f => .inl ⟨rfl, trivial, Nat.lt_of_le_of_lt (by decide) V.world.stack⟩
  have en : ∀ (f : Nat → Int) (l : Int) (s : St), Verify.enabled S ⟨{ level := some f }, []⟩ l s =
      (some (decide (f s.moment ≤ l)), { s with moment := s.moment + 1 }) := by
    intro f l s
    show (some (S.sut.enabled s.moment { level := some f } [] l), _) = _
    rw [V.sut.enabled s.moment _ [] l (hd f)]
    rfl
  let f : Nat → Int := fun i => if i ≤ s.moment + 3 then levelInfo else levelWarn
  have early : ∀ k, k ≤ 3 → f (s.moment + k) = levelInfo := by
    intro k hk; exact if_pos (by omega)
  have late : ∀ k, 3 < k → f (s.moment + k) = levelWarn := by
    intro k hk; exact if_neg (by omega)
  let st : Nat → St := fun k => { s with moment := s.moment + k }
  have as : ∀ k l want, decide (f (s.moment + k) ≤ l) = want →
      Verify.assertEnabled S ⟨{ level := some f }, []⟩ l want (st k) = (some (), st (k + 1)) := by
    intro k l want h
    unfold Verify.assertEnabled
    rw [bind_some (en f l (st k))]
    have : (decide (f (st k).moment ≤ l) == want) = true := by rw [h]; cases want <;> rfl
    rw [this]
    rfl
  have hp : ∀ w k, w.name ≠ duplicates.name → has S w (st k) = (some false, st k) := by
    intro w k hw
    rw [has, hs w, hE w hw]
  have mt : ∀ k l text, decide (f (s.moment + k) ≤ l) = true →
      checkLevelMath S ⟨{ level := some f }, []⟩ l true text (st k) = (some (), st (k + 1)) := by
    intro k l text h
    unfold checkLevelMath
    rw [bind_some (en f l (st k)), h]
    show (has S Verify.levelMath >>= _) (st (k + 1)) = _
    rw [bind_some (hp Verify.levelMath (k + 1) (by decide))]
    rfl
  refine ⟨(), st 7, ?_, rfl, rfl, rfl, trivial⟩
  unfold testLevelVar
  rw [bind_some (show tick s = (some s.moment, st 1) from rfl)]
  rw [bind_some (as 1 (-1) false (by rw [early 1 (by omega)]; decide))]
  rw [bind_some (as 2 levelInfo true (by rw [early 2 (by omega)]; decide))]
  rw [bind_some (mt 3 (levelInfo + 1) _ (by rw [early 3 (by omega)]; decide))]
  rw [bind_some (hp Verify.levelVar 4 (by decide))]
  show (Verify.assertEnabled S ⟨{ level := some f }, []⟩ 3 false >>= fun _ => _) (st 4) = _
  rw [bind_some (as 4 3 false (by rw [late 4 (by omega)]; decide))]
  rw [bind_some (as 5 levelWarn true (by rw [late 5 (by omega)]; decide))]
  exact mt 6 5 _ (by rw [late 6 (by omega)]; decide)

/-! ### `TestLogAttributes` -/

/-- The members of `TestLogAttributes`. -/
def logMembers (when_ : Bytes) : List (Bytes × Tree) :=
  [(b!"when", .str when_), (b!"howLong", .num (decInt 60000000000)), (b!"goober", .str b!"snoofus"),
   (b!"boolean", .bool true), (b!"pi", .num pi64.text), (b!"skidoo", .num (decInt 23)),
   (b!"minus", .num (decInt (-64))), (b!"unsigned", .num (decInt 79)),
   (b!"any", .arr [.str b!"alpha", .str b!"omega"])]

/-- A text the parser reads, without white space at either end. -/
theorem denotes_of_parse {s : Bytes} {c : Cst} {t : Tree} (h : Json.parse s = some c) (hd : c.decode = some t)
    (h1 : s.head?.any isWs = false) (h2 : s.getLast?.any isWs = false) : Denotes s t := by
  obtain ⟨w1, b, w2, g1, g2, rfl, hv⟩ := val_of_parse h
  have e1 : w1 = [] := by
    cases w1 with
    | nil => rfl
    | cons a w => simp [g1 a (by simp)] at h1
  have e2 : w2 = [] := by
    rcases List.eq_nil_or_concat w2 with rfl | ⟨w, a, rfl⟩
    · rfl
    · have := g2 a (by simp)
      rw [List.concat_eq_append, ← List.append_assoc, List.getLast?_append] at h2
      simp [this] at h2
  subst e1 e2
  rw [List.nil_append, List.append_nil]
  exact ⟨c, hv, hd⟩

omit [DecidableEq F] in
/-- A text that is read. -/
theorem Fair.reads (V : Fair S env num now) {s : Bytes} {c : Cst} {ms : List (Bytes × Tree)} (h : Json.parse s = some c)
    (hd : c.decode = some (.obj ms)) (ht : Tidy ms) :
    ∃ m, S.unmarshal s = (some m, none) ∧ IsAny num (.obj ms) (.map m) := by
  obtain ⟨w1, b, w2, g1, g2, rfl, hv⟩ := val_of_parse h
  obtain ⟨a, ha⟩ := Option.isSome_iff_exists.1 (toAny_some num (.obj ms) (by
    simp only [numerals]; exact fun s hs => V.known s (ht.nums s hs)))
  obtain ⟨m, h1, h2⟩ := V.faithful b ms w2 a ⟨c, hv, hd⟩ g2 (fitsMembers_mono _ (by decide) ht.fits)
    (toAny_isAny num _ a ha)
  exact ⟨m, by rw [List.append_assoc, V.front _ _ g1, h1], h2⟩

/-- The text of a list of strings. -/
theorem list_text : Denotes b!"[\"alpha\",\"omega\"]" (.arr [.str b!"alpha", .str b!"omega"]) :=
  denotes_of_parse (c := .arr [.str b!"alpha", .str b!"omega"]) (by rfl) (by rfl) (by decide) (by decide)

/-- The text of a map. -/
theorem map_text : Denotes b!"{\"John\":\"Doe\"}" (.obj [(b!"John", .str b!"Doe")]) :=
  denotes_of_parse (c := .obj [(b!"John", .str b!"Doe")]) (by rfl) (by rfl) (by decide) (by decide)

omit [DecidableEq F] in
theorem Fair.logCall (V : Fair S env num now) (n : Nat) :
    Call env simple [] (logAttributes (S.clock n).1) (logMembers (env.formatTime defaultTimeFormat (S.clock n).1)) where
  replace := rfl
  source := rfl
  clear := by
    refine ⟨trivial, Nat.lt_of_le_of_lt (by decide) V.world.stack, ?_, ?_, ?_, ?_⟩
    · have e : recordAttrs (logAttributes (S.clock n).1) = logAttributes (S.clock n).1 := rfl
      rw [e]
      simp only [logAttributes, ListClean, AttrClean, ValClean, LeafClean, AnyClean]
      exact ⟨⟨by decide, (V.world.time n).1⟩, ⟨by decide, trivial⟩, ⟨by decide, by decide⟩, ⟨by decide, trivial⟩,
        ⟨by decide, trivial⟩, ⟨by decide, trivial⟩, ⟨by decide, trivial⟩, ⟨by decide, trivial⟩,
        ⟨by decide, _, list_text, by decide⟩, trivial⟩
    · exact Nat.lt_of_le_of_lt (show listDepth _ ≤ 6 from by simp [logAttributes, recordAttrs, emptyGroupAttr, listDepth, attrDepth, valDepth]) V.world.stack
    · rfl
    · rfl
  tidy := by
    have T : Tidy (logMembers []) := .of (by decide +kernel)
    refine ⟨?_, T.nums, T.names⟩
    have := T.fits
    simp only [logMembers, fitsMembers, Go.fits, (V.world.time n).2, Bool.and_eq_true] at this ⊢
    exact ⟨⟨this.1.1, trivial⟩, this.2⟩

theorem Fair.logAttributes (V : Fair S env num now) (hE : OnlyDuplicates E) :
    Pass S E [] (testLogAttributes S) fun _ _ => True := by
  unfold testLogAttributes
  refine now_bind fun n => ?_
  refine V.log (V.logCall n) (v := levelInfo) rfl (name := b!"INFO") (by simp [levelNames]) (by decide) false
    fun i b h => V.logMap h fun m hm => ?_
  have I : ∀ i : Int, -2 ^ 63 ≤ i → i < 2 ^ 64 → IsAny num (.num (decInt i)) (.num (S.N.ofInt i)) :=
    fun i h1 h2 => .num (V.nums.ints i h1 h2)
  refine still_bind (V.count h hm ?_ rfl) ?_
  · exact show ([b!"time", b!"level", b!"msg", b!"when", b!"howLong", b!"goober", b!"boolean", b!"pi", b!"skidoo",
      b!"minus", b!"unsigned", b!"any"] : List Bytes).Nodup by decide +kernel
  have f1 := field_str hm (k := b!"when") (s := env.formatTime defaultTimeFormat (S.clock n).1) (three_last rfl)
  rw [f1]
  refine still_bind (still_assert rfl) ?_
  refine still_bind (a := ()) ?_ ?_
  · unfold checkWhen
    refine has_bind hE (by decide) (has_bind hE (by decide) (still_assert ?_))
    rw [V.format]
    exact beq_self_eq_true _
  refine still_bind (still_assert (get_some hm (three_last rfl))) ?_
  have f2 := field_num hm (k := b!"howLong") (three_last rfl) (V.nums.ints 60000000000 (by decide) (by decide))
  rw [f2]
  refine still_bind (a := ()) ?_ ?_
  · unfold checkHowLong
    refine has_bind hE (by decide) ?_
    refine still_bind (still_assert rfl) ?_
    refine has_bind hE (by decide) (has_bind hE (by decide) (still_assert ?_))
    exact decide_eq_true rfl
  refine still_bind (still_field hm (three_last rfl) (.str _)) ?_
  refine still_bind (still_field hm (three_last rfl) (.bool _)) ?_
  refine still_bind (still_field hm (three_last rfl) V.piAny) ?_
  refine still_bind (still_field hm (three_last rfl) (I 23 (by decide) (by decide))) ?_
  refine still_bind (still_field hm (three_last rfl) (I (-64) (by decide) (by decide))) ?_
  refine still_bind (still_field hm (three_last rfl) (I 79 (by decide) (by decide))) ?_
  have f3 : field m b!"any" = .list [.str b!"alpha", .str b!"omega"] := by
    have := field_is hm (k := b!"any") (t := .arr [.str b!"alpha", .str b!"omega"]) (three_last rfl)
    generalize field m b!"any" = v at this
    cases this with
    | @arr _ l hl he =>
      match l, hl with
      | [x, y], _ =>
        have h0 := he 0 _ _ rfl rfl
        have h1 := he 1 _ _ rfl rfl
        cases h0; cases h1; rfl
  rw [f3]
  refine still_bind (still_assert rfl) ?_
  refine still_bind (still_each fun x hx => still_assert ?_) (still_assert rfl).done
  simp only [asList, Option.getD_some, List.mem_cons, List.not_mem_nil, or_false] at hx
  rcases hx with rfl | rfl <;> rfl

/-! ### other.go -/

theorem Fair.anyMap (V : Fair S env num now) (hE : OnlyDuplicates E) :
    Pass S E [] (testAnyMap S) fun _ _ => True := by
  unfold testAnyMap
  refine V.info (ops := []) (pl := [(b!"any", .obj [(b!"John", .str b!"Doe")])])
    ⟨rfl, rfl, ⟨trivial, Nat.lt_of_le_of_lt (by decide) V.world.stack, ?_,
      Nat.lt_of_le_of_lt (by decide) V.world.stack, rfl, rfl⟩, .of (by decide +kernel)⟩
    fun i b h => V.logMap h fun m hm => ?_
  · exact ⟨⟨by decide, _, map_text, by decide⟩, trivial⟩
  refine still_bind (still_assert (get_some hm (three_last rfl))) ?_
  refine has_bind hE (by decide) ?_
  obtain ⟨e, h1, h2⟩ := V.reads (s := b!"{\"John\": \"Doe\"}") (c := .obj [(b!"John", .str b!"Doe")])
    (ms := [(b!"John", .str b!"Doe")]) (by rfl) (by rfl) (.of (by decide +kernel))
  refine (still_assert ?_).done
  rw [expect, h1]
  exact field_eq hm (three_last rfl) h2

omit [DecidableEq F] in
theorem Fair.levelConfigured (V : Fair S env num now) (hE : OnlyDuplicates E) :
    Pass S E [] (testLevelConfigured S) fun _ _ => True := by
  unfold testLevelConfigured
  refine (still_each fun o ho => ?_).done
  have hv : o.level = (some fun _ => levelInfo) ∨ o.level = none ∧ levelInfo = levelInfo := by
    simp only [List.mem_cons, List.not_mem_nil, or_false] at ho
    rcases ho with rfl | rfl <;> exact .inl rfl
  have hd : Derivable env o [] := by
    refine .inl ⟨?_, trivial, Nat.lt_of_le_of_lt (by decide) V.world.stack⟩
    simp only [List.mem_cons, List.not_mem_nil, or_false] at ho
    rcases ho with rfl | rfl <;> rfl
  refine still_bind (V.assertEnabled hd hv (by decide)) ?_
  refine still_bind (V.assertEnabled hd hv (by decide)) ?_
  refine still_bind (V.levelMath hE hd hv (by decide) _) ?_
  refine still_bind (V.assertEnabled hd hv (by decide)) ?_
  exact V.assertEnabled hd hv (by decide)

omit [DecidableEq F] in
theorem Fair.levelDifferent (V : Fair S env num now) (hE : OnlyDuplicates E) :
    Pass S E [] (testLevelDifferent S) fun _ _ => True := by
  unfold testLevelDifferent
  have hd : ∀ s, Derivable env { addSource := s, level := some fun _ => levelWarn } [] :=
    fun s => .inl ⟨rfl, trivial, Nat.lt_of_le_of_lt (by decide) V.world.stack⟩
  refine still_bind (V.assertEnabled (hd false) (.inl rfl) (by decide)) ?_
  refine still_bind (V.assertEnabled (hd false) (.inl rfl) (by decide)) ?_
  refine still_bind (V.assertEnabled (hd false) (.inl rfl) (by decide)) ?_
  refine still_bind (V.assertEnabled (hd false) (.inl rfl) (by decide)) ?_
  refine still_bind (V.levelMath hE (hd false) (.inl rfl) (by decide) _) ?_
  refine still_bind (V.assertEnabled (hd false) (.inl rfl) (by decide)) ?_
  refine still_bind (V.assertEnabled (hd true) (.inl rfl) (by decide)) ?_
  refine still_bind (V.assertEnabled (hd true) (.inl rfl) (by decide)) ?_
  refine still_bind (V.assertEnabled (hd true) (.inl rfl) (by decide)) ?_
  refine still_bind (V.assertEnabled (hd true) (.inl rfl) (by decide)) ?_
  refine still_bind (V.levelMath hE (hd true) (.inl rfl) (by decide) _) ?_
  exact (V.assertEnabled (hd true) (.inl rfl) (by decide)).done

theorem Fair.groupDuration (V : Fair S env num now) (hE : OnlyDuplicates E) :
    Pass S E [] (testGroupDuration S) fun _ _ => True := by
  unfold testGroupDuration
  refine V.info (pl := [(b!"outer", .num (decInt 29002000000000)),
    (b!"group", .obj [(b!"inner", .num (decInt 29002000000000))])])
    (V.call rfl rfl (by decide +kernel) rfl rfl) fun i b h => V.logMap h fun m hm => ?_
  have hx := V.nums.ints 29002000000000 (by decide) (by decide)
  refine still_bind (still_require (get_some hm (three_last rfl))) ?_
  rw [field_num hm (k := b!"outer") (three_last rfl) hx]
  refine still_bind (a := ()) ?_ ?_
  · unfold checkOuter
    exact has_bind hE (by decide) (still_require rfl)
  refine still_bind (still_require (get_some hm (three_last rfl))) ?_
  obtain ⟨g, hg, hg'⟩ := field_obj (k := b!"group") (ms' := [(b!"inner", .num (decInt 29002000000000))]) hm (three_last rfl)
  rw [hg]
  refine still_bind (still_require (get_some hg' rfl)) ?_
  rw [field_num hg' (k := b!"inner") rfl hx]
  unfold checkInner
  refine has_bind hE (by decide) ?_
  refine still_bind (still_require rfl) ?_
  refine has_bind hE (by decide) ?_
  exact (still_assert (decide_eq_true rfl)).done

theorem Fair.groupWithTop (V : Fair S env num now) (hE : OnlyDuplicates E) :
    Pass S E [] (testGroupWithTop S) fun _ _ => True := by
  unfold testGroupWithTop
  refine V.info (pl := [(b!"group", .obj [(b!"key", .str b!"value")])])
    (V.call rfl rfl (by decide +kernel) rfl rfl) fun i b h => V.logMap h fun m hm => ?_
  refine has_bind hE (by decide) ?_
  refine still_bind (still_require (get_some hm (three_last rfl))) ?_
  obtain ⟨g, hg, hg'⟩ := field_obj (k := b!"group") (ms' := [(b!"key", .str b!"value")]) hm (three_last rfl)
  rw [hg]
  refine still_bind (still_require (get_some hg' rfl)) ?_
  exact (still_field hg' rfl (.str _)).done

omit [DecidableEq F] in
theorem Fair.timestampFormat (V : Fair S env num now) : Pass S E [] (testTimestampFormat S) fun _ _ => True := by
  unfold testTimestampFormat
  refine V.info V.bare fun i b h => V.logMap h fun m hm => ?_
  refine still_bind (V.count h hm (three_nodup (by decide +kernel) _ _) rfl) ?_
  rw [field_str hm (k := b!"time") (s := env.formatTime defaultTimeFormat (S.clock i).1) rfl]
  refine still_bind (a := S.date (S.clock i).1) ?_ ?_
  · unfold parseTime
    refine still_bind (still_assert rfl) (still_bind (still_assert rfl) ?_)
    show Still S E b (assert (S.parseDate (env.formatTime defaultTimeFormat (S.clock i).1)).isSome >>= fun _ =>
      pure ((S.parseDate (env.formatTime defaultTimeFormat (S.clock i).1)).getD (1, 1, 1))) _
    rw [V.parse i]
    exact still_bind (still_assert rfl) (still_pure _)
  refine now_bind fun j => still_bind (still_assert (by rw [V.day j i]; exact beq_self_eq_true _)) ?_
  refine now_bind fun k => still_bind (still_assert (by rw [V.day k i]; exact beq_self_eq_true _)) ?_
  refine now_bind fun l => (still_assert (by rw [V.day l i]; exact beq_self_eq_true _)).done

/-- The texts of `TestStringEscape`. -/
theorem escape_ok : ∀ e ∈ Map.keys escapeCases, (decide (Utf8.Valid e) && decide (Utf8.Valid ((Map.get escapeCases e).getD []))
    && NoRepl e && NoRepl ((Map.get escapeCases e).getD [])) = true := by decide +kernel

theorem Fair.stringEscape (V : Fair S env num now) : Pass S E [] (testStringEscape S) fun _ _ => True := by
  unfold testStringEscape
  refine pass_each fun e he => ?_
  have := escape_ok e ((V.pick _).mem_iff.1 he)
  generalize (Map.get escapeCases e).getD [] = x at this
  simp only [Bool.and_eq_true, decide_eq_true_eq] at this
  obtain ⟨⟨⟨h1, h2⟩, h3⟩, h4⟩ := this
  have k1 : NoRepl b!"esc" = true := by decide +kernel
  have k2 : NoRepl b!"exp" = true := by decide +kernel
  refine V.info (ops := []) (pl := [(b!"esc", .str e), (b!"exp", .str x)])
    ⟨rfl, rfl, ⟨trivial, Nat.lt_of_le_of_lt (by decide) V.world.stack, ?_, ?_, rfl, rfl⟩, ?_⟩
    fun i b h => V.logMap h fun m hm => ?_
  · exact ⟨⟨by decide, h1⟩, ⟨by decide, h2⟩, trivial⟩
  · exact Nat.lt_of_le_of_lt (Nat.zero_le _) V.world.stack
  · refine ⟨by simp only [fitsMembers, Go.fits, k1, k2, h3, h4, Bool.and_self], ?_, rfl⟩
    intro t ht; simp [numeralsMembers, numerals] at ht
  refine still_bind (V.count h hm ?_ rfl) ?_
  · exact show ([b!"time", b!"level", b!"msg", b!"esc", b!"exp"] : List Bytes).Nodup by decide +kernel
  refine still_bind (still_field hm (three_last rfl) (.str _)) ?_
  refine still_bind (still_field hm (three_last rfl) (.str _)) ?_
  exact pass_reset

end Verif.Verify
