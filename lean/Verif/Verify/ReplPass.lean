import Verif.Verify.OtherPass

/-
The tests of replace.go find nothing wrong with a handler that follows the documentation.
-/

namespace Verif.Verify
open Go Warning Slog Bench Json LogTree Flash

variable {F β : Type} [DecidableEq F] {S : Suite F} {E : Warning → Bool} {b : Bytes} {env : Env} {num : Bytes → Option F}
  {now : Nat}

/-! ### Lists of attributes that are replaced -/

theorem rl_leaf {R : Repl} {gs : List Bytes} {a : Attr} {as : List Attr} {k : Bytes} {v : Value} {t : Tree}
    {y : List (Bytes × Tree)} (h : R.apply gs a = .mk k v) (h1 : (Attr.mk k v).isEmpty = false)
    (h2 : Utf8.Valid k) (h3 : Shown R.env R.layout v t) (hs : RList R gs 0 as y) :
    RList R gs 0 (a :: as) ((k, t) :: y) := .cons (x := [(k, t)]) (.leaf h h1 h2 h3) hs

theorem rl_gone {R : Repl} {gs : List Bytes} {a : Attr} {as : List Attr} {y : List (Bytes × Tree)}
    (h : (R.apply gs a).isEmpty = true) (hs : RList R gs 0 as y) : RList R gs 0 (a :: as) y :=
  .cons (x := []) (.gone h) hs

/-- A string. -/
theorem rl_str {R : Repl} {gs : List Bytes} {a : Attr} {as : List Attr} {k : Bytes} {s : Bytes}
    {y : List (Bytes × Tree)} (h : R.apply gs a = .mk k (.string s)) (h2 : decide (Utf8.Valid k) = true)
    (h3 : decide (Utf8.Valid s) = true) (hs : RList R gs 0 as y) : RList R gs 0 (a :: as) ((k, .str s) :: y) :=
  rl_leaf h (by simp [Attr.isEmpty]) (of_decide_eq_true h2) ⟨show Utf8.Valid s from of_decide_eq_true h3, rfl⟩ hs

/-- A number. -/
theorem rl_float {R : Repl} {gs : List Bytes} {a : Attr} {as : List Attr} {k : Bytes} {i : Bool} {n : Nat}
    {d : List (Fin 10)} {y : List (Bytes × Tree)} (h : R.apply gs a = .mk k (.float64 (.fin i n d)))
    (h2 : decide (Utf8.Valid k) = true) (hs : RList R gs 0 as y) :
    RList R gs 0 (a :: as) ((k, .num (F64.fin i n d).text) :: y) :=
  rl_leaf h (by simp [Attr.isEmpty]) (of_decide_eq_true h2) ⟨trivial, rfl⟩ hs

/-! ### Logging -/

omit [DecidableEq F] in
/-- Logging through a replacement function. -/
theorem Fair.logRepl (V : Fair S env num now) {o : RawOptions} {fn : AttrFn} {ops : List Op} {as : List Attr}
    {bm : Nat → List (Bytes × Tree)} {pl : List (Bytes × Tree)} (ho : o.replace = some fn)
    (hv : o.level = some fun _ => levelInfo)
    (C : ∀ n, ClearRepl env fn o.addSource ops
      ⟨some (S.clock n).1, levelInfo, Verify.message, (S.clock n).2, recordAttrs as⟩ (bm n) pl)
    (T : ∀ n, Tidy (bm n)) (T' : Tidy pl) {f : Unit → Run β} {R : β → Bytes → Prop}
    (hf : ∀ i b, Line num b (bm i ++ pl) → Pass S E b (f ()) R) :
    Pass S E [] (Verify.info S ⟨o, ops⟩ as >>= f) R := by
  refine pass_bind (Q := fun _ b => ∃ i, Line num b (bm i ++ pl)) ?_ ?_
  · unfold Verify.info Verify.log
    have hd : Derivable env o ops := .inr ⟨fn, _, pl, ho, (C 0).attrs⟩
    refine still_bind (V.enabled hd (.inl hv) levelInfo) ?_
    rw [decide_eq_true (Int.le_refl levelInfo)]
    refine tick_bind fun n => ?_
    refine (pass_emit _).mono ?_
    rintro _ b' rfl
    obtain ⟨t, h1, h2⟩ := V.sut.replaced n o fn ops false
      ⟨some (S.clock n).1, levelInfo, Verify.message, (S.clock n).2, recordAttrs as⟩ (bm n) pl ho (C n)
    refine ⟨n, ?_⟩
    rw [h1, List.nil_append]
    have T2 := (T n).append T'
    exact V.line h2 T2.fits T2.nums T2.names
  · rintro _ b ⟨i, h⟩
    exact hf i b h

/-- The function leaves time, level and message. -/
def Leaves (fn : AttrFn) : Prop :=
  (∀ t, fn [] (.mk b!"time" (.time t)) = .mk b!"time" (.time t)) ∧
  (∀ s, fn [] (.mk b!"level" (.string s)) = .mk b!"level" (.string s)) ∧
  ∀ s, fn [] (.mk b!"msg" (.string s)) = .mk b!"msg" (.string s)

omit [DecidableEq F] in
theorem Fair.threeRepl (V : Fair S env num now) {fn : AttrFn} (n : Nat) (h : Leaves fn) (gs : List Bytes) (as : List Attr) :
    RList (replOf env plainExtras fn) gs 0
      (basicAttrs env plainExtras false ⟨some (S.clock n).1, levelInfo, Verify.message, (S.clock n).2, as⟩)
      (three env (S.clock n).1 b!"INFO") := by
  refine rl_leaf (h.1 _) rfl (by decide) ⟨(V.world.time n).1, rfl⟩ ?_
  refine rl_str (h.2.1 _) (by decide) (by decide) ?_
  exact rl_str (h.2.2 _) (by decide) (by decide) .nil

omit [DecidableEq F] in
theorem Fair.infoTidy (V : Fair S env num now) (i : Nat) : Tidy (three env (S.clock i).1 b!"INFO") :=
  V.three_tidy i (by simp [levelNames])

theorem Fair.replaceAttr (V : Fair S env num now) (hE : OnlyDuplicates E) :
    Pass S E [] (testReplaceAttr S) fun _ _ => True := by
  unfold testReplaceAttr
  refine V.logRepl (fn := replAlpha S.L) (bm := fun n => three env (S.clock n).1 b!"INFO")
    (pl := [(b!"alpha", .str b!"omega"), (b!"bravo", .str b!"my key")]) rfl rfl
    (fun n => ⟨V.threeRepl n ⟨fun _ => rfl, fun _ => rfl, fun _ => rfl⟩ _ _, ?_⟩) V.infoTidy (.of (by decide +kernel))
    fun i b h => V.logMap h fun m hm => ?_
  · refine rl_str rfl (by decide) (by decide) ?_
    refine rl_str (s := b!"my key") ?_ (by decide) (by decide) ?_
    · show Attr.mk b!"bravo" (.string (S.L.valueString (.string b!"my key"))) = _
      rw [V.string]
    exact rl_gone rfl .nil
  refine has_bind hE (by decide) ?_
  refine still_bind (still_field hm (three_last rfl) (.str _)) ?_
  refine still_bind (still_field hm (three_last rfl) (.str _)) ?_
  refine still_bind (still_assert (by rw [field_none hm rfl]; rfl)) ?_
  unfold replCount
  refine has_bind hE (by decide) ?_
  exact (V.count h hm (three_nodup (by decide +kernel) _ _) rfl).done

theorem Fair.replaceAttrBasic (V : Fair S env num now) (hE : OnlyDuplicates E) :
    Pass S E [] (testReplaceAttrBasic S) fun _ _ => True := by
  unfold testReplaceAttrBasic
  refine V.logRepl (fn := replBasic S.L)
    (bm := fun _ => [(b!"level", .str b!"Tilted"), (b!"Message", .str Verify.message), (b!"source", .str b!"all knowledge")])
    (ops := []) (as := []) (pl := []) rfl rfl (fun n => ⟨?_, RList.nil⟩) (fun _ => .of (by decide +kernel)) (.of (by decide +kernel))
    fun i b h => V.logMap h fun m hm => ?_
  · have e : basicAttrs env plainExtras true
        ⟨some (S.clock n).1, levelInfo, Verify.message, (S.clock n).2, recordAttrs []⟩ =
        [.mk b!"time" (.time (S.clock n).1), .mk b!"level" (.string b!"INFO"), .mk b!"msg" (.string Verify.message),
          .mk b!"source" (.any (.obj (sourceObj env (S.clock n).2)))] := by
      have hc : ((S.clock n).2 != 0) = true := by simpa using V.world.caller n
      unfold basicAttrs
      dsimp only
      rw [hc]
      rfl
    rw [e]
    refine rl_gone rfl ?_
    refine rl_str rfl (by decide) (by decide) ?_
    refine rl_str (s := Verify.message) ?_ (by decide) (by decide) ?_
    · show Attr.mk b!"Message" (.string (S.L.valueString (.string Verify.message))) = _
      rw [V.string]
    exact rl_str rfl (by decide) (by decide) .nil
  refine hasAny_bind hE (by decide) ?_
  unfold checkBasicRepl
  refine still_bind (V.count h hm (by decide +kernel) rfl) ?_
  refine still_bind (still_assert (by rw [field_none hm rfl]; rfl)) ?_
  refine still_bind (still_field hm rfl (.str _)) ?_
  refine still_bind (still_field hm rfl (.str _)) ?_
  exact (still_field hm rfl (.str _)).done

theorem Fair.replaceAttrGroup (V : Fair S env num now) (hE : OnlyDuplicates E) :
    Pass S E [] (testReplaceAttrGroup S) fun _ _ => True := by
  unfold testReplaceAttrGroup
  refine has_bind hE (by decide) ?_
  have fl : ∀ x ∈ [sqrtPi64, sqrtE64, phi64, F64.fin false 23 [7, 9], F64.fin false 23 [7]],
    IsAny num (.num x.text) (.num (S.N.ofF64 x)) := fun x hx => .num (V.floats x hx)
  let sub : List (Bytes × Tree) := [(b!"echo", .num sqrtPi64.text), (b!"foxtrot", .num sqrtE64.text)]
  let grp : List (Bytes × Tree) := [(b!"charlie", .num e64.text), (b!"subGroup", .obj sub)]
  refine V.logRepl (fn := replGroup) (bm := fun n => three env (S.clock n).1 b!"INFO")
    (ops := groupLogger.ops) (as := [.mk b!"golf" (.int64 7), .mk b!"hotel" (.int64 8)])
    (pl := [(b!"alpha", .num pi64.text), (b!"group", .obj grp)]) rfl rfl
    (fun n => ⟨V.threeRepl n ⟨fun _ => rfl, fun _ => rfl, fun _ => rfl⟩ _ _, ?_⟩) V.infoTidy (.of (by decide +kernel))
    fun i b h => V.logMap h fun m hm => ?_
  · refine ⟨[(b!"alpha", .num pi64.text)], _, rl_float rfl (by decide) (rl_gone rfl .nil), ?_, rfl⟩
    refine ⟨by decide, grp, ?_, rfl⟩
    refine ⟨[(b!"charlie", .num e64.text)], _, rl_float rfl (by decide) (rl_gone rfl .nil), ?_, rfl⟩
    refine ⟨by decide, sub, ?_, rfl⟩
    refine ⟨sub, [], rl_float rfl (by decide) (rl_float rfl (by decide) .nil), ?_, rfl⟩
    exact rl_gone rfl (rl_gone rfl .nil)
  refine has_bind hE (by decide) (has_bind hE (by decide) (has_bind hE (by decide) (has_bind hE (by decide) ?_)))
  refine (still_assert ?_).done
  have e : IsAny num (.obj [(b!"level", .str b!"INFO"), (b!"msg", .str Verify.message), (b!"alpha", .num pi64.text),
      (b!"group", .obj grp)]) (.map (groupExpected S.N)) := by
    refine isAny_zip (show ([b!"level", b!"msg", b!"alpha", b!"group"] : List Bytes).Nodup by decide +kernel) ?_
    refine zip_cons (.str _) (zip_cons (.str _) (zip_cons V.piAny (zip_cons ?_ .nil)))
    refine isAny_zip (show ([b!"charlie", b!"subGroup"] : List Bytes).Nodup by decide +kernel) ?_
    refine zip_cons (.num V.nums.e) (zip_cons ?_ .nil)
    refine isAny_zip (show ([b!"echo", b!"foxtrot"] : List Bytes).Nodup by decide +kernel) ?_
    exact zip_cons (fl _ (by simp)) (zip_cons (fl _ (by simp)) .nil)
  exact deep_of e (isAny_del hm b!"time")

omit [DecidableEq F] in
theorem Fair.replaceLevelCase (V : Fair S env num now) (hE : OnlyDuplicates E) :
    Pass S E [] (testReplaceAttrFnLevelCase S) fun _ _ => True := by
  unfold testReplaceAttrFnLevelCase
  refine has_bind hE (by decide) ?_
  refine V.info V.bare fun i b h => V.logMap h fun m hm => ?_
  rw [field_str hm (k := b!"level") (s := b!"INFO") rfl]
  refine still_bind (still_require rfl) (still_bind (still_assert rfl) (reset_bind ?_))
  refine V.logRepl (fn := Replace.changeCase S.L b!"level" 1 false (some Replace.topCheck))
    (bm := fun n => three env (S.clock n).1 b!"info") (ops := []) (as := []) (pl := []) rfl rfl (fun n => ⟨?_, RList.nil⟩) (fun n => ?_)
    (.of (by decide +kernel)) fun i b h => V.logMap h fun m hm => ?_
  · refine rl_leaf (k := b!"time") (v := .time (S.clock n).1) rfl rfl (by decide) ⟨(V.world.time n).1, rfl⟩ ?_
    refine rl_str (s := b!"info") ?_ (by decide) (by decide) ?_
    · show Attr.mk b!"level" (.string (S.L.toLower (S.L.valueString (.string b!"INFO")))) = _
      rw [V.string, V.lowerInfo]
    exact rl_str rfl (by decide) (by decide) .nil
  · have T := V.infoTidy n
    refine ⟨?_, T.nums, T.names⟩
    have k : NoRepl b!"info" = true := by decide +kernel
    have := T.fits
    simp only [three, fitsMembers, Go.fits, Bool.and_eq_true] at this ⊢
    exact ⟨this.1, ⟨this.2.1.1, k⟩, this.2.2⟩
  rw [field_str hm (k := b!"level") (s := b!"info") rfl]
  refine still_bind (still_require rfl) ?_
  exact hasAny_bind hE (by decide) (still_assert rfl).done

theorem Fair.replaceEmptyKey (V : Fair S env num now) (hE : OnlyDuplicates E) :
    Pass S E [] (testReplaceAttrFnRemoveEmptyKey S) fun _ _ => True := by
  unfold testReplaceAttrFnRemoveEmptyKey
  refine hasAny_bind hE (by decide) ?_
  refine V.info (pl := [([], .str b!"garbage")]) (V.call rfl rfl (by decide +kernel) rfl rfl)
    fun i b h => V.logMap h fun m hm => ?_
  refine still_bind (still_require (get_some hm (three_last rfl))) ?_
  refine still_bind (still_require (field_eq hm (three_last rfl) (.str _))) (reset_bind ?_)
  refine V.logRepl (fn := Replace.removeKey S.L [] false (some Replace.topCheck))
    (bm := fun n => three env (S.clock n).1 b!"INFO") (ops := []) (as := [aNone]) (pl := []) rfl rfl
    (fun n => ⟨V.threeRepl n ⟨fun _ => rfl, fun _ => rfl, fun _ => rfl⟩ _ _, rl_gone rfl .nil⟩) V.infoTidy
    (.of (by decide +kernel)) fun i b h => V.logMap h fun m hm => ?_
  refine has_bind hE (by decide) ?_
  unfold checkNoBlank
  refine has_bind hE (by decide) ?_
  refine still_bind (still_assert ?_) ?_
  · rw [map_length hm (three_nodup (by decide +kernel) _ _)]; rfl
  exact (still_assert (by rw [get_none hm rfl]; rfl)).done

omit [DecidableEq F] in
theorem Fair.replaceChangeKey (V : Fair S env num now) : Pass S E [] (testReplaceAttrFnChangeKey S) fun _ _ => True := by
  unfold testReplaceAttrFnChangeKey
  refine V.info V.bare fun i b h => V.logMap h fun m hm => ?_
  rw [get_none hm (k := b!"message") rfl]
  exact pass_pure _ trivial

omit [DecidableEq F] in
theorem Fair.replaceTime (V : Fair S env num now) (hE : OnlyDuplicates E) :
    Pass S E [] (testReplaceAttrFnRemoveTime S) fun _ _ => True := by
  unfold testReplaceAttrFnRemoveTime
  refine V.info V.bare fun i b h => V.logMap h fun m hm => ?_
  refine still_bind (still_require ?_) ?_
  · rw [map_length hm (three_nodup (by decide +kernel) _ _)]; rfl
  refine still_bind (still_require (get_some hm (t := .str (env.formatTime defaultTimeFormat (S.clock i).1)) rfl)) ?_
  refine still_bind (still_assert ?_) (reset_bind ?_)
  · rw [field_str hm (k := b!"time") (s := env.formatTime defaultTimeFormat (S.clock i).1) rfl]; rfl
  refine V.logRepl (fn := Replace.removeKey S.L b!"time" false (some Replace.topCheck))
    (bm := fun _ => [(b!"level", .str b!"INFO"), (b!"msg", .str Verify.message)]) (ops := []) (as := []) (pl := []) rfl rfl
    (fun n => ⟨?_, RList.nil⟩) (fun _ => .of (by decide +kernel))
    (.of (by decide +kernel)) fun i b h => V.logMap h fun m hm => ?_
  · exact rl_gone rfl (rl_str rfl (by decide) (by decide) (rl_str rfl (by decide) (by decide) .nil))
  refine hasAny_bind hE (by decide) ?_
  unfold checkTimeGone
  refine has_bind hE (by decide) ?_
  refine still_bind (still_require ?_) ?_
  · rw [map_length hm (by decide +kernel)]; rfl
  exact (still_assert (by rw [field_none hm rfl]; rfl)).done

/-- The members of the innermost group of `TestReplaceAttrFnMulti`. -/
def moreMembers : List (Bytes × Tree) :=
  [(b!"alpha", .str b!"omega"), (b!"gibbering", .str b!"moontic"), (b!"phi", .num phi64.text)]

/-- The members of its subgroup. -/
def subMembers : List (Bytes × Tree) :=
  [(b!"la la la", .str b!"omega"), (b!"goober", .str b!"snoofus"), (b!"e", .num e64.text), (b!"oneMore", .obj moreMembers)]

/-- The members of its group. -/
def groupMembers : List (Bytes × Tree) :=
  [(b!"alpha", .str b!"OMEGA"), (b!"pi", .num pi64.text), (b!"subGroup", .obj subMembers)]

/-- All members. -/
def multiMembers : List (Bytes × Tree) :=
  [(b!"level", .str b!"INFO"), (b!"msg", .str Verify.message), (b!"group", .obj groupMembers)]

set_option maxRecDepth 100000 in
/-- The text the test compares with. -/
theorem multi_text : ∃ c, Json.parse multiText = some c ∧ c.decode = some (.obj multiMembers) := by
  let more : Cst := .obj [(b!"alpha", .str b!"omega"), (b!"gibbering", .str b!"moontic"), (b!"phi", .num b!"1.618033988749895")]
  let sub : Cst := .obj [(b!"la la la", .str b!"omega"), (b!"goober", .str b!"snoofus"), (b!"e", .num b!"2.718281828459045"),
    (b!"oneMore", more)]
  let grp : Cst := .obj [(b!"alpha", .str b!"OMEGA"), (b!"pi", .num b!"3.141592653589793"), (b!"subGroup", sub)]
  refine ⟨.obj [(b!"level", .str b!"INFO"), (b!"msg", .str Verify.message), (b!"group", grp)], by rfl, ?_⟩
  have h1 : phi64.text = b!"1.618033988749895" := by decide +kernel
  have h2 : e64.text = b!"2.718281828459045" := by decide +kernel
  have h3 : pi64.text = b!"3.141592653589793" := by decide +kernel
  rw [multiMembers, groupMembers, subMembers, moreMembers, h1, h2, h3]
  rfl

theorem Fair.replaceMulti (V : Fair S env num now) (hE : OnlyDuplicates E) :
    Pass S E [] (testReplaceAttrFnMulti S) fun _ _ => True := by
  unfold testReplaceAttrFnMulti
  refine V.logRepl (fn := replMulti S.L) (ops := (multiReplLogger S.L).ops)
    (bm := fun _ => [(b!"level", .str b!"INFO"), (b!"msg", .str Verify.message)]) (pl := [(b!"group", .obj groupMembers)]) rfl rfl
    (fun n => ⟨?_, ?_⟩) (fun _ => .of (by decide +kernel))
    (.of (by decide +kernel)) fun i b h => V.logMap h fun m hm => ?_
  · exact rl_gone rfl (rl_str rfl (by decide) (by decide) (rl_str rfl (by decide) (by decide) .nil))
  · refine ⟨by decide, groupMembers, ?_, rfl⟩
    refine ⟨[(b!"alpha", .str b!"OMEGA"), (b!"pi", .num pi64.text)], _, ?_, ?_, rfl⟩
    · refine rl_str ?_ (by decide) (by decide) (rl_float rfl (by decide) .nil)
      show Attr.mk b!"alpha" (.string (S.L.toUpper (S.L.valueString (.string b!"omega")))) = _
      rw [V.string, V.upperOmega]
    refine ⟨by decide, subMembers, ?_, rfl⟩
    refine ⟨[(b!"la la la", .str b!"omega"), (b!"goober", .str b!"snoofus"), (b!"e", .num e64.text)], _, ?_, ?_, rfl⟩
    · exact rl_str rfl (by decide) (by decide) (rl_str rfl (by decide) (by decide) (rl_float rfl (by decide) .nil))
    refine ⟨by decide, moreMembers, ?_, rfl⟩
    refine ⟨moreMembers, [], ?_, .nil, rfl⟩
    refine rl_str rfl (by decide) (by decide) (rl_str ?_ (by decide) (by decide) (rl_float rfl (by decide) .nil))
    show Attr.mk b!"gibbering" (.string (replaceAll b!"luna" b!"moon" 0 (S.L.valueString (.string b!"lunatic")))) = _
    rw [V.string]
    rfl
  refine hasAny_bind hE (by decide) ?_
  refine (still_assert ?_).done
  obtain ⟨c, hc, hd⟩ := multi_text
  obtain ⟨e, h1, h2⟩ := V.reads hc hd (.of (by decide +kernel))
  rw [expect, h1]
  exact deep_of h2 hm

end Verif.Verify
