import Verif.Verify.Pass
import Verif.Flash.Ideal

/-
The tests of slogtest.go find nothing wrong with a handler that follows the documentation.
-/

namespace Verif.Verify
open Go Warning Slog Bench Json LogTree Flash

mutual
/-- A value the tests use that can be printed whatever the surroundings. -/
def easyVal : Value → Bool
  | .string s => decide (Utf8.Valid s)
  | .float64 (.fin _ _ _) => true
  | .int64 _ => true
  | .uint64 _ => true
  | .bool _ => true
  | .duration _ => true
  | .any .nil => true
  | .group as => easyList as
  | .logValuer _ (.string s) => decide (Utf8.Valid s)
  | _ => false
/-- The same for an attribute. -/
def easyAttr : Attr → Bool
  | .mk k v => decide (Utf8.Valid k) && easyVal v
/-- The same for attributes. -/
def easyList : List Attr → Bool
  | [] => true
  | a :: as => easyAttr a && easyList as
end

/-- The same for derivations. -/
def easyOps : List Op → Bool
  | [] => true
  | .attrs as :: ops => easyList as && easyOps ops
  | .group n :: ops => decide (decodeBody n = some n) && easyOps ops

mutual
theorem easyVal_clean {env : Env} (he : EnvClean env) (layout k : Bytes) : ∀ v, easyVal v = true → ValClean env layout k v
  | .string s, h => by simp only [easyVal, decide_eq_true_eq] at h; exact h
  | .float64 (.fin _ _ _), _ => trivial
  | .float64 .nan, h => by simp [easyVal] at h
  | .float64 .posInf, h => by simp [easyVal] at h
  | .float64 .negInf, h => by simp [easyVal] at h
  | .int64 _, _ => trivial
  | .uint64 _, _ => trivial
  | .bool _, _ => trivial
  | .duration _, _ => trivial
  | .any .nil, _ => trivial
  | .any (.obj _), h => by simp [easyVal] at h
  | .group as, h => by
    simp only [easyVal] at h
    simp only [ValClean]
    exact easyList_clean he layout as h
  | .time _, h => by simp [easyVal] at h
  | .logValuer _ (.string s), h => by
    simp only [easyVal, decide_eq_true_eq] at h
    exact ⟨⟨_, he s h⟩, by simp [Value.resolve, Attr.isEmpty]⟩
  | .logValuer _ (.any _), h => by simp [easyVal] at h
  | .logValuer _ (.bool _), h => by simp [easyVal] at h
  | .logValuer _ (.int64 _), h => by simp [easyVal] at h
  | .logValuer _ (.uint64 _), h => by simp [easyVal] at h
  | .logValuer _ (.float64 _), h => by simp [easyVal] at h
  | .logValuer _ (.duration _), h => by simp [easyVal] at h
  | .logValuer _ (.time _), h => by simp [easyVal] at h
  | .logValuer _ (.group _), h => by simp [easyVal] at h
  | .logValuer _ (.logValuer _ _), h => by simp [easyVal] at h
theorem easyAttr_clean {env : Env} (he : EnvClean env) (layout : Bytes) : ∀ a, easyAttr a = true → AttrClean env layout a
  | .mk k v, h => by
    simp only [easyAttr, Bool.and_eq_true, decide_eq_true_eq] at h
    exact ⟨h.1, easyVal_clean he layout k v h.2⟩
theorem easyList_clean {env : Env} (he : EnvClean env) (layout : Bytes) : ∀ as, easyList as = true → ListClean env layout as
  | [], _ => trivial
  | a :: as, h => by
    simp only [easyList, Bool.and_eq_true] at h
    exact ⟨easyAttr_clean he layout a h.1, easyList_clean he layout as h.2⟩
end

theorem easyOps_clean {env : Env} (he : EnvClean env) (layout : Bytes) : ∀ ops, easyOps ops = true → OpsClean env layout ops
  | [], _ => trivial
  | .attrs as :: ops, h => by
    simp only [easyOps, Bool.and_eq_true] at h
    exact ⟨easyList_clean he layout as h.1, easyOps_clean he layout ops h.2⟩
  | .group n :: ops, h => by
    simp only [easyOps, Bool.and_eq_true, decide_eq_true_eq] at h
    exact ⟨h.1, easyOps_clean he layout ops h.2⟩

variable {F β : Type} [DecidableEq F] {S : Suite F} {E : Warning → Bool} {b : Bytes} {env : Env} {num : Bytes → Option F}
  {now : Nat}

/-- Everything about the derivations and attributes that can be computed. -/
def easy (ops : List Op) (as : List Attr) (pl : List (Bytes × Tree)) : Bool :=
  easyOps ops && easyList (recordAttrs as) && decide (opsDepth ops ≤ 6) && decide (listDepth (recordAttrs as) ≤ 6) && tidy pl

omit [DecidableEq F] in
theorem Fair.call (V : Fair S env num now) {o : RawOptions} {ops : List Op} {as : List Attr} {pl : List (Bytes × Tree)}
    (hr : o.replace = none) (hs : o.addSource = false) (h : easy ops as pl = true)
    (hi : placeIdeal env defaultTimeFormat .ideal ops (recordAttrs as) = some pl)
    (hp : place env defaultTimeFormat .viaAny ops (recordAttrs as) = some pl) : Call env o ops as pl := by
  simp only [easy, Bool.and_eq_true, decide_eq_true_eq] at h
  obtain ⟨⟨⟨⟨h1, h2⟩, h3⟩, h4⟩, h5⟩ := h
  exact ⟨hr, hs, ⟨easyOps_clean V.world.clean _ _ h1, Nat.lt_of_le_of_lt h3 V.world.stack, easyList_clean V.world.clean _ _ h2,
    Nat.lt_of_le_of_lt h4 V.world.stack, hi, hp⟩, .of h5⟩

/-- No two members of the same name. -/
def distinct (pl : List (Bytes × Tree)) : Bool :=
  decide ((b!"time" :: b!"level" :: b!"msg" :: pl.map Prod.fst).Nodup)

theorem three_nodup {pl : List (Bytes × Tree)} (h : distinct pl = true) (t : Nat) (name : Bytes) :
    ((three env t name ++ pl).map Prod.fst).Nodup := by
  rw [distinct, decide_eq_true_eq] at h
  exact h

theorem three_last {pl : List (Bytes × Tree)} {t : Nat} {name k : Bytes} {v : Tree} (h : lastOf pl k = some v) :
    lastOf (three env t name ++ pl) k = some v := by
  rw [lastOf_append, h]; rfl

omit [DecidableEq F] in
theorem Fair.two (V : Fair S env num now) : IsAny num (.num (decInt 2)) (.num (S.N.ofInt 2)) :=
  .num (V.nums.ints _ (by decide) (by decide))

omit [DecidableEq F] in
theorem Fair.piAny (V : Fair S env num now) : IsAny num (.num pi64.text) (.num (S.N.ofF64 pi64)) := .num V.nums.pi


/-! ### The tests -/

/-- Members for `first`, `second` and `pi`. -/
abbrev mFirst : Bytes × Tree := (b!"first", .str b!"one")
/-- See `mFirst`. -/
abbrev mSecond : Bytes × Tree := (b!"second", .num (decInt 2))
/-- See `mFirst`. -/
abbrev mThird : Bytes × Tree := (b!"third", .str b!"3")
/-- See `mFirst`. -/
abbrev mFourth : Bytes × Tree := (b!"fourth", .str b!"forth")
/-- See `mFirst`. -/
abbrev mPi : Bytes × Tree := (b!"pi", .num pi64.text)

theorem still_three (V : Fair S env num now) {ms : List (Bytes × Tree)} {m : AMap F} (hm : IsAny num (.obj ms) (.map m))
    (h2 : lastOf ms b!"second" = some (.num (decInt 2))) (h3 : lastOf ms b!"third" = some (.str b!"3"))
    (h4 : lastOf ms b!"fourth" = some (.str b!"forth")) : Still S E b (checkThree S m) () :=
  still_bind (still_field hm h2 V.two) (still_bind (still_field hm h3 (.str _)) (still_field hm h4 (.str _)))

theorem Fair.attributes (V : Fair S env num now) : Pass S E [] (testAttributes S) fun _ _ => True := by
  unfold testAttributes
  refine V.info (pl := [mFirst, mSecond, mPi])
    (V.call rfl rfl (by decide +kernel) rfl rfl) fun i b h => V.logMap h fun m hm => ?_
  refine still_bind (V.count h hm (three_nodup (by decide +kernel) _ _) rfl) ?_
  refine still_bind (still_field hm (three_last rfl) (.str _)) ?_
  refine still_bind (still_field hm (three_last rfl) V.two) ?_
  exact (still_field hm (three_last rfl) V.piAny).done

theorem Fair.attributesEmpty (V : Fair S env num now) (hE : OnlyDuplicates E) :
    Pass S E [] (testAttributesEmpty S) fun _ _ => True := by
  unfold testAttributesEmpty
  refine V.info (pl := [mFirst, mPi])
    (V.call rfl rfl (by decide +kernel) rfl rfl) fun i b h => V.logMap h fun m hm => ?_
  refine still_bind (still_field hm (three_last rfl) (.str _)) ?_
  refine still_bind (still_field hm (three_last rfl) V.piAny) ?_
  exact (V.noBlank hE h hm (three_nodup (by decide +kernel) _ _) rfl rfl).done

theorem Fair.attributesNotEmpty (V : Fair S env num now) (hE : OnlyDuplicates E) :
    Pass S E [] (testAttributesNotEmpty S) fun _ _ => True := by
  unfold testAttributesNotEmpty
  refine V.info (pl := [mFirst, ([], .str notNil), mPi])
    (V.call rfl rfl (by decide +kernel) rfl rfl) fun i b h => V.logMap h fun m hm => ?_
  refine still_bind (still_field hm (three_last rfl) (.str _)) ?_
  refine still_bind (still_field hm (three_last rfl) V.piAny) ?_
  refine has_bind hE (by decide) ?_
  refine still_bind (still_assert (get_some hm (three_last rfl))) ?_
  exact (still_field hm (three_last rfl) (.str _)).done

theorem Fair.attributesWith (V : Fair S env num now) : Pass S E [] (testAttributesWith S) fun _ _ => True := by
  unfold testAttributesWith
  refine V.info (pl := [mFirst, mSecond, mPi])
    (V.call rfl rfl (by decide +kernel) rfl rfl) fun i b h => V.logMap h fun m hm => ?_
  refine still_bind (V.count h hm (three_nodup (by decide +kernel) _ _) rfl) ?_
  refine still_bind (still_field hm (three_last rfl) (.str _)) ?_
  refine still_bind (still_field hm (three_last rfl) V.two) ?_
  exact (still_field hm (three_last rfl) V.piAny).done

theorem Fair.attributesWithEmpty (V : Fair S env num now) (hE : OnlyDuplicates E) :
    Pass S E [] (testAttributesWithEmpty S) fun _ _ => True := by
  unfold testAttributesWithEmpty
  refine V.info (pl := [mFirst, mSecond, mPi])
    (V.call rfl rfl (by decide +kernel) rfl rfl) fun i b h => V.logMap h fun m hm => ?_
  refine still_bind (still_field hm (three_last rfl) (.str _)) ?_
  refine still_bind (still_field hm (three_last rfl) V.two) ?_
  refine still_bind (still_field hm (three_last rfl) V.piAny) ?_
  exact (V.noBlank hE h hm (three_nodup (by decide +kernel) _ _) rfl rfl).done

theorem Fair.attributesWithNotEmpty (V : Fair S env num now) (hE : OnlyDuplicates E) :
    Pass S E [] (testAttributesWithNotEmpty S) fun _ _ => True := by
  unfold testAttributesWithNotEmpty
  refine V.info (pl := [mFirst, mSecond, ([], .str notNil), mPi])
    (V.call rfl rfl (by decide +kernel) rfl rfl) fun i b h => V.logMap h fun m hm => ?_
  refine has_bind hE (by decide) ?_
  refine still_bind (V.count h hm (three_nodup (by decide +kernel) _ _) rfl) ?_
  refine still_bind (still_assert (get_some hm (three_last rfl))) ?_
  refine still_bind (still_field hm (three_last rfl) (.str _)) ?_
  refine still_bind (still_field hm (three_last rfl) (.str _)) ?_
  refine still_bind (still_field hm (three_last rfl) V.two) ?_
  exact (still_field hm (three_last rfl) V.piAny).done

theorem Fair.group (V : Fair S env num now) : Pass S E [] (testGroup S) fun _ _ => True := by
  unfold testGroup
  refine V.info (pl := [mFirst, (b!"group", .obj [mSecond, mThird, mFourth]), mPi])
    (V.call rfl rfl (by decide +kernel) rfl rfl) fun i b h => V.logMap h fun m hm => ?_
  refine still_bind (V.count h hm (three_nodup (by decide +kernel) _ _) rfl) ?_
  refine still_bind (still_field hm (three_last rfl) (.str _)) ?_
  obtain ⟨g, hg, hg'⟩ := field_obj (k := b!"group") (ms' := [mSecond, mThird, mFourth]) hm (three_last rfl)
  rw [hg]
  refine still_bind (still_assert ?_) ?_
  · rw [map_length hg' (by decide +kernel)]; rfl
  refine still_bind (still_three V hg' rfl rfl rfl) ?_
  exact (still_field hm (three_last rfl) V.piAny).done

omit [DecidableEq F] in
theorem Fair.groupEmpty (V : Fair S env num now) (hE : OnlyDuplicates E) :
    Pass S E [] (testGroupEmpty S) fun _ _ => True := by
  unfold testGroupEmpty
  refine V.info (pl := []) (V.call rfl rfl (by decide +kernel) rfl rfl) fun i b h => V.logMap h fun m hm => ?_
  refine has_bind hE (by decide) ?_
  refine still_bind (V.count h hm (three_nodup (by decide +kernel) _ _) rfl) ?_
  refine (still_assert ?_).done
  rw [get_none hm rfl]; rfl

omit [DecidableEq F] in
theorem Fair.withGroupEmpty (V : Fair S env num now) (hE : OnlyDuplicates E) :
    Pass S E [] (testWithGroupEmpty S) fun _ _ => True := by
  unfold testWithGroupEmpty
  refine V.info (pl := []) (V.call rfl rfl (by decide +kernel) rfl rfl) fun i b h => V.logMap h fun m hm => ?_
  refine has_bind hE (by decide) ?_
  refine still_bind (V.count h hm (three_nodup (by decide +kernel) _ _) rfl) ?_
  refine (still_assert ?_).done
  rw [get_none hm rfl]; rfl

theorem Fair.inline (V : Fair S env num now) (hE : OnlyDuplicates E) {i : Nat} {m : AMap F}
    (h : Line num b (three env (S.clock i).1 b!"INFO" ++ [mFirst, mSecond, mThird, mFourth, mPi]))
    (hm : IsAny num (.obj (three env (S.clock i).1 b!"INFO" ++ [mFirst, mSecond, mThird, mFourth, mPi])) (.map m)) :
    Still S E b (checkInline S m) () := by
  unfold checkInline
  refine still_bind (still_field hm (three_last rfl) (.str _)) ?_
  refine still_bind (still_field hm (three_last rfl) V.piAny) ?_
  refine has_bind hE (by decide) ?_
  refine still_bind (V.count h hm (three_nodup (by decide +kernel) _ _) rfl) ?_
  exact still_three V hm (three_last rfl) (three_last rfl) (three_last rfl)

theorem Fair.groupInline (V : Fair S env num now) (hE : OnlyDuplicates E) :
    Pass S E [] (testGroupInline S) fun _ _ => True := by
  unfold testGroupInline
  refine V.info (pl := [mFirst, mSecond, mThird, mFourth, mPi])
    (V.call rfl rfl (by decide +kernel) rfl rfl) fun i b h => V.logMap h fun m hm => ?_
  exact (V.inline hE h hm).done

theorem Fair.withGroupInline (V : Fair S env num now) (hE : OnlyDuplicates E) :
    Pass S E [] (testWithGroupInline S) fun _ _ => True := by
  unfold testWithGroupInline
  refine V.info (pl := [mFirst, mSecond, mThird, mFourth, mPi])
    (V.call rfl rfl (by decide +kernel) rfl rfl) fun i b h => V.logMap h fun m hm => ?_
  exact (V.inline hE h hm).done

theorem Fair.groupWith (V : Fair S env num now) : Pass S E [] (testGroupWith S) fun _ _ => True := by
  unfold testGroupWith
  refine V.info (pl := [(b!"group", .obj [mFirst, mPi])])
    (V.call rfl rfl (by decide +kernel) rfl rfl) fun i b h => V.logMap h fun m hm => ?_
  refine still_bind (V.count h hm (three_nodup (by decide +kernel) _ _) rfl) ?_
  obtain ⟨g, hg, hg'⟩ := field_obj (k := b!"group") (ms' := [mFirst, mPi]) hm (three_last rfl)
  rw [hg]
  refine still_bind (still_assert ?_) ?_
  · rw [map_length hg' (by decide +kernel)]; rfl
  refine still_bind (still_field hg' rfl (.str _)) ?_
  exact (still_field hg' rfl V.piAny).done

omit [DecidableEq F] in
/-- Expected maps. -/
theorem isAny_zip {ms : List (Bytes × Tree)} {m : AMap F} (hn : (Map.keys m).Nodup)
    (h : List.Forall₂ (fun p q => p.1 = q.1 ∧ IsAny num p.2 q.2) ms m) : IsAny num (.obj ms) (.map m) := by
  have hk : ms.map Prod.fst = Map.keys m := by
    clear hn
    induction h with
    | nil => rfl
    | cons h _ ih => simp only [List.map_cons, Map.keys] at ih ⊢; rw [h.1, ih]
  have hg : ∀ k, lastOf ms k = Map.get ms k := by
    intro k
    have hn' : (Map.keys ms.reverse).Nodup := by
      rw [Map.keys, List.map_reverse, List.nodup_reverse, hk]; exact hn
    cases h1 : Map.get ms k with
    | none =>
      rw [lastOf]
      cases h2 : Map.get ms.reverse k with
      | none => rfl
      | some t =>
        have := Map.mem_of_get h2
        rw [List.mem_reverse] at this
        rw [Map.get_of_mem (by rw [Map.keys, hk]; exact hn) this] at h1
        cases h1
    | some t =>
      exact Map.get_of_mem hn' (List.mem_reverse.2 (Map.mem_of_get h1))
  have key : ∀ k, (Map.get m k).isSome = (Map.get ms k).isSome ∧
      ∀ t a, Map.get ms k = some t → Map.get m k = some a → IsAny num t a := by
    intro k
    clear hn hk hg
    induction h with
    | nil => exact ⟨rfl, fun t a h => by cases h⟩
    | @cons p q ms m h _ ih =>
      obtain ⟨pk, pv⟩ := p
      obtain ⟨qk, qv⟩ := q
      obtain ⟨rfl, h⟩ := h
      simp only [Map.get_cons]
      by_cases e : pk = k
      · simp only [e, if_true, Option.isSome_some, true_and]
        rintro t a ⟨⟩ ⟨⟩
        exact h
      · simp only [e, if_false]
        exact ih
  refine .obj hn (fun k => ?_) fun k t a h1 h2 => ?_
  · rw [(key k).1, hg]
  · rw [hg] at h1
    exact (key k).2 t a h1 h2

omit [DecidableEq F] in
/-- The order of members does not matter. -/
theorem isAny_perm {ms ms' : List (Bytes × Tree)} {a : Any F} (hn : (ms.map Prod.fst).Nodup) (hp : ms.Perm ms')
    (h : IsAny num (.obj ms) a) : IsAny num (.obj ms') a := by
  have hg : ∀ k, lastOf ms k = lastOf ms' k := by
    intro k
    have n1 : (Map.keys ms.reverse).Nodup := by rw [Map.keys, List.map_reverse, List.nodup_reverse]; exact hn
    have n2 : (Map.keys ms'.reverse).Nodup := by
      rw [Map.keys, List.map_reverse, List.nodup_reverse]; exact ((hp.map Prod.fst).nodup_iff).1 hn
    cases h1 : lastOf ms k with
    | some t =>
      refine (Map.get_of_mem n2 ?_).symm
      exact List.mem_reverse.2 (hp.mem_iff.1 (List.mem_reverse.1 (Map.mem_of_get h1)))
    | none =>
      cases h2 : lastOf ms' k with
      | none => rfl
      | some t =>
        rw [← h1]
        refine Map.get_of_mem n1 ?_
        exact List.mem_reverse.2 (hp.mem_iff.2 (List.mem_reverse.1 (Map.mem_of_get h2)))
  cases h with
  | obj h1 h2 h3 =>
    refine .obj h1 (fun k => by rw [h2, hg]) fun k t a ht ha => h3 k t a (by rw [hg]; exact ht) ha

omit [DecidableEq F] in
/-- `adjustExpected` takes time and level from the line. -/
theorem adjust {ms : List (Bytes × Tree)} {m : AMap F} (hm : IsAny num (.obj ms) (.map m)) {t l : Bytes}
    (ht : lastOf ms b!"time" = some (.str t)) (hl : lastOf ms b!"level" = some (.str l))
    (hg : lastOf ms b!"message" = none) (e : AMap F) :
    adjustExpected e m = Map.set (Map.set e b!"time" (.str t)) b!"level" (.str l) := by
  have g1 : Map.get m b!"time" = some (.str t) := by
    obtain ⟨a, h1, h2⟩ := isAny_get hm ht
    cases h2; exact h1
  have g2 : Map.get m b!"level" = some (.str l) := by
    obtain ⟨a, h1, h2⟩ := isAny_get hm hl
    cases h2; exact h1
  unfold adjustExpected
  rw [g1, g2, get_none hm hg]

omit [DecidableEq F] in
/-- An explicit map for members in the same order. -/
theorem zip_cons {k : Bytes} {t : Tree} {a : Any F} {ms : List (Bytes × Tree)} {m : AMap F} (h : IsAny num t a)
    (hs : List.Forall₂ (fun p q => p.1 = q.1 ∧ IsAny num p.2 q.2) ms m) :
    List.Forall₂ (fun (p : Bytes × Tree) (q : Bytes × Any F) => p.1 = q.1 ∧ IsAny num p.2 q.2) ((k, t) :: ms) ((k, a) :: m) :=
  .cons ⟨rfl, h⟩ hs

theorem deep_of {t : Tree} {a c : Any F} (ha : IsAny num t a) (hc : IsAny num t c) : deepEqual a c = true :=
  (deep_iff _ _ (isAny_ok ha) (isAny_ok hc)).2 (isAny_same ha hc)

theorem Fair.groupWithMulti (V : Fair S env num now) (hE : OnlyDuplicates E) :
    Pass S E [] (testGroupWithMulti S) fun _ _ => True := by
  unfold testGroupWithMulti
  let sub : List (Bytes × Tree) := [mFourth, mPi]
  let grp : List (Bytes × Tree) := [mSecond, mThird, (b!"subGroup", .obj sub)]
  refine V.info (pl := [mFirst, (b!"group", .obj grp)])
    (V.call rfl rfl (by decide +kernel) rfl rfl) fun i b h => V.logMap h fun m hm => ?_
  have nd := three_nodup (env := env) (pl := [mFirst, (b!"group", .obj grp)]) (by decide +kernel) (S.clock i).1 b!"INFO"
  refine has_bind hE (by decide) ?_
  refine still_bind (V.count h hm nd rfl) ?_
  refine (still_assert ?_).done
  rw [adjust hm (t := env.formatTime defaultTimeFormat (S.clock i).1) (l := b!"INFO") rfl rfl rfl]
  have e : IsAny num (.obj [(b!"level", .str b!"INFO"), (b!"msg", .str Verify.message), mFirst, (b!"group", .obj grp),
      (b!"time", .str (env.formatTime defaultTimeFormat (S.clock i).1))])
      (.map [(b!"level", .str b!"INFO"), (b!"msg", .str b!"This is a message"), (b!"first", .str b!"one"),
        (b!"group", .map [(b!"second", .num (S.N.ofInt 2)), (b!"third", .str b!"3"),
          (b!"subGroup", .map [(b!"fourth", .str b!"forth"), (b!"pi", .num (S.N.ofF64 pi64))])]),
        (b!"time", .str (env.formatTime defaultTimeFormat (S.clock i).1))]) := by
    refine isAny_zip (by dsimp only [Map.keys, List.map]; decide +kernel) ?_
    refine zip_cons (.str _) (zip_cons (.str _) (zip_cons (.str _) (zip_cons ?_ (zip_cons (.str _) .nil))))
    refine isAny_zip (by dsimp only [Map.keys, List.map]; decide +kernel) ?_
    refine zip_cons V.two (zip_cons (.str _) (zip_cons ?_ .nil))
    refine isAny_zip (by dsimp only [Map.keys, List.map]; decide +kernel) ?_
    exact zip_cons (.str _) (zip_cons V.piAny .nil)
  refine deep_of e (isAny_perm nd ?_ hm)
  exact (List.perm_append_comm (l₁ := [_]) (l₂ := [_, _, _, _]))

theorem Fair.groupWithMultiSubEmpty (V : Fair S env num now) (hE : OnlyDuplicates E) :
    Pass S E [] (testGroupWithMultiSubEmpty S) fun _ _ => True := by
  unfold testGroupWithMultiSubEmpty
  let grp : List (Bytes × Tree) := [mSecond, mThird]
  refine V.info (pl := [mFirst, (b!"group", .obj grp)])
    (V.call rfl rfl (by decide +kernel) rfl rfl) fun i b h => V.logMap h fun m hm => ?_
  have nd := three_nodup (env := env) (pl := [mFirst, (b!"group", .obj grp)]) (by decide +kernel) (S.clock i).1 b!"INFO"
  refine has_bind hE (by decide) (has_bind hE (by decide) ?_)
  refine still_bind (V.count h hm nd rfl) ?_
  refine (still_assert ?_).done
  rw [adjust hm (t := env.formatTime defaultTimeFormat (S.clock i).1) (l := b!"INFO") rfl rfl rfl]
  have e : IsAny num (.obj [(b!"level", .str b!"INFO"), (b!"msg", .str Verify.message), mFirst, (b!"group", .obj grp),
      (b!"time", .str (env.formatTime defaultTimeFormat (S.clock i).1))])
      (.map [(b!"level", .str b!"INFO"), (b!"msg", .str b!"This is a message"), (b!"first", .str b!"one"),
        (b!"group", .map [(b!"second", .num (S.N.ofInt 2)), (b!"third", .str b!"3")]),
        (b!"time", .str (env.formatTime defaultTimeFormat (S.clock i).1))]) := by
    refine isAny_zip (by dsimp only [Map.keys, List.map]; decide +kernel) ?_
    refine zip_cons (.str _) (zip_cons (.str _) (zip_cons (.str _) (zip_cons ?_ (zip_cons (.str _) .nil))))
    refine isAny_zip (by dsimp only [Map.keys, List.map]; decide +kernel) ?_
    exact zip_cons V.two (zip_cons (.str _) .nil)
  refine deep_of e (isAny_perm nd ?_ hm)
  exact (List.perm_append_comm (l₁ := [_]) (l₂ := [_, _, _, _]))

theorem Fair.keys (V : Fair S env num now) (hE : OnlyDuplicates E) :
    Pass S E [] (testKeys S) fun _ _ => True := by
  unfold testKeys
  refine V.info (pl := []) (V.call rfl rfl (by decide +kernel) rfl rfl) fun i b h => V.logMap h fun m hm => ?_
  refine still_bind (V.count h hm (three_nodup (by decide +kernel) _ _) rfl) ?_
  exact (V.basics hE hm rfl rfl rfl).done


/-! ### LogValuers -/

theorem Fair.resolved (V : Fair S env num now) (hE : OnlyDuplicates E) {i : Nat}
    (h : Line num b (three env (S.clock i).1 b!"INFO" ++ [(b!"group", .obj [mPi, (b!"hidden", .str b!"value")])])) :
    Pass S E b (checkResolved S) fun _ _ => True := by
  unfold checkResolved
  refine V.logMap h fun m hm => ?_
  refine still_bind (V.count h hm (three_nodup (by decide +kernel) _ _) rfl) ?_
  obtain ⟨g, hg, hg'⟩ := field_obj (k := b!"group") (ms' := [mPi, (b!"hidden", .str b!"value")]) hm (three_last rfl)
  rw [hg]
  refine still_bind (still_assert ?_) ?_
  · rw [map_length hg' (by decide +kernel)]; rfl
  refine still_bind (still_field hg' rfl V.piAny) ?_
  exact (V.resolution hE hg' rfl).done

theorem Fair.resolveGroup (V : Fair S env num now) (hE : OnlyDuplicates E) :
    Pass S E [] (testResolveGroup S) fun _ _ => True := by
  unfold testResolveGroup
  have hi : placeIdeal env defaultTimeFormat .ideal []
      (recordAttrs [.grp b!"group" [aPi, .mk b!"hidden" (hidden b!"value")]]) =
      some [(b!"group", .obj [mPi, (b!"hidden", .str b!"value")])] := rfl
  refine V.info (pl := [(b!"group", .obj [mPi, (b!"hidden", .str b!"value")])])
    (V.call rfl rfl (by decide +kernel) hi ?_) fun i b h => V.resolved hE h
  refine (place_ideal V.world.clean ?_ (.inr ?_) [] trivial).1.trans hi
  · exact ⟨⟨trivial, (by decide : Utf8.Valid b!"value"), trivial⟩, trivial⟩
  · exact fun h => by cases hi.symm.trans h

theorem Fair.resolveGroupWith (V : Fair S env num now) (hE : OnlyDuplicates E) :
    Pass S E [] (testResolveGroupWith S) fun _ _ => True := by
  unfold testResolveGroupWith
  have hl : listMembers env defaultTimeFormat .ideal [.grp b!"group" [aPi, .mk b!"hidden" (hidden b!"value")]] =
      some [(b!"group", .obj [mPi, (b!"hidden", .str b!"value")])] := rfl
  have hi : placeIdeal env defaultTimeFormat .ideal
      [.attrs [.grp b!"group" [aPi, .mk b!"hidden" (hidden b!"value")]]] (recordAttrs []) =
      some [(b!"group", .obj [mPi, (b!"hidden", .str b!"value")])] := rfl
  refine V.info (ops := [.attrs [.grp b!"group" [aPi, .mk b!"hidden" (hidden b!"value")]]])
    (pl := [(b!"group", .obj [mPi, (b!"hidden", .str b!"value")])])
    (V.call rfl rfl (by decide +kernel) hi ?_) fun i b h => V.resolved hE h
  refine (place_ideal V.world.clean (as := []) trivial (.inl rfl) [.attrs _] ⟨?_, ?_, trivial⟩).1.trans hi
  · exact ⟨⟨trivial, (by decide : Utf8.Valid b!"value"), trivial⟩, trivial⟩
  · exact fun h => by cases hl.symm.trans h

theorem Fair.resolveWith (V : Fair S env num now) (hE : OnlyDuplicates E) :
    Pass S E [] (testResolveWith S) fun _ _ => True := by
  unfold testResolveWith
  have hl : listMembers env defaultTimeFormat .ideal [.mk b!"hidden" (hidden b!"value")] =
      some [(b!"hidden", .str b!"value")] := rfl
  have hi : placeIdeal env defaultTimeFormat .ideal [.attrs [.mk b!"hidden" (hidden b!"value")]] (recordAttrs []) =
      some [(b!"hidden", .str b!"value")] := rfl
  refine V.info (ops := [.attrs [.mk b!"hidden" (hidden b!"value")]]) (pl := [(b!"hidden", .str b!"value")])
    (V.call rfl rfl (by decide +kernel) hi ?_) fun i b h => V.logMap h fun m hm => ?_
  · refine (place_ideal V.world.clean (as := []) trivial (.inl rfl) [.attrs _] ⟨?_, ?_, trivial⟩).1.trans hi
    · exact ⟨(by decide : Utf8.Valid b!"value"), trivial⟩
    · exact fun h => by cases hl.symm.trans h
  refine still_bind (V.count h hm (three_nodup (by decide +kernel) _ _) rfl) ?_
  exact (V.resolution hE hm (three_last rfl)).done

theorem Fair.resolveValuer (V : Fair S env num now) (hE : OnlyDuplicates E) :
    Pass S E [] (testResolveValuer S) fun _ _ => True := by
  unfold testResolveValuer
  have hi : placeIdeal env defaultTimeFormat .ideal [] (recordAttrs [.mk b!"hidden" (hidden b!"something")]) =
      some [(b!"hidden", .str b!"something")] := rfl
  refine V.info (pl := [(b!"hidden", .str b!"something")])
    (V.call rfl rfl (by decide +kernel) hi ?_) fun i b h => V.logMap h fun m hm => ?_
  · refine (place_ideal V.world.clean ?_ (.inr ?_) [] trivial).1.trans hi
    · exact ⟨(by decide : Utf8.Valid b!"something"), trivial⟩
    · exact fun h => by cases hi.symm.trans h
  refine still_bind (V.count h hm (three_nodup (by decide +kernel) _ _) rfl) ?_
  exact (V.resolution hE hm (three_last rfl)).done

/-! ### Records without caller or time -/

omit [DecidableEq F] in
/-- A record handed to the handler. -/
theorem Fair.handle (V : Fair S env num now) {o : RawOptions} {r : Record} (hr : o.replace = none) (ha : r.attrs = [])
    (hc : RecordClean env plainExtras r) {bm : List (Bytes × Tree)} (hb : builtins env plainExtras o.addSource r = bm)
    {f : Unit → Run β} {R : β → Bytes → Prop}
    (hf : ∀ t, LineText t (.obj bm) → Pass S E (t ++ [0x0A]) (f ()) R) :
    Pass S E [] (handleRecord S ⟨o, []⟩ r >>= f) R := by
  refine pass_bind (Q := fun _ b => ∃ t, b = t ++ [0x0A] ∧ LineText t (.obj bm)) ?_ ?_
  · refine tick_bind fun n => ?_
    have C : Clear env [] r.attrs [] := by
      rw [ha]
      exact ⟨trivial, Nat.lt_of_le_of_lt (by decide) V.world.stack, trivial,
        Nat.lt_of_le_of_lt (by decide) V.world.stack, rfl, rfl⟩
    obtain ⟨t, h1, h2⟩ := V.sut.plain n o [] false r [] hr hc C
    show Pass S E [] (emit (S.sut.handle n o [] false r).1 >>= fun _ => require (!(S.sut.handle n o [] false r).2)) _
    rw [h1]
    refine pass_bind (pass_emit _) ?_
    rintro _ _ rfl
    rw [List.append_nil, hb] at h2
    exact (still_require rfl).mono fun _ _ h => ⟨t, by rw [h.2]; rfl, h2⟩
  · rintro _ _ ⟨t, rfl, ht⟩
    exact hf t ht

theorem Fair.zeroPC (V : Fair S env num now) (hE : OnlyDuplicates E) :
    Pass S E [] (testZeroPC S) fun _ _ => True := by
  unfold testZeroPC
  refine now_bind fun n => ?_
  refine V.handle (bm := three env (S.clock n).1 b!"INFO") rfl rfl
    { timeKey := by decide
      levelKey := by decide
      messageKey := by decide
      sourceKey := by decide
      time := fun t ht => by cases ht; exact (V.world.time n).1
      level := show Utf8.Valid (plainExtras.levelNames levelInfo) by decide
      message := show Utf8.Valid Verify.message by decide
      function := V.noCaller.1
      file := V.noCaller.2
      attrs := show ListClean _ _ [] from trivial } rfl fun t ht => ?_
  have h := V.line ht (V.three_tidy n (by simp [levelNames])).fits (V.three_tidy n (by simp [levelNames])).nums
    (V.three_tidy n (by simp [levelNames])).names
  refine V.logMap h fun m hm => ?_
  refine still_bind (V.basics hE hm rfl rfl rfl) ?_
  refine has_bind hE (by decide) ?_
  exact (V.count h hm (three_nodup (pl := []) (by decide +kernel) _ _) rfl).done

theorem Fair.zeroTime (V : Fair S env num now) (hE : OnlyDuplicates E) :
    Pass S E [] (testZeroTime S) fun _ _ => True := by
  unfold testZeroTime
  refine V.handle (bm := [(b!"level", .str b!"INFO"), (b!"msg", .str Verify.message)]) rfl rfl
    { timeKey := by decide
      levelKey := by decide
      messageKey := by decide
      sourceKey := by decide
      time := fun t ht => by cases ht
      level := by decide
      message := show Utf8.Valid Verify.message by decide
      function := V.noCaller.1
      file := V.noCaller.2
      attrs := show ListClean _ _ [] from trivial } rfl fun t ht => ?_
  have T : Tidy [(b!"level", .str b!"INFO"), (b!"msg", .str Verify.message)] := .of (by decide +kernel)
  have h := V.line ht T.fits T.nums T.names
  refine V.logMap h fun m hm => ?_
  refine still_bind (V.levelKey hE (by simp [levelNames]) hm rfl) ?_
  refine still_bind (V.messageKey hE hm rfl) ?_
  refine has_bind hE (by decide) ?_
  unfold noTime
  refine still_bind (V.count h hm (by decide +kernel) rfl) ?_
  refine (still_assert ?_).done
  rw [field_none hm rfl]; rfl

/-! ### Empty keys and nil -/

theorem Fair.emptyName (V : Fair S env num now) (hE : OnlyDuplicates E) {i : Nat} {pl : List (Bytes × Tree)}
    (h : Line num b (three env (S.clock i).1 b!"INFO" ++ pl)) (hn : distinct pl = true) (hl : pl.length = 3)
    (h1 : lastOf pl [] = some (.num (decInt 2))) (h2 : lastOf pl b!"first" = some (.str b!"one"))
    (h3 : lastOf pl b!"pi" = some (.num pi64.text)) :
    Pass S E b (checkEmptyName S) fun _ _ => True := by
  unfold checkEmptyName
  refine V.logMap h fun m hm => ?_
  refine has_bind hE (by decide) ?_
  refine still_bind (V.count h hm (three_nodup hn _ _) (by rw [List.length_append, hl]; rfl)) ?_
  refine still_bind (still_assert (get_some hm (three_last h1))) ?_
  refine still_bind (still_field hm (three_last h1) V.two) ?_
  refine still_bind (still_field hm (three_last h2) (.str _)) ?_
  exact (still_field hm (three_last h3) V.piAny).done

theorem Fair.attributeEmptyName (V : Fair S env num now) (hE : OnlyDuplicates E) :
    Pass S E [] (testAttributeEmptyName S) fun _ _ => True := by
  unfold testAttributeEmptyName
  refine V.info (pl := [mFirst, ([], .num (decInt 2)), mPi])
    (V.call rfl rfl (by decide +kernel) rfl rfl) fun i b h => ?_
  exact V.emptyName hE h (by decide +kernel) rfl rfl rfl rfl

theorem Fair.attributeWithEmptyName (V : Fair S env num now) (hE : OnlyDuplicates E) :
    Pass S E [] (testAttributeWithEmptyName S) fun _ _ => True := by
  unfold testAttributeWithEmptyName
  refine V.info (pl := [([], .num (decInt 2)), mFirst, mPi])
    (V.call rfl rfl (by decide +kernel) rfl rfl) fun i b h => ?_
  exact V.emptyName hE h (by decide +kernel) rfl rfl rfl rfl

theorem Fair.nilValue (V : Fair S env num now) (hE : OnlyDuplicates E) {i : Nat} {pl : List (Bytes × Tree)}
    (h : Line num b (three env (S.clock i).1 b!"INFO" ++ pl)) (hn : distinct pl = true) (hl : pl.length = 3)
    (h1 : lastOf pl b!"second" = some .null) (h2 : lastOf pl b!"first" = some (.str b!"one"))
    (h3 : lastOf pl b!"pi" = some (.num pi64.text)) :
    Pass S E b (checkNil S) fun _ _ => True := by
  unfold checkNil
  refine V.logMap h fun m hm => ?_
  refine has_bind hE (by decide) ?_
  refine still_bind (V.count h hm (three_nodup hn _ _) (by rw [List.length_append, hl]; rfl)) ?_
  refine still_bind (still_assert (get_some hm (three_last h1))) ?_
  refine still_bind (still_assert ?_) ?_
  · have := field_is hm (three_last h1)
    generalize field m b!"second" = v at this
    cases this; rfl
  refine still_bind (still_field hm (three_last h2) (.str _)) ?_
  exact (still_field hm (three_last h3) V.piAny).done

theorem Fair.attributeNil (V : Fair S env num now) (hE : OnlyDuplicates E) :
    Pass S E [] (testAttributeNil S) fun _ _ => True := by
  unfold testAttributeNil
  refine V.info (pl := [mFirst, (b!"second", .null), mPi])
    (V.call rfl rfl (by decide +kernel) rfl rfl) fun i b h => ?_
  exact V.nilValue hE h (by decide +kernel) rfl rfl rfl rfl

theorem Fair.attributeWithNil (V : Fair S env num now) (hE : OnlyDuplicates E) :
    Pass S E [] (testAttributeWithNil S) fun _ _ => True := by
  unfold testAttributeWithNil
  refine V.info (pl := [(b!"second", .null), mFirst, mPi])
    (V.call rfl rfl (by decide +kernel) rfl rfl) fun i b h => ?_
  exact V.nilValue hE h (by decide +kernel) rfl rfl rfl rfl

theorem Fair.attributeWithEmpty (V : Fair S env num now) (hE : OnlyDuplicates E) :
    Pass S E [] (testAttributeWithEmpty S) fun _ _ => True := by
  unfold testAttributeWithEmpty
  refine V.info (pl := [mFirst, mPi])
    (V.call rfl rfl (by decide +kernel) rfl rfl) fun i b h => V.logMap h fun m hm => ?_
  refine still_bind (still_field hm (three_last rfl) (.str _)) ?_
  refine still_bind (still_field hm (three_last rfl) V.piAny) ?_
  exact (V.noBlank hE h hm (three_nodup (by decide +kernel) _ _) rfl rfl).done

end Verif.Verify
