import Verif.Verify.SlogPass

/-
What the tests of duplicate.go find with a handler that follows the documentation.
-/

namespace Verif.Verify
open Go Warning Slog Bench Json LogTree Flash

variable {F β : Type} [DecidableEq F] {S : Suite F} {E : Warning → Bool} {b : Bytes} {env : Env} {num : Bytes → Option F}
  {now : Nat}

/-! ### Pieces that find something -/

/-- A piece of a test that goes to its end with `d` more failures and with a change of the manager
as `g` says. -/
def Finds {α : Type} (S : Suite F) (E : Warning → Bool) (b : Bytes) (x : Run α) (d : Nat)
    (g : Bytes → Manager → Manager → Prop) : Prop :=
  ∀ s, Expects S E s.mgr → s.buffer = b →
    ∃ a s', x s = (some a, s') ∧ s'.fails = s.fails + d ∧ s'.test = s.test ∧ g s.test s.mgr s'.mgr

omit [DecidableEq F] in
theorem finds_bind {α : Type} {x : Run α} {f : α → Run β} {Q : α → Bytes → Prop} {d : Nat}
    {g : Bytes → Manager → Manager → Prop} (hx : Pass S E b x Q) (hf : ∀ a b', Q a b' → Finds S E b' (f a) d g) :
    Finds S E b (x >>= f) d g := by
  intro s hs hb
  obtain ⟨a, s', h1, h2, h3, h4, h5⟩ := hx s hs hb
  obtain ⟨c, s2, g1, g2, g3, g4⟩ := hf a s'.buffer h5 s' (by rw [h2]; exact hs) rfl
  exact ⟨c, s2, by rw [bind_some h1, g1], by rw [g2, h3], by rw [g3, h4], by rw [← h4, ← h2]; exact g4⟩

omit [DecidableEq F] in
theorem finds_still {α : Type} {x : Run α} {a : α} {f : α → Run β} {d : Nat}
    {g : Bytes → Manager → Manager → Prop} (hx : Still S E b x a) (hf : Finds S E b (f a) d g) :
    Finds S E b (x >>= f) d g := by
  refine finds_bind hx ?_
  rintro a' b' ⟨rfl, rfl⟩
  exact hf

omit [DecidableEq F] in
theorem finds_fails {c : Bool} (h : c = false) : Finds S E b (assert c) 1 fun _ m m' => m' = m := by
  intro s _ _
  exact ⟨(), { s with fails := s.fails + 1 }, by rw [assert, h]; rfl, rfl, rfl, rfl⟩

omit [DecidableEq F] in
theorem finds_add (w : Warning) (text record : Bytes) :
    Finds S E b (addWarning w text record) 0 fun t m m' => m' = m.addWarning t w text record :=
  fun _ _ _ => ⟨(), _, rfl, rfl, rfl, rfl⟩

/-! ### Counting -/

omit [DecidableEq F] in
/-- What the field counter says of a line with names in small letters. -/
theorem Line.spelled {ms : List (Bytes × Tree)} {t : Bytes} (h : Line num (t ++ [0x0A]) ms) (hs : Spelled t)
    {U : Count.Uni} (hU : Count.Latin U) (hl : ∀ k ∈ ms.map Prod.fst, Letters k) :
    ∃ c, Count.parse U (t ++ [0x0A]) = some (c, .ok) ∧ c.numFields = (ms.map Prod.fst).dedup.length ∧
      ∀ k n, (k, n) ∈ c.duplicates ↔ n = (ms.map Prod.fst).count k ∧ 1 < n := by
  obtain ⟨t', e, hc⟩ := h.text
  cases List.append_cancel_right e
  obtain ⟨c, hc, hd⟩ := hc
  cases c with
  | obj cs =>
    simp only [Cst.decode, Option.map_eq_some_iff, Tree.obj.injEq] at hd
    obtain ⟨ts, hd, rfl⟩ := hd
    obtain ⟨c, h1, h2⟩ := Props.FieldCount.C34_reports_partial hU (parse_line hc) (plainMembers_of cs ts hd h.names)
    have hsp := hs cs hc
    have e : (cs.map fun e => e.1) = ts.map Prod.fst := by
      rw [← decode_keys hd]
      refine List.map_congr_left fun e he => ?_
      have hm : Props.FieldCount.keyText e.1 ∈ ts.map Prod.fst := by
        rw [← decode_keys hd]; exact List.mem_map.2 ⟨e, he, rfl⟩
      have hbo := Props.FieldCount.object_keys hc e he
      obtain ⟨k, hk⟩ := Option.isSome_iff_exists.1 hbo
      have hkt : Props.FieldCount.keyText e.1 = k := by rw [Props.FieldCount.keyText, hk]; rfl
      rw [hkt] at hm ⊢
      exact hsp e he k hk (hl k hm)
    refine ⟨c, h1, ?_, fun k n => ?_⟩
    · rw [h2.number, ← e]; rfl
    · rw [h2.duplicates, ← e]; rfl
  | _ => simp [Cst.decode] at hd

omit [DecidableEq F] in
/-- Logging, with the names. -/
theorem Fair.infoSpelled (V : Fair S env num now) (hsp : Spells env S.sut) {ops : List Op} {as : List Attr}
    {pl : List (Bytes × Tree)} (C : Call env simple ops as pl) :
    Pass S E [] (Verify.info S ⟨simple, ops⟩ as) fun _ b =>
      ∃ i t, b = t ++ [0x0A] ∧ Spelled t ∧ Line num b (three env (S.clock i).1 b!"INFO" ++ pl) := by
  unfold Verify.info Verify.log
  refine still_bind (V.enabled C.derivable (.inl rfl) levelInfo) ?_
  rw [decide_eq_true (Int.le_refl levelInfo)]
  refine tick_bind fun n => ?_
  refine (pass_emit _).mono ?_
  rintro _ b' rfl
  have hrec := V.record (name := b!"INFO") (by simp [levelNames]) n _ _ rfl C.clear.attrs
  obtain ⟨t, h1, h2⟩ := V.sut.plain n simple ops false
    ⟨some (S.clock n).1, levelInfo, Verify.message, (S.clock n).2, recordAttrs as⟩ pl rfl hrec C.clear
  refine ⟨n, t, ?_, hsp n simple ops false _ pl t rfl hrec C.clear h1, ?_⟩
  · rw [h1, List.nil_append]
  · rw [h1, List.nil_append]
    have T := (V.three_tidy n (name := b!"INFO") (by simp [levelNames])).append C.tidy
    exact V.line h2 T.fits T.nums T.names

omit [DecidableEq F] in
/-- As many fields as different names. -/
theorem map_dedup {ms : List (Bytes × Tree)} {m : AMap F} (h : IsAny num (.obj ms) (.map m)) :
    m.length = (ms.map Prod.fst).dedup.length := by
  obtain ⟨h1, h2, _⟩ := isAny_obj h
  have : (Map.keys m).Perm (ms.map Prod.fst).dedup := by
    refine (List.perm_ext_iff_of_nodup h1 (List.nodup_dedup _)).2 fun k => ?_
    rw [Map.mem_keys, h2, lastOf_isSome, List.mem_dedup]
  have := this.length_eq
  simpa [Map.keys] using this

/-! ### The tests -/

/-- What the two tests find: `alpha` twice and `charlie` three times, if duplicates are expected; a
failure otherwise. -/
def Doubled (S : Suite F) (E : Warning → Bool) (x : Run Unit) : Prop :=
  if E duplicates then
    Finds S E [] x 0 fun t m m' => ∃ d : List (Bytes × Nat),
      (∀ k n, (k, n) ∈ d ↔ k = b!"alpha" ∧ n = 2 ∨ k = b!"charlie" ∧ n = 3) ∧
      m' = m.addWarning t duplicates (S.showCounts d) []
  else Finds S E [] x 1 fun _ m m' => m' = m

omit [DecidableEq F] in
theorem still_skip (hE : OnlyDuplicates E) {w : Warning} (hw : w.name ≠ duplicates.name) :
    Still S E b (skipTest S w) false := by
  unfold skipTest
  exact has_bind hE hw (still_pure false)

/-- The names of the members in the two tests. -/
def Twice (pl : List (Bytes × Tree)) : Prop :=
  (pl.map Prod.fst).Perm [b!"alpha", b!"alpha", b!"bravo", b!"charlie", b!"charlie", b!"charlie"]

omit [DecidableEq F] in
theorem Fair.doubled (V : Fair S env num now) (hE : OnlyDuplicates E) (hsp : Spells env S.sut) {ops : List Op}
    {as : List Attr} {pl : List (Bytes × Tree)} (C : Call env simple ops as pl) (ht : Twice pl) :
    Doubled S E (Verify.info S ⟨simple, ops⟩ as >>= fun _ => checkDuplicates S) := by
  let names := [b!"time", b!"level", b!"msg", b!"alpha", b!"alpha", b!"bravo", b!"charlie", b!"charlie", b!"charlie"]
  have hp : ∀ i, ((three env (S.clock i).1 b!"INFO" ++ pl).map Prod.fst).Perm names := by
    intro i
    rw [List.map_append]
    exact (ht.append_left [b!"time", b!"level", b!"msg"])
  have letters : ∀ k ∈ names, Letters k := by
    unfold Letters
    decide +kernel
  have cnt : ∀ k n, (n = names.count k ∧ 1 < n) ↔ k = b!"alpha" ∧ n = 2 ∨ k = b!"charlie" ∧ n = 3 := by
    intro k n
    by_cases h1 : k = b!"alpha"
    · subst h1
      rw [show names.count b!"alpha" = 2 by decide +kernel]
      have : b!"alpha" ≠ b!"charlie" := by decide
      constructor
      · intro h; exact .inl ⟨rfl, h.1⟩
      · rintro (⟨_, rfl⟩ | ⟨h, _⟩)
        · exact ⟨rfl, by decide⟩
        · exact absurd h this
    by_cases h2 : k = b!"charlie"
    · subst h2
      rw [show names.count b!"charlie" = 3 by decide +kernel]
      constructor
      · intro h; exact .inr ⟨rfl, h.1⟩
      · rintro (⟨h, _⟩ | ⟨_, rfl⟩)
        · exact absurd h h1
        · exact ⟨rfl, by decide⟩
    have le : names.count k ≤ 1 := by
      by_cases hk : k ∈ [b!"time", b!"level", b!"msg", b!"bravo"]
      · have : ∀ k ∈ [b!"time", b!"level", b!"msg", b!"bravo"], names.count k ≤ 1 := by decide +kernel
        exact this k hk
      · have : k ∉ names := by
          intro h
          simp only [names, List.mem_cons, List.not_mem_nil, or_false] at h hk
          grind
        rw [List.count_eq_zero_of_not_mem this]
        decide
    constructor
    · rintro ⟨h, h'⟩; omega
    · rintro (⟨h, _⟩ | ⟨h, _⟩)
      · exact absurd h h1
      · exact absurd h h2
  have ded : names.dedup.length = 6 := by decide +kernel
  unfold Doubled
  -- up to the count
  have start : ∀ (d : Nat) (g : Bytes → Manager → Manager → Prop),
      (∀ b m c, Count.parse S.U b = some (c, .ok) → m.length = 6 → c.numFields = 6 →
        (∀ k n, (k, n) ∈ c.duplicates ↔ k = b!"alpha" ∧ n = 2 ∨ k = b!"charlie" ∧ n = 3) →
        Finds S E b (checkFieldCount S 6 m) d g) →
      Finds S E [] (Verify.info S ⟨simple, ops⟩ as >>= fun _ => checkDuplicates S) d g := by
    intro d g hf
    refine finds_bind (V.infoSpelled hsp C) ?_
    rintro _ _ ⟨i, t, rfl, hs, hl⟩
    obtain ⟨c, h1, h2, h3⟩ := hl.spelled hs V.latin fun k hk => letters k ((hp i).mem_iff.1 hk)
    have hl' := hl
    obtain ⟨t', e, ht'⟩ := hl'.text
    cases List.append_cancel_right e
    obtain ⟨a, ha⟩ := Option.isSome_iff_exists.1 (toAny_some num (.obj (three env (S.clock i).1 b!"INFO" ++ pl))
      (by simp only [numerals]; exact hl.nums))
    obtain ⟨m, g1, g2⟩ := V.faithful t _ [0x0A] a ht' Props.BenchFlash.ws_newline hl.fits (toAny_isAny num _ a ha)
    unfold checkDuplicates
    refine finds_still (a := m) ?_ (finds_still (still_skip hE (by decide)) ?_)
    · unfold Verify.logMap
      refine still_bind still_captured ?_
      rw [g1]
      exact still_pure m
    · refine hf _ m c h1 ?_ ?_ fun k n => ?_
      · rw [map_dedup g2, (hp i).dedup.length_eq, ded]
      · rw [h2, (hp i).dedup.length_eq, ded]
      · rw [h3, (hp i).count_eq, cnt]
  have counted : ∀ {b : Bytes} {c : Count.Ctr}, Count.parse S.U b = some (c, .ok) → Still S E b (Verify.counted S) c := by
    intro b c h
    unfold Verify.counted
    refine still_bind still_captured ?_
    rw [h]
    exact still_pure c
  cases hd : E duplicates with
  | true =>
    rw [if_pos rfl]
    refine start _ _ fun b m c h1 h2 h3 h4 => ?_
    unfold checkFieldCount
    refine finds_still (still_has _) ?_
    rw [hd, if_pos rfl]
    refine finds_still (counted h1) ?_
    have hpos : c.duplicates.length > 0 := List.length_pos_of_mem ((h4 b!"alpha" 2).2 (.inl ⟨rfl, rfl⟩))
    rw [if_pos hpos]
    intro s hs hb
    obtain ⟨a, s', g1, g2, g3, g4⟩ := finds_add (S := S) (E := E) (b := b) duplicates (S.showCounts c.duplicates) [] s hs hb
    exact ⟨a, s', g1, g2, g3, c.duplicates, h4, g4⟩
  | false =>
    rw [if_neg (by decide)]
    refine start _ _ fun b m c h1 h2 h3 h4 => ?_
    unfold checkFieldCount
    refine finds_still (still_has _) ?_
    rw [hd, if_neg (by decide)]
    unfold exactFields
    refine finds_still (still_assert (by rw [h2]; rfl)) (finds_still (counted h1) ?_)
    refine finds_still (still_assert (by rw [h3]; rfl)) ?_
    refine finds_fails ?_
    rw [List.isEmpty_eq_false_iff]
    exact List.ne_nil_of_mem ((h4 b!"alpha" 2).2 (.inl ⟨rfl, rfl⟩))

omit [DecidableEq F] in
theorem Fair.attributeDuplicate (V : Fair S env num now) (hE : OnlyDuplicates E) (hsp : Spells env S.sut) :
    Doubled S E (testAttributeDuplicate S) :=
  V.doubled hE hsp (pl := [(b!"alpha", .str b!"one"), (b!"alpha", .num (decInt 2)), (b!"bravo", .str b!"hurrah"),
    (b!"charlie", .str b!"brown"), (b!"charlie", .num (decInt 3)), (b!"charlie", .num (F64.fin false 23 [7, 9]).text)])
    (V.call rfl rfl (by decide +kernel) rfl rfl) (List.Perm.refl _)

omit [DecidableEq F] in
theorem Fair.attributeWithDuplicate (V : Fair S env num now) (hE : OnlyDuplicates E) (hsp : Spells env S.sut) :
    Doubled S E (testAttributeWithDuplicate S) :=
  V.doubled hE hsp (pl := [(b!"alpha", .str b!"one"), (b!"bravo", .str b!"hurrah"), (b!"charlie", .str b!"brown"),
    (b!"charlie", .str b!"jones"), (b!"alpha", .num (decInt 2)), (b!"charlie", .num (F64.fin false 23 [7]).text)])
    (V.call rfl rfl (by decide +kernel) rfl rfl) (by unfold Twice; decide +kernel)

end Verif.Verify
