import Verif.Verify.ReplPass
import Verif.Verify.ComplexPass
import Verif.Verify.SampleSuite
import Verif.Props.VerifyRecorded

/-
Properties of a run of the verification suite with a handler that follows the documentation, and
with flash (C74).
-/

namespace Verif.Props.VerifyFlash
open Go Warning Slog Bench Verify LogTree Json Flash

variable {F : Type} [DecidableEq F] {S : Suite F} {E : Warning → Bool} {env : Env} {num : Bytes → Option F} {now : Nat}

/-! ### Flash -/

theorem flash_derives {o : RawOptions} {ops : List Op} (hst : 0 < env.stack) (h : Derivable env o ops) :
    ∃ h, (H.plain (Flash.build env (some o) none)).derive ops = some h := by
  have ho : (fixOptions (some o)).view.replace = o.replace := by
    unfold fixOptions
    cases hl : o.level <;> simp [hl, RawOptions.view]
  rcases h with ⟨hr, hc, hd⟩ | ⟨f, as, pl, hr, hp⟩
  · obtain ⟨h, _, _, h1, _⟩ := derive_clean (h0 := Flash.build env (some o) none) (by rw [← hr, ← ho]; rfl)
      (as := []) (ts := []) (ms := []) rfl .nil ops (.plain (Flash.build env (some o) none)) ⟨rfl, rfl, rfl⟩ hc hd
    exact ⟨h, h1⟩
  · obtain ⟨h, _, _, h1, _⟩ := derive_replace (h0 := Flash.build env (some o) none) (f := f) (by rw [← hr, ← ho]; rfl)
      (as := as) (n := 0) hst ops (.plain (Flash.build env (some o) none)) pl ⟨rfl, rfl, rfl⟩ (fun _ _ => rfl) hp
    exact ⟨h, h1⟩

/-- Flash follows the documentation. -/
theorem flash_contract (he : EnvClean env) (hst : 0 < env.stack) : Contract env (flashSut env) where
  enabled := by
    intro n o ops level hd
    obtain ⟨h, hh⟩ := flash_derives hst hd
    have := Props.C13_flash_enabled env (some o) none ops h hh n level
    show (match (H.plain (Flash.build env (some o) none)).derive ops with
      | some h => h.enabled n level
      | none => false) = _
    rw [hh]
    dsimp only
    rw [Bool.eq_iff_iff, decide_eq_true_eq]
    cases hl : o.level with
    | some lv => exact this.1 o lv rfl hl
    | none => exact this.2 (.inr ⟨o, rfl, hl⟩)
  plain := by
    intro n o ops c r pl hr hrec hc
    have hov : (fixOptions (some o)).view.replace = none ∧ (fixOptions (some o)).view.addSource = o.addSource := by
      unfold fixOptions
      cases hl : o.level <;> simp [hl, RawOptions.view, hr]
    have hdep := hc.chainDepth
    have hdep2 := hc.depth
    obtain ⟨h, pl', b, h1, h2, h3, h4⟩ := handle_clean (x := plainExtras) hov.1 he hc.chain hrec (by omega)
    have e : pl' = pl := Option.some.inj (h2.symm.trans hc.place)
    subst e
    have h1' : (H.plain (Flash.build env (some o) none)).derive ops = some h := h1
    refine ⟨b, ?_, by rw [hov.2] at h4; exact h4⟩
    show (match (H.plain (Flash.build env (some o) none)).derive ops with
      | some h => match h.handle none r with
        | .line b => (b, false)
        | _ => ([], true)
      | none => ([], true)) = _
    rw [h1']
    dsimp only
    rw [h3]
  replaced := by
    intro n o f ops c r bm pl hr hc
    have hov : (fixOptions (some o)).view.replace = some f ∧ (fixOptions (some o)).view.addSource = o.addSource := by
      unfold fixOptions
      cases hl : o.level <;> simp [hl, RawOptions.view, hr]
    obtain ⟨h, b, h1, h3, h4⟩ := handle_replace (x := plainExtras) hov.1 hst (by rw [hov.2]; exact hc.basics) hc.attrs
    have h1' : (H.plain (Flash.build env (some o) none)).derive ops = some h := h1
    refine ⟨b, ?_, h4⟩
    show (match (H.plain (Flash.build env (some o) none)).derive ops with
      | some h => match h.handle none r with
        | .line b => (b, false)
        | _ => ([], true)
      | none => ([], true)) = _
    rw [h1']
    dsimp only
    rw [h3]

/-- Flash does not escape small letters. -/
theorem flash_spells (he : EnvClean env) : Spells env (flashSut env) := by
  intro n o ops c r pl b hr hrec hc hb
  have hov : (fixOptions (some o)).view.replace = none := by
    unfold fixOptions
    cases hl : o.level <;> simp [hl, RawOptions.view, hr]
  have hdep := hc.chainDepth
  have hdep2 := hc.depth
  obtain ⟨h, pl', b', h1, _, h3, _, h5⟩ := handle_spelled (x := plainExtras) hov he hc.chain hrec (by omega)
  have h1' : (H.plain (Flash.build env (some o) none)).derive ops = some h := h1
  have hb' : (match (H.plain (Flash.build env (some o) none)).derive ops with
      | some h => match h.handle none r with
        | .line b => (b, false)
        | _ => ([], true)
      | none => ([], true)) = (b ++ [0x0A], false) := hb
  rw [h1'] at hb'
  dsimp only at hb'
  rw [h3] at hb'
  have : b' ++ [0x0A] = b ++ [0x0A] := congrArg Prod.fst hb'
  rw [← List.append_cancel_right this]
  exact h5

/-! ### Tests one after the other -/

/-- A test that finds nothing. -/
def Calm (S : Suite F) (E : Warning → Bool) (t : Bytes × Run Unit) : Prop := Pass S E [] t.2 fun _ _ => True

omit [DecidableEq F] in
theorem calm_test {t : Bytes × Run Unit} (h : Calm S E t) {s : Verify.St} (hs : Expects S E s.mgr) :
    (runTest t s).mgr = s.mgr ∧ (runTest t s).fails = s.fails := by
  obtain ⟨a, s', h1, h2, h3, _, _⟩ := h { s with buffer := [], test := t.1 } hs rfl
  rw [runTest, h1]
  exact ⟨h2, h3⟩

omit [DecidableEq F] in
theorem calm_tests {ts : List (Bytes × Run Unit)} (h : ∀ t ∈ ts, Calm S E t) {s : Verify.St} (hs : Expects S E s.mgr) :
    (runTests ts s).mgr = s.mgr ∧ (runTests ts s).fails = s.fails := by
  induction ts generalizing s with
  | nil => exact ⟨rfl, rfl⟩
  | cons t ts ih =>
    obtain ⟨h1, h2⟩ := calm_test (h t (by simp)) hs
    obtain ⟨h3, h4⟩ := ih (fun t ht => h t (by simp [ht])) (s := runTest t s) (by rw [h1]; exact hs)
    exact ⟨h3.trans h1, h4.trans h2⟩

omit [DecidableEq F] in
theorem finds_test {t : Bytes × Run Unit} {d : Nat} {g : Bytes → Manager → Manager → Prop} (h : Finds S E [] t.2 d g)
    {s : Verify.St} (hs : Expects S E s.mgr) :
    g t.1 s.mgr (runTest t s).mgr ∧ (runTest t s).fails = s.fails + d := by
  obtain ⟨a, s', h1, h2, _, h4⟩ := h { s with buffer := [], test := t.1 } hs rfl
  rw [runTest, h1]
  exact ⟨h4, h2⟩

/-- Exactly `alpha` twice and `charlie` three times. -/
def TwoThree (d : List (Bytes × Nat)) : Prop := ∀ k n, (k, n) ∈ d ↔ k = b!"alpha" ∧ n = 2 ∨ k = b!"charlie" ∧ n = 3

/-- What a run finds: if duplicates are expected nothing fails, and the two tests about them are
recorded with the fields that were found; if not, just these two tests fail and nothing is
recorded. -/
def Passes (S : Suite F) (E : Warning → Bool) (m : Manager) (s : Verify.St) : Prop :=
  if E duplicates then
    s.fails = 0 ∧ ∃ d d', TwoThree d ∧ TwoThree d' ∧
      s.mgr = (m.addWarning b!"TestAttributeDuplicate" duplicates (S.showCounts d) []).addWarning
        b!"TestAttributeWithDuplicate" duplicates (S.showCounts d') []
  else s.fails = 2 ∧ s.mgr = m

omit [DecidableEq F] in
theorem run_passes {t1 t3 t4 : Bytes × Run Unit} {x y : Run Unit} {ts : List (Bytes × Run Unit)} {m : Manager}
    (hm : Expects S E m) (h1 : Calm S E t1) (h2 : Doubled S E x) (h3 : Calm S E t3) (h4 : Calm S E t4)
    (h5 : Doubled S E y) (hts : ∀ t ∈ ts, Calm S E t) :
    Passes S E m (runTests (t1 :: (b!"TestAttributeDuplicate", x) :: t3 :: t4 :: (b!"TestAttributeWithDuplicate", y) :: ts)
      ⟨[], m, 0, 0, []⟩) := by
  simp only [runTests]
  obtain ⟨a1, a2⟩ := calm_test h1 (s := ⟨[], m, 0, 0, []⟩) hm
  generalize runTest t1 ⟨[], m, 0, 0, []⟩ = s1 at a1 a2 ⊢
  have e1 : Expects S E s1.mgr := by rw [a1]; exact hm
  unfold Passes
  unfold Doubled at h2 h5
  cases hd : E duplicates with
  | true =>
    rw [hd, if_pos rfl] at h2 h5
    rw [if_pos rfl]
    obtain ⟨⟨d, b1, b2⟩, b3⟩ := finds_test (t := (b!"TestAttributeDuplicate", x)) h2 e1
    generalize runTest (b!"TestAttributeDuplicate", x) s1 = s2 at b2 b3 ⊢
    have e2 : Expects S E s2.mgr := by rw [b2]; intro w; rw [← e1 w]; rfl
    obtain ⟨c1, c2⟩ := calm_test h3 e2
    generalize runTest t3 s2 = s3 at c1 c2 ⊢
    have e3 : Expects S E s3.mgr := by rw [c1]; exact e2
    obtain ⟨c3, c4⟩ := calm_test h4 e3
    generalize runTest t4 s3 = s4 at c3 c4 ⊢
    have e4 : Expects S E s4.mgr := by rw [c3]; exact e3
    obtain ⟨⟨d', f1, f2⟩, f3⟩ := finds_test (t := (b!"TestAttributeWithDuplicate", y)) h5 e4
    generalize runTest (b!"TestAttributeWithDuplicate", y) s4 = s5 at f2 f3 ⊢
    have e5 : Expects S E s5.mgr := by rw [f2]; intro w; rw [← e4 w]; rfl
    obtain ⟨g1, g2⟩ := calm_tests hts e5
    refine ⟨by rw [g2, f3, c4, c2, b3, a2], d, d', b1, f1, ?_⟩
    rw [g1, f2, c3, c1, b2, a1]
  | false =>
    rw [hd, if_neg (by decide)] at h2 h5
    rw [if_neg (by decide)]
    obtain ⟨b2, b3⟩ := finds_test (t := (b!"TestAttributeDuplicate", x)) h2 e1
    generalize runTest (b!"TestAttributeDuplicate", x) s1 = s2 at b2 b3 ⊢
    have e2 : Expects S E s2.mgr := by rw [b2]; exact e1
    obtain ⟨c1, c2⟩ := calm_test h3 e2
    generalize runTest t3 s2 = s3 at c1 c2 ⊢
    have e3 : Expects S E s3.mgr := by rw [c1]; exact e2
    obtain ⟨c3, c4⟩ := calm_test h4 e3
    generalize runTest t4 s3 = s4 at c3 c4 ⊢
    have e4 : Expects S E s4.mgr := by rw [c3]; exact e3
    obtain ⟨f2, f3⟩ := finds_test (t := (b!"TestAttributeWithDuplicate", y)) h5 e4
    generalize runTest (b!"TestAttributeWithDuplicate", y) s4 = s5 at f2 f3 ⊢
    have e5 : Expects S E s5.mgr := by rw [f2]; exact e4
    obtain ⟨g1, g2⟩ := calm_tests hts e5
    refine ⟨by rw [g2, f3, c4, c2, b3, a2], ?_⟩
    rw [g1, f2, c3, c1, b2, a1]

/-! ### C74 -/

/-- The suite finds nothing wrong with a handler that follows the documentation but that fields
logged more than once are there more than once. -/
theorem C74_conforming (V : Fair S env num now) (hsp : Spells env S.sut) (m : Manager)
    (hE : ∀ w : Warning, w.name ≠ duplicates.name → m.hasWarning S.useWarnings w = false) :
    Passes S (m.hasWarning S.useWarnings) m (runSuite S m) := by
  have hm : Expects S (m.hasWarning S.useWarnings) m := fun _ => rfl
  unfold runSuite allTests
  refine run_passes hm (V.anyMap hE) (V.attributeDuplicate hE hsp) (V.attributeEmptyName hE) (V.attributeNil hE)
    (V.attributeWithDuplicate hE hsp) ?_
  simp only [List.forall_mem_cons]
  exact ⟨V.attributeWithEmpty hE, V.attributeWithEmptyName hE, V.attributeWithNil hE, V.attributes, V.attributesEmpty hE,
    V.attributesNotEmpty hE, V.attributesWith, V.attributesWithEmpty hE, V.attributesWithNotEmpty hE, V.canceledContext hE,
    V.complexCases hE, V.defaultLevel hE, V.derivedInvariantWith, V.derivedInvariantWithGroup, V.disabled, V.group,
    V.groupDuration hE, V.groupEmpty hE, V.groupInline hE, V.groupWith, V.groupWithMulti hE, V.groupWithMultiSubEmpty hE,
    V.groupWithTop hE, V.keyCase hE, V.keys hE, V.levelConfigured hE, V.levelDifferent hE, V.levelVar hE,
    V.logAttributes hE, V.replaceAttr hE, V.replaceAttrBasic hE, V.replaceChangeKey, V.replaceLevelCase hE,
    V.replaceMulti hE, V.replaceEmptyKey hE, V.replaceTime hE, V.replaceAttrGroup hE, V.resolveGroup hE,
    V.resolveGroupWith hE, V.resolveValuer hE, V.resolveWith hE, V.sourceKey hE, V.stringEscape, V.timestampFormat,
    V.withGroupEmpty hE, V.withGroupInline hE, V.zeroPC hE, V.zeroTime hE, by simp⟩

/-- The suite finds nothing wrong with flash but duplicate fields. -/
theorem C74_flash (A : Around S env num now) (hs : S.sut = flashSut env) (m : Manager)
    (hE : ∀ w : Warning, w.name ≠ duplicates.name → m.hasWarning S.useWarnings w = false) :
    Passes S (m.hasWarning S.useWarnings) m (runSuite S m) := by
  have hst : 0 < env.stack := by have := A.world.stack; omega
  exact C74_conforming { A with sut := by rw [hs]; exact flash_contract A.world.clean hst }
    (by rw [hs]; exact flash_spells A.world.clean) m hE

/-! ### Examples -/

theorem sample_front (w t : Bytes) (hw : Ws w) : Verify.Sample.unmarshal (w ++ t) = Verify.Sample.unmarshal t := by
  unfold Verify.Sample.unmarshal
  induction w with
  | nil => rfl
  | cons x w ih =>
    have : isWs x = true := hw x (by simp)
    rw [List.cons_append, List.dropWhile_cons, if_pos this]
    exact ih fun y hy => hw y (by simp [hy])

theorem sample_faithful : Faithful Bench.Sample.num Verify.Sample.unmarshal := by
  intro b ms w a hd hw h1 h2
  obtain ⟨x, u, hb, hx⟩ : ∃ x u, b = x :: u ∧ isWs x = false := by
    obtain ⟨c, hv, hc⟩ := hd
    cases hv with
    | obj0 _ => exact ⟨_, _, rfl, by decide⟩
    | obj _ => exact ⟨_, _, rfl, by decide⟩
    | str _ => exact ⟨_, _, rfl, by decide⟩
    | arr0 _ => exact ⟨_, _, rfl, by decide⟩
    | arr _ => exact ⟨_, _, rfl, by decide⟩
    | _ => simp [Cst.decode] at hc
  have := Bench.Sample.faithful b ms w a hd hw h1 h2
  rw [Verify.Sample.unmarshal, hb, List.cons_append, List.dropWhile_cons, if_neg (by simp [hx]), ← List.cons_append, ← hb]
  exact this

theorem sample_around (sut : Sut) (use : Bool) : Around (Verify.Sample.suite sut use) Flash.Sample.env Bench.Sample.num 7 where
  world := BenchFlash.sample_world _ _ fun _ => by
    show (3 : Nat) ≠ 0 ∧ (3 : Nat) < 2 ^ 63
    decide
  nums := ⟨fun _ _ _ => rfl, rfl, rfl⟩
  floats := fun _ _ => rfl
  faithful := sample_faithful
  front := sample_front
  latin := FieldCount.latin1_ok
  upper := show ∀ s ∈ levelNames, Letters.asciiLib.toUpper s = s by decide +kernel
  upperOmega := show Letters.asciiLib.toUpper b!"omega" = b!"OMEGA" by decide +kernel
  lowerInfo := show Letters.asciiLib.toLower b!"INFO" = b!"info" by decide +kernel
  string := fun _ => rfl
  format := rfl
  parse := fun _ => show (if b!"T" ++ decNat 7 == b!"T7" then some (2024, 3, 1) else none) = some (2024, 3, 1) by decide +kernel
  day := fun _ _ => rfl
  pick := fun _ => .refl _
  stamp := show Utf8.Valid b!"2024-03-01T12:00:00Z" ∧ NoRepl b!"2024-03-01T12:00:00Z" = true by decide +kernel
  noCaller := by decide +kernel

/-- A run with flash under the warning flag that expects duplicates, as it is written in the
repository (verify/slog_madkins_flash_test.go:13-18), and one without the flag. -/
example :
    Passes (Verify.Sample.suite (flashSut Flash.Sample.env) true) ((telling [duplicates]).hasWarning true) (telling [duplicates])
        (runSuite (Verify.Sample.suite (flashSut Flash.Sample.env) true) (telling [duplicates])) ∧
      Passes (Verify.Sample.suite (flashSut Flash.Sample.env) false) (fun _ => false) (telling [duplicates])
        (runSuite (Verify.Sample.suite (flashSut Flash.Sample.env) false) (telling [duplicates])) := by
  refine ⟨C74_flash (sample_around _ _) rfl _ fun w hw => ?_, C74_flash (sample_around _ _) rfl _ fun w hw => rfl⟩
  show (Map.get [(duplicates.name, true)] w.name).getD false = false
  simp [Map.get, List.find?, Ne.symm hw]

end Verif.Props.VerifyFlash
