import Verif.Verify.DuplPass
import Verif.Props.VerifyComplex

/-
`TestComplexCases` finds nothing wrong with a handler that follows the documentation.
-/

namespace Verif.Verify
open Go Warning Slog Bench Json LogTree Flash TestProgram

variable {F β : Type} [DecidableEq F] {S : Suite F} {E : Warning → Bool} {b : Bytes} {env : Env} {num : Bytes → Option F}
  {now : Nat}

theorem attributes_recorded (stamp : Bytes) {c : UInt8} {bs : List Attr} (h : attributes stamp c = some bs) :
    recordAttrs bs = bs := by
  unfold attributes at h
  by_cases h1 : c = 0x41
  · rw [if_pos h1] at h; cases h; rfl
  by_cases h2 : c = 0x42
  · rw [if_neg h1, if_pos h2] at h; cases h; rfl
  by_cases h3 : c = 0x43
  · rw [if_neg h1, if_neg h2, if_pos h3] at h; cases h; rfl
  by_cases h4 : c = 0x44
  · rw [if_neg h1, if_neg h2, if_neg h3, if_pos h4] at h; cases h; rfl
  rw [if_neg h1, if_neg h2, if_neg h3, if_neg h4] at h
  cases h

/-- The attributes of a message have no empty groups. -/
theorem prog_recorded {stamp s : Bytes} {ops : List Op} {as : List Attr} (h : Prog (attributes stamp) s ops as) :
    recordAttrs as = as := by
  induction h with
  | message _ => rfl
  | messageAttrs hc _ => exact attributes_recorded stamp hc
  | space _ ih => exact ih
  | without _ ih => exact ih
  | attrs _ _ ih => exact ih
  | group _ ih => exact ih
  | groupAttrs _ _ ih => exact ih

omit [DecidableEq F] in
/-- Nothing is done to the programs. -/
theorem ctx_quiet (hE : OnlyDuplicates E) {m : Manager} (hm : Expects S E m) : Quiet (ctxOf S m) := by
  have k : ∀ w : Warning, w.name ≠ duplicates.name → (ctxOf S m).has w = false := fun w hw => by
    rw [← hE w hw]; exact hm w
  constructor <;> exact k _ (by decide)

omit [DecidableEq F] in
theorem pass_ctx : Pass S E b (ctx S) fun C b' => b' = b ∧ ∃ m, Expects S E m ∧ C = ctxOf S m :=
  fun s hs hb => ⟨_, s, rfl, rfl, rfl, rfl, hb, s.mgr, hs, rfl⟩

omit [DecidableEq F] in
/-- Logging, whatever the numbers. -/
theorem Fair.infoText (V : Fair S env num now) {ops : List Op} {as : List Attr} {pl : List (Bytes × Tree)}
    (hr : recordAttrs as = as) (C : Clear env ops as pl) :
    Pass S E [] (Verify.info S ⟨simple, ops⟩ as) fun _ b => ∃ i t, b = t ++ [0x0A] ∧
      Denotes t (.obj (Props.BenchFlash.head env (S.clock i).1 (S.clock i).2 false Verify.message ++ pl)) := by
  unfold Verify.info Verify.log
  refine still_bind (V.enabled (.inl ⟨rfl, C.chain, C.chainDepth⟩) (.inl rfl) levelInfo) ?_
  rw [decide_eq_true (Int.le_refl levelInfo)]
  refine tick_bind fun n => ?_
  refine (pass_emit _).mono ?_
  rintro _ b' rfl
  have hrec := V.record (name := b!"INFO") (by simp [levelNames]) n _ _ rfl C.attrs
  obtain ⟨t, h1, h2⟩ := V.sut.plain n simple ops false
    ⟨some (S.clock n).1, levelInfo, Verify.message, (S.clock n).2, as⟩ pl rfl hrec C
  refine ⟨n, t, ?_, ?_⟩
  · rw [hr, h1, List.nil_append]
  · exact h2.1

theorem Fair.complexRound (V : Fair S env num now) (hE : OnlyDuplicates E) {p : Bytes} (hp : p ∈ programs) :
    Pass S E b (complexRound S p) fun bad _ => bad = false := by
  unfold Verify.complexRound
  refine reset_bind (pass_bind pass_ctx ?_)
  rintro C _ ⟨rfl, m, hm, rfl⟩
  have Q := ctx_quiet hE hm
  obtain ⟨ops, as, p1, p2, p3, p4⟩ := Props.VerifyComplex.suite_program hp S.stamp
  have p1' : Prog (Verify.attributes (ctxOf S m).stamp) p ops as := p1
  obtain ⟨pl, hc⟩ := Props.VerifyComplex.prog_clear Q (C := ctxOf S m) V.nums V.world V.stamp p1' p2
  obtain ⟨l1, l2⟩ := Props.VerifyComplex.C73_program Q p1'
  rw [l1, l2]
  refine pass_bind (Q := fun _ b => ∃ i t, b = t ++ [0x0A] ∧
      Denotes t (.obj (Props.BenchFlash.head env (S.clock i).1 (S.clock i).2 false Verify.message ++ pl))) ?_ ?_
  · refine pass_bind (V.infoText (prog_recorded p1) hc) ?_
    intro _ b h
    exact pass_pure () h
  rintro _ _ ⟨i, t, rfl, ht⟩
  obtain ⟨x, hx, hi⟩ := Props.VerifyComplex.C73_line Q (C := ctxOf S m) V.nums V.faithful V.world V.stamp p1' p3 i hc ht
  refine still_bind (still_assert rfl) (still_bind (a := x) ?_ ?_)
  · unfold Verify.logMap
    refine still_bind still_captured ?_
    rw [hx]
    exact still_pure x
  have good := hi.2 p4
  rw [good]
  refine has_bind hE (by decide) (still_bind (still_assert rfl) ?_)
  exact pass_pure _ rfl

theorem Fair.complexLoop (V : Fair S env num now) (hE : OnlyDuplicates E) {ps : List Bytes} (hp : ∀ p ∈ ps, p ∈ programs) :
    Pass S E b (complexLoop S ps) fun l _ => l = [] := by
  induction ps generalizing b with
  | nil => exact pass_pure _ rfl
  | cons p ps ih =>
    unfold Verify.complexLoop
    refine pass_bind (V.complexRound hE (hp p (by simp))) ?_
    rintro _ b' rfl
    refine pass_bind (ih fun q hq => hp q (by simp [hq])) ?_
    rintro _ b'' rfl
    exact pass_pure _ rfl

theorem Fair.complexCases (V : Fair S env num now) (hE : OnlyDuplicates E) :
    Pass S E b (testComplexCases S) fun _ _ => True := by
  unfold testComplexCases
  refine still_bind (still_skip hE (by decide)) ?_
  refine pass_bind (V.complexLoop hE fun _ h => h) ?_
  rintro _ b' rfl
  exact pass_pure _ trivial

end Verif.Verify
