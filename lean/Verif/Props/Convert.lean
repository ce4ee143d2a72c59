import Verif.Tools.Convert

/-
C49: the conversion of levels preserves order.
-/

namespace Verif.Props.Convert

open Verif Verif.Slog Verif.Tools

/-- `a` is at least as severe as `b`, for zap and for logrus, which counts downwards. -/
def ZapGe (a b : Zap) : Prop := a.val ≥ b.val
def LogrusGe (a b : Logrus) : Prop := a.val ≤ b.val

instance (a b : Zap) : Decidable (ZapGe a b) := by unfold ZapGe; infer_instance
instance (a b : Logrus) : Decidable (LogrusGe a b) := by unfold LogrusGe; infer_instance

theorem zap_cases (l : Int) : (8 ≤ l ∧ toZap l = .error) ∨ (4 ≤ l ∧ l < 8 ∧ toZap l = .warn) ∨ (0 ≤ l ∧ l < 4 ∧ toZap l = .info) ∨
    (l < 0 ∧ toZap l = .debug) := by
  unfold toZap levelError levelWarn levelInfo
  split
  · left; exact ⟨by omega, rfl⟩
  · split
    · right; left; exact ⟨by omega, by omega, rfl⟩
    · split
      · right; right; left; exact ⟨by omega, by omega, rfl⟩
      · right; right; right; exact ⟨by omega, rfl⟩

theorem logrus_cases (l : Int) : (8 ≤ l ∧ toLogrus l = .error) ∨ (4 ≤ l ∧ l < 8 ∧ toLogrus l = .warn) ∨ (0 ≤ l ∧ l < 4 ∧ toLogrus l = .info) ∨
    (l < 0 ∧ toLogrus l = .debug) := by
  unfold toLogrus levelError levelWarn levelInfo
  split
  · left; exact ⟨by omega, rfl⟩
  · split
    · right; left; exact ⟨by omega, by omega, rfl⟩
    · split
      · right; right; left; exact ⟨by omega, by omega, rfl⟩
      · right; right; right; exact ⟨by omega, rfl⟩

/-- A more severe level never becomes a less severe one. -/
theorem C49_order (a b : Int) (h : a ≥ b) : ZapGe (toZap a) (toZap b) ∧ LogrusGe (toLogrus a) (toLogrus b) := by
  constructor
  · unfold ZapGe
    rcases zap_cases a with ⟨h1, e1⟩ | ⟨h1, h1', e1⟩ | ⟨h1, h1', e1⟩ | ⟨h1, e1⟩ <;>
      rcases zap_cases b with ⟨h2, e2⟩ | ⟨h2, h2', e2⟩ | ⟨h2, h2', e2⟩ | ⟨h2, e2⟩ <;>
        rw [e1, e2] <;> first | decide | omega
  · unfold LogrusGe
    rcases logrus_cases a with ⟨h1, e1⟩ | ⟨h1, h1', e1⟩ | ⟨h1, h1', e1⟩ | ⟨h1, e1⟩ <;>
      rcases logrus_cases b with ⟨h2, e2⟩ | ⟨h2, h2', e2⟩ | ⟨h2, h2', e2⟩ | ⟨h2, e2⟩ <;>
        rw [e1, e2] <;> first | decide | omega

/-- The four levels of slog become those of the same name. -/
theorem C49_standard :
    toZap (-4) = .debug ∧ toZap 0 = .info ∧ toZap 4 = .warn ∧ toZap 8 = .error ∧
      toLogrus (-4) = .debug ∧ toLogrus 0 = .info ∧ toLogrus 4 = .warn ∧ toLogrus 8 = .error := by decide

/-- What a threshold means after conversion. Nothing that slog would log is lost; and for thresholds info, warning and
error nothing else is logged. -/
theorem C49_threshold (limit level : Int) :
    (level ≥ limit → ZapGe (toZap level) (toZap limit) ∧ LogrusGe (toLogrus level) (toLogrus limit)) ∧
      (limit = 0 ∨ limit = 4 ∨ limit = 8 →
        (ZapGe (toZap level) (toZap limit) ↔ level ≥ limit) ∧ (LogrusGe (toLogrus level) (toLogrus limit) ↔ level ≥ limit)) := by
  refine ⟨C49_order level limit, ?_⟩
  have std := C49_standard
  rintro (rfl | rfl | rfl)
  · rw [std.2.1, std.2.2.2.2.2.1]
    constructor
    · rcases zap_cases level with ⟨h, e⟩ | ⟨h, h', e⟩ | ⟨h, h', e⟩ | ⟨h, e⟩ <;> rw [e] <;> unfold ZapGe Zap.val <;> simp <;> omega
    · rcases logrus_cases level with ⟨h, e⟩ | ⟨h, h', e⟩ | ⟨h, h', e⟩ | ⟨h, e⟩ <;> rw [e] <;> unfold LogrusGe Logrus.val <;> simp <;> omega
  · rw [std.2.2.1, std.2.2.2.2.2.2.1]
    constructor
    · rcases zap_cases level with ⟨h, e⟩ | ⟨h, h', e⟩ | ⟨h, h', e⟩ | ⟨h, e⟩ <;> rw [e] <;> unfold ZapGe Zap.val <;> simp <;> omega
    · rcases logrus_cases level with ⟨h, e⟩ | ⟨h, h', e⟩ | ⟨h, h', e⟩ | ⟨h, e⟩ <;> rw [e] <;> unfold LogrusGe Logrus.val <;> simp <;> omega
  · rw [std.2.2.2.1, std.2.2.2.2.2.2.2]
    constructor
    · rcases zap_cases level with ⟨h, e⟩ | ⟨h, h', e⟩ | ⟨h, h', e⟩ | ⟨h, e⟩ <;> rw [e] <;> unfold ZapGe Zap.val <;> simp <;> omega
    · rcases logrus_cases level with ⟨h, e⟩ | ⟨h, h', e⟩ | ⟨h, h', e⟩ | ⟨h, e⟩ <;> rw [e] <;> unfold LogrusGe Logrus.val <;> simp <;> omega

/-- Levels between the named ones, and below them: a threshold of 2 becomes info, so that level 1 is logged too; one of debug
lets everything through. -/
example : toZap 5 = .warn ∧ toZap (-5) = .debug ∧ toLogrus 100 = .error ∧ ZapGe (toZap 1) (toZap 2) ∧ ZapGe (toZap (-8)) (toZap (-4)) := by decide

end Verif.Props.Convert
