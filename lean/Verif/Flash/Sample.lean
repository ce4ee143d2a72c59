import Verif.Flash.Content

/-
A concrete environment and handler configuration, used by the examples and the
counterexamples.
-/

namespace Verif.Flash.Sample
open Slog Json LogTree

/-- A sample environment: times shown as decimal numbers, strings
marshalled as flash quotes them. -/
def env : Env where
  formatTime := fun _ t => b!"T" ++ decNat t
  timeString := fun t => b!"at " ++ decNat t
  durationString := fun d => decInt d ++ b!"ns"
  marshalString := strText
  marshalFloat := fun f => .ok f.text
  marshalAttrs := fun _ => .ok b!"[]"
  frame := fun n => (b!"main.f", b!"main.go", n)
  isPrint := fun n => 0xA1 ≤ n && n != 0xAD && n < 0xE000
  stack := 50

/-- Sample extras: the defaults (handlers/flash/extras.go:46-87). -/
def extras : Extras where
  timeFormat := b!"2006"
  levelNames := fun l =>
    if l = levelDebug then b!"DEBUG" else if l = levelInfo then b!"INFO"
    else if l = levelWarn then b!"WARN" else if l = levelError then b!"ERROR" else []
  levelKey := b!"level"
  messageKey := b!"msg"
  sourceKey := b!"source"
  timeKey := b!"time"

/-- Sample handler. -/
def root : H := .plain (newHandler env {} extras)

theorem env_clean : EnvClean env := fun _ hs => strText_text hs

/-- A string attribute. -/
def s (k v : Bytes) : Attr := .mk k (.string v)
/-- An integer attribute. -/
def i (k : Bytes) (n : Int) : Attr := .mk k (.int64 n)
/-- A LogValuer attribute. -/
def lv (k : Bytes) (v : Value) : Attr := .mk k (.logValuer { marshal := .ok b!"{}" } v)

/-- A sample derivation: attributes, a group, more attributes. -/
def ops : List Op := [.attrs [i b!"a" 1], .group b!"g", .attrs [s b!"b" b!"x\ty"]]

/-- A sample record. -/
def record : Record :=
  { time := some 7, level := 4, message := b!"héllo \"w\"", pc := 3,
    attrs := [.grp b!"h" [i b!"c" (-2), emptyAttr, .grp b!"" [.mk b!"d" (.bool true)]],
      .grp b!"e" [], lv b!"f" (.string b!"z")] }

theorem body_T (n : Nat) : decodeBody (b!"T" ++ decNat n) = some (b!"T" ++ decNat n) := by
  have key : ∀ s : Bytes, s.all isDigit = true → decodeBody s = some s := by
    intro s
    induction s with
    | nil => intro _; rfl
    | cons a s ih =>
      intro h
      simp only [List.all_cons, Bool.and_eq_true] at h
      have h1 : ∀ a : UInt8, isDigit a = true → a ≠ 0x5C ∧ a ≠ 0x22 ∧ ¬ a < 0x20 ∧ a < 0x80 := by
        set_option maxRecDepth 100000 in
        apply forall_byte; decide +kernel
      obtain ⟨x1, x2, x3, x4⟩ := h1 a h.1
      rw [decodeBody.eq_def]
      simp [x1, x2, x3, x4, ih h.2]
  rw [List.cons_append, List.nil_append, decodeBody.eq_def]
  simp [key _ (decNat_digits n)]

theorem ops_clean : OpsClean env extras.timeFormat ops := by
  simp only [ops, OpsClean, ListClean, i, s, AttrClean, ValClean, LeafClean]
  refine ⟨⟨⟨by decide, trivial⟩, trivial⟩, by decide, ⟨⟨by decide, by decide⟩, trivial⟩, trivial⟩

theorem record_clean : RecordClean env extras record where
  timeKey := by decide
  levelKey := by decide
  messageKey := by decide
  sourceKey := by decide
  time := fun t _ => body_T t
  level := by decide
  message := by decide
  function := by decide
  file := by decide
  attrs := by
    simp only [record, ListClean, i, lv, Attr.grp, emptyAttr, AttrClean, ValClean, LeafClean,
      AnyClean, Value.anyOf, Value.resolve]
    refine ⟨⟨by decide, ⟨by decide, trivial⟩, ⟨by decide, trivial⟩, ⟨by decide, ⟨by decide, trivial⟩,
      trivial⟩, trivial⟩, ⟨by decide, trivial⟩, ⟨by decide, ⟨.str b!"z", ?_⟩, rfl⟩, trivial⟩
    exact strText_text (by decide)

end Verif.Flash.Sample
