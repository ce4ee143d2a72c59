import Verif.Replace.Change

/-
What is assumed of Go's letter case functions, for ASCII texts only.
-/

namespace Verif.Letters
open Slog Replace

/-- ASCII text. -/
def Ascii (s : Bytes) : Prop := ∀ b ∈ s, b < 0x80

/-- The lower case letter `l` and the upper case letter `u` are the same letter. -/
def Pair (l u : UInt8) : Prop := 0x61 ≤ l ∧ l ≤ 0x7A ∧ u.toNat + 0x20 = l.toNat

/-- The same byte, or the same letter in either case. -/
def SameLetter (a b : UInt8) : Prop := a = b ∨ Pair a b ∨ Pair b a

/-- Two texts that differ in the case of ASCII letters at most. -/
inductive SameText : Bytes → Bytes → Prop
  | nil : SameText [] []
  | cons {a b : UInt8} {s t : Bytes} : SameLetter a b → SameText s t → SameText (a :: s) (b :: t)

/-- No lower case letter. -/
def NoLower (s : Bytes) : Prop := ∀ b ∈ s, ¬ (0x61 ≤ b ∧ b ≤ 0x7A)

/-- No upper case letter. -/
def NoUpper (s : Bytes) : Prop := ∀ b ∈ s, ¬ (0x41 ≤ b ∧ b ≤ 0x5A)

/-- What Go documents of `strings.EqualFold`, `ToLower`, `ToUpper` and
`slog.Value.String`, restricted to ASCII. -/
structure Good (L : Lib) : Prop where
  fold : ∀ s t, Ascii s → Ascii t → (L.equalFold s t = true ↔ SameText s t)
  lower : ∀ s, Ascii s → SameText (L.toLower s) s ∧ NoUpper (L.toLower s)
  upper : ∀ s, Ascii s → SameText (L.toUpper s) s ∧ NoLower (L.toUpper s)
  string : ∀ s, L.valueString (.string s) = s

/-- Upper case of one byte. -/
def up (b : UInt8) : UInt8 := if 0x61 ≤ b ∧ b ≤ 0x7A then b - 0x20 else b
/-- Lower case of one byte. -/
def down (b : UInt8) : UInt8 := if 0x41 ≤ b ∧ b ≤ 0x5A then b + 0x20 else b

/-- A library that knows ASCII letters only. -/
def asciiLib : Lib where
  equalFold := fun s t => s.map down == t.map down
  toLower := fun s => s.map down
  toUpper := fun s => s.map up
  valueString := fun | .string s => s | _ => []

/-! ### Lemmas -/

instance (l u : UInt8) : Decidable (Pair l u) := by unfold Pair; infer_instance
instance (a b : UInt8) : Decidable (SameLetter a b) := by unfold SameLetter; infer_instance

theorem SameText.refl : ∀ s : Bytes, SameText s s
  | [] => .nil
  | _ :: s => .cons (.inl rfl) (SameText.refl s)

theorem SameLetter.symm {a b : UInt8} (h : SameLetter a b) : SameLetter b a := by
  rcases h with h | h | h
  · exact .inl h.symm
  · exact .inr (.inr h)
  · exact .inr (.inl h)

theorem SameText.symm {s t : Bytes} (h : SameText s t) : SameText t s := by
  induction h with
  | nil => exact .nil
  | cons h _ ih => exact .cons h.symm ih

theorem SameLetter.trans {a b c : UInt8} (h : SameLetter a b) (h' : SameLetter b c) : SameLetter a c := by
  unfold SameLetter Pair at *
  simp only [UInt8.le_iff_toNat_le, ← UInt8.toNat_inj] at *
  simp at *
  omega

theorem SameText.trans {s t u : Bytes} (h : SameText s t) : SameText t u → SameText s u := by
  induction h generalizing u with
  | nil => exact id
  | cons h _ ih =>
    intro h'
    cases h' with
    | cons h1 h2 => exact .cons (h.trans h1) (ih h2)

theorem SameText.length {s t : Bytes} (h : SameText s t) : s.length = t.length := by
  induction h with
  | nil => rfl
  | cons _ _ ih => simp [ih]

/-- A text is told by its letters if none of them is lower case. -/
theorem SameText.eq_of_noLower {s t : Bytes} (h : SameText s t) : NoLower s → NoLower t → s = t := by
  induction h with
  | nil => intros; rfl
  | @cons a b s t h _ ih =>
    intro h1 h2
    have e := ih (fun x hx => h1 x (by simp [hx])) (fun x hx => h2 x (by simp [hx]))
    have ha := h1 a (by simp)
    have hb := h2 b (by simp)
    rw [e]
    congr 1
    unfold SameLetter Pair at h
    simp only [UInt8.le_iff_toNat_le, ← UInt8.toNat_inj] at *
    simp at *
    omega

/-- Or none upper case. -/
theorem SameText.eq_of_noUpper {s t : Bytes} (h : SameText s t) : NoUpper s → NoUpper t → s = t := by
  induction h with
  | nil => intros; rfl
  | @cons a b s t h _ ih =>
    intro h1 h2
    have e := ih (fun x hx => h1 x (by simp [hx])) (fun x hx => h2 x (by simp [hx]))
    have ha := h1 a (by simp)
    have hb := h2 b (by simp)
    rw [e]
    congr 1
    unfold SameLetter Pair at h
    simp only [UInt8.le_iff_toNat_le, ← UInt8.toNat_inj] at *
    simp at *
    omega

theorem SameText.ascii {s t : Bytes} (h : SameText s t) : Ascii t → Ascii s := by
  induction h with
  | nil => exact id
  | @cons a b s t h _ ih =>
    intro hb x hx
    rcases List.mem_cons.1 hx with rfl | hx
    · have := hb b (by simp)
      unfold SameLetter Pair at h
      simp only [UInt8.le_iff_toNat_le, UInt8.lt_iff_toNat_lt] at *
      simp at *
      rcases h with h | h | h
      · rw [h]; exact this
      · omega
      · omega
    · exact ih (fun y hy => hb y (by simp [hy])) x hx

set_option maxRecDepth 100000 in
theorem up_spec (b : UInt8) : SameLetter (up b) b ∧ ¬ (0x61 ≤ up b ∧ up b ≤ 0x7A) := by
  revert b; apply forall_byte; decide +kernel

set_option maxRecDepth 100000 in
theorem down_spec (b : UInt8) : SameLetter (down b) b ∧ ¬ (0x41 ≤ down b ∧ down b ≤ 0x5A) := by
  revert b; apply forall_byte; decide +kernel

theorem up_text : ∀ s : Bytes, SameText (s.map up) s ∧ NoLower (s.map up)
  | [] => ⟨.nil, by simp [NoLower]⟩
  | a :: s => by
    obtain ⟨h1, h2⟩ := up_text s
    refine ⟨.cons (up_spec a).1 h1, fun b hb => ?_⟩
    rcases List.mem_cons.1 hb with rfl | hb
    · exact (up_spec a).2
    · exact h2 b hb

theorem down_text : ∀ s : Bytes, SameText (s.map down) s ∧ NoUpper (s.map down)
  | [] => ⟨.nil, by simp [NoUpper]⟩
  | a :: s => by
    obtain ⟨h1, h2⟩ := down_text s
    refine ⟨.cons (down_spec a).1 h1, fun b hb => ?_⟩
    rcases List.mem_cons.1 hb with rfl | hb
    · exact (down_spec a).2
    · exact h2 b hb

/-- The assumptions can be met. -/
theorem ascii_good : Good asciiLib where
  fold := fun s t _ _ => by
    simp only [asciiLib, beq_iff_eq]
    constructor
    · intro h
      have h1 := (down_text s).1
      rw [h] at h1
      exact h1.symm.trans (down_text t).1
    · intro h
      exact SameText.eq_of_noUpper (((down_text s).1.trans h).trans (down_text t).1.symm)
        (down_text s).2 (down_text t).2
  lower := fun s _ => down_text s
  upper := fun s _ => up_text s
  string := fun _ => rfl

end Verif.Letters
