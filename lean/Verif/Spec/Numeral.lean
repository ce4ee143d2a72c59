import Verif.Slog
import Verif.Spec.JsonParse

/-
Decimal numerals: what `decNat`, `decInt` and `F64.text` print is a JSON
number and reads back as the number printed.
-/

set_option linter.unusedSimpArgs false

namespace Verif.Slog
open Json

/-- Reading of a string of decimal digits. -/
def readNat (s : Bytes) : Option Nat :=
  s.foldl (fun acc b => acc.bind fun n =>
    if isDigit b then some (n * 10 + (b.toNat - 0x30)) else none) (some 0)

/-- Reading of a signed decimal numeral. -/
def readInt : Bytes → Option Int
  | 0x2D :: s => (readNat s).map fun n => -(n : Int)
  | s => (readNat s).map fun n => (n : Int)

theorem digit_toNat {n : Nat} (h : n < 10) : (UInt8.ofNat (0x30 + n)).toNat = 0x30 + n := by
  rw [UInt8.toNat_ofNat']; omega

theorem isDigit_iff (b : UInt8) : isDigit b = true ↔ 0x30 ≤ b.toNat ∧ b.toNat ≤ 0x39 := by
  simp [isDigit, UInt8.le_iff_toNat_le]

theorem isDigit_digit {n : Nat} (h : n < 10) : isDigit (UInt8.ofNat (0x30 + n)) = true := by
  rw [isDigit_iff, digit_toNat h]; omega

theorem readNat_concat (s : Bytes) (b : UInt8) :
    readNat (s ++ [b]) = (readNat s).bind fun n =>
      if isDigit b then some (n * 10 + (b.toNat - 0x30)) else none := by
  simp [readNat]

theorem readNat_decNat (n : Nat) : readNat (decNat n) = some n := by
  induction n using Nat.strongRecOn with
  | _ n ih =>
    rw [decNat]
    split
    · rename_i h
      have h1 := isDigit_digit h
      have h2 := digit_toNat h
      generalize UInt8.ofNat (0x30 + n) = d at *
      simp [readNat, h1, h2]
    · rename_i h
      have h10 : n % 10 < 10 := Nat.mod_lt _ (by omega)
      rw [readNat_concat, ih (n / 10) (by omega)]
      have h1 := isDigit_digit h10
      have h2 := digit_toNat h10
      generalize UInt8.ofNat (0x30 + n % 10) = d at *
      simp [h1, h2]
      omega

theorem decNat_digits (n : Nat) : (decNat n).all isDigit = true := by
  induction n using Nat.strongRecOn with
  | _ n ih =>
    rw [decNat]
    split
    · rename_i h
      have h1 := isDigit_digit h
      generalize UInt8.ofNat (0x30 + n) = d at *
      simp [h1]
    · rename_i h
      have h10 : n % 10 < 10 := Nat.mod_lt _ (by omega)
      have h1 := isDigit_digit h10
      generalize UInt8.ofNat (0x30 + n % 10) = d at *
      simp only [List.all_append, ih (n / 10) (by omega), List.all_cons, h1, List.all_nil,
        Bool.and_self]

theorem decNat_head {n : Nat} (hn : n ≠ 0) :
    ∃ d s, decNat n = d :: s ∧ d ≠ 0x30 ∧ isDigit d = true := by
  induction n using Nat.strongRecOn with
  | _ n ih =>
    rw [decNat]
    split
    · rename_i h
      refine ⟨_, _, rfl, ?_, isDigit_digit h⟩
      intro e
      have := digit_toNat h
      rw [e] at this
      simp at this
      omega
    · rename_i h
      obtain ⟨d, s, e, h1, h2⟩ := ih (n / 10) (by omega) (by omega)
      exact ⟨d, s ++ [UInt8.ofNat (0x30 + n % 10)], by rw [e]; simp, h1, h2⟩

/-- Numerals with a fraction part that does not start with a digit. -/
theorem isUNumber_decNat (n : Nat) {f : Bytes} (hf : isFrac f = true)
    (hd : ∀ a ∈ f.head?, isDigit a = false) : isUNumber (decNat n ++ f) = true := by
  by_cases hn : n = 0
  · subst hn
    have : decNat 0 = [0x30] := by rw [decNat]; rfl
    simp [this, isUNumber, hf]
  · obtain ⟨d, s, e, h1, h2⟩ := decNat_head hn
    have hall := decNat_digits n
    rw [e] at hall ⊢
    simp only [List.all_cons, Bool.and_eq_true] at hall
    have hall' : ∀ a ∈ s, isDigit a = true := by simpa using hall.2
    have : (s ++ f).dropWhile isDigit = f := by
      rw [List.dropWhile_append_of_pos hall']
      match f, hd with
      | [], _ => rfl
      | a :: f, hd => simp [hd a rfl]
    simp [isUNumber, h1, h2, this, hf]

theorem isNumber_of_unsigned {s : Bytes} (h : isUNumber s = true) : isNumber s = true := by
  unfold isNumber
  split
  · rename_i s
    simp [isUNumber, isDigit] at h
  · exact h

theorem isNumber_decNat (n : Nat) : isNumber (decNat n) = true := by
  apply isNumber_of_unsigned
  have := isUNumber_decNat n (f := []) (by rfl) (by simp)
  simpa using this

theorem isNumber_decInt (i : Int) : isNumber (decInt i) = true := by
  cases i with
  | ofNat n => exact isNumber_decNat n
  | negSucc n =>
    have := isUNumber_decNat (n + 1) (f := []) (by rfl) (by simp)
    simpa [decInt, isNumber] using this

theorem decNat_ne_minus (n : Nat) (s : Bytes) : decNat n ≠ 0x2D :: s := by
  intro h
  have := decNat_digits n
  rw [h] at this
  simp [isDigit] at this

theorem readInt_decInt (i : Int) : readInt (decInt i) = some i := by
  cases i with
  | ofNat n =>
    unfold readInt
    split
    · rename_i s e; exact absurd e (decNat_ne_minus n s)
    · simp [decInt, readNat_decNat]
  | negSucc n =>
    simp [decInt, readInt, readNat_decNat]
    omega

theorem isNumber_float (neg : Bool) (ip : Nat) (frac : List (Fin 10)) :
    isNumber (F64.fin neg ip frac).text = true := by
  have hu : isUNumber (decNat ip ++ (if frac.isEmpty then [] else
      0x2E :: frac.map fun d => UInt8.ofNat (0x30 + d.val))) = true := by
    match frac with
    | [] => exact isUNumber_decNat ip (by rfl) (by simp)
    | d :: frac =>
      have hd : ∀ d : Fin 10, isDigit (UInt8.ofNat (0x30 + d.val)) = true :=
        fun d => isDigit_digit d.isLt
      apply isUNumber_decNat ip
      · simp only [List.isEmpty_cons, Bool.false_eq_true, if_false, List.map_cons, isFrac, hd,
          Bool.true_and]
        have hm : ∀ a ∈ frac.map (fun d : Fin 10 => UInt8.ofNat (0x30 + d.val)),
            isDigit a = true := by
          intro a ha
          simp only [List.mem_map] at ha
          obtain ⟨d, _, rfl⟩ := ha
          exact hd d
        have := List.dropWhile_append_of_pos (l₂ := []) hm
        rw [List.append_nil] at this
        rw [this]; rfl
      · simp [isDigit]
  cases neg with
  | true => simpa [F64.text, isNumber] using hu
  | false => exact isNumber_of_unsigned (by simpa [F64.text] using hu)

end Verif.Slog
