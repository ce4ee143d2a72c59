import Verif.Basic

/-
Specification: well-formed UTF-8 (Unicode Standard, Table 3-7).
Independent of the code under verification.
-/

namespace Verif

/-- A property that holds of all 256 byte values holds of every byte. -/
theorem forall_byte {P : UInt8 → Prop} (h : ∀ n : Fin 256, P (UInt8.ofFin n)) (b : UInt8) :
    P b := by
  have := h b.toFin
  simpa using this

namespace Utf8

/-- Continuation byte `80..BF`. -/
def cont (b : UInt8) : Bool := 0x80 ≤ b && b ≤ 0xBF

/-- Lead byte `C2..DF` of a two byte sequence. -/
def lead2 (a : UInt8) : Bool := 0xC2 ≤ a && a ≤ 0xDF

/-- First two bytes of a three byte sequence: `E0 A0..BF`, `E1..EC 80..BF`,
`ED 80..9F`, `EE..EF 80..BF`. -/
def lead3 (a b : UInt8) : Bool :=
  0xE0 ≤ a && a ≤ 0xEF && cont b && (a != 0xE0 || 0xA0 ≤ b) && (a != 0xED || b ≤ 0x9F)

/-- First two bytes of a four byte sequence: `F0 90..BF`, `F1..F3 80..BF`, `F4 80..8F`. -/
def lead4 (a b : UInt8) : Bool :=
  0xF0 ≤ a && a ≤ 0xF4 && cont b && (a != 0xF0 || 0x90 ≤ b) && (a != 0xF4 || b ≤ 0x8F)

/-- The bytes of one well-formed character. -/
inductive Char1 : Bytes → Prop
  | one {a} : a < 0x80 → Char1 [a]
  | two {a b} : lead2 a = true → cont b = true → Char1 [a, b]
  | three {a b c} : lead3 a b = true → cont c = true → Char1 [a, b, c]
  | four {a b c d} : lead4 a b = true → cont c = true → cont d = true → Char1 [a, b, c, d]

/-- Well-formed UTF-8 text: a concatenation of well-formed characters. -/
inductive Valid : Bytes → Prop
  | nil : Valid []
  | cons {c s} : Char1 c → Valid s → Valid (c ++ s)

/-- Executable check of well-formedness. -/
def isValid : Bytes → Bool
  | [] => true
  | a :: s =>
    if a < 0x80 then isValid s
    else match s with
      | [] => false
      | b :: s =>
        if lead2 a && cont b then isValid s
        else match s with
          | [] => false
          | c :: s =>
            if lead3 a b && cont c then isValid s
            else match s with
              | [] => false
              | d :: s => lead4 a b && cont c && cont d && isValid s

theorem isValid_of_valid {s : Bytes} (h : Valid s) : isValid s = true := by
  induction h with
  | nil => rfl
  | cons hc _ ih =>
    cases hc with
    | one ha => simp only [List.cons_append, List.nil_append]; unfold isValid; simp [ha, ih]
    | @two a b ha hb =>
      have : ¬ a < (0x80 : UInt8) := by
        intro h; simp [lead2] at ha; grind
      simp only [List.cons_append, List.nil_append]; unfold isValid; simp [this, ha, hb, ih]
    | @three a b c ha hc =>
      have h1 : ¬ a < (0x80 : UInt8) := by
        intro h; simp [lead3] at ha; grind
      have h2 : lead2 a = false := by
        simp only [lead3, lead2, Bool.and_eq_true, decide_eq_true_eq] at *
        grind
      simp only [List.cons_append, List.nil_append]; unfold isValid; simp [h1, h2, ha, hc, ih]
    | @four a b c d ha hc hd =>
      have h1 : ¬ a < (0x80 : UInt8) := by
        intro h; simp [lead4] at ha; grind
      have h2 : lead2 a = false := by
        simp only [lead4, lead2, Bool.and_eq_true, decide_eq_true_eq] at *
        grind
      have h3 : lead3 a b = false := by
        simp only [lead4, lead3, Bool.and_eq_true, decide_eq_true_eq] at *
        grind
      simp only [List.cons_append, List.nil_append]; unfold isValid; simp [h1, h2, h3, ha, hc, hd, ih]

theorem valid_of_isValid {s : Bytes} (h : isValid s = true) : Valid s := by
  fun_induction isValid s with
  | case1 => exact .nil
  | case2 a s ha ih => exact .cons (.one ha) (ih h)
  | case3 => simp at h
  | case4 a ha b s hb ih => simp at hb; exact .cons (.two hb.1 hb.2) (ih h)
  | case5 => simp at h
  | case6 a _ b _ c s hc ih => simp at hc; exact .cons (.three hc.1 hc.2) (ih h)
  | case7 => simp at h
  | case8 a _ b _ c _ d s ih =>
    simp at h
    exact .cons (.four h.1.1.1 h.1.1.2 h.1.2) (ih h.2)

theorem valid_iff (s : Bytes) : Valid s ↔ isValid s = true :=
  ⟨isValid_of_valid, valid_of_isValid⟩

instance (s : Bytes) : Decidable (Valid s) := decidable_of_iff _ (valid_iff s).symm

theorem Valid.append {s t : Bytes} (hs : Valid s) (ht : Valid t) : Valid (s ++ t) := by
  induction hs with
  | nil => exact ht
  | cons hc _ ih => rw [List.append_assoc]; exact .cons hc ih

/-- Every ASCII text is well formed. -/
theorem valid_of_ascii {s : Bytes} (h : ∀ b ∈ s, b < 0x80) : Valid s := by
  induction s with
  | nil => exact .nil
  | cons a s ih =>
    exact Valid.cons (c := [a]) (.one (h a (by simp))) (ih fun b hb => h b (by simp [hb]))

/-- UTF-8 encoding of a code point (Unicode Standard, Table 3-6). -/
def encode (n : Nat) : Bytes :=
  if n < 0x80 then [UInt8.ofNat n]
  else if n < 0x800 then [UInt8.ofNat (0xC0 + n / 64), UInt8.ofNat (0x80 + n % 64)]
  else if n < 0x10000 then
    [UInt8.ofNat (0xE0 + n / 4096), UInt8.ofNat (0x80 + n / 64 % 64), UInt8.ofNat (0x80 + n % 64)]
  else
    [UInt8.ofNat (0xF0 + n / 262144), UInt8.ofNat (0x80 + n / 4096 % 64),
      UInt8.ofNat (0x80 + n / 64 % 64), UInt8.ofNat (0x80 + n % 64)]

example : Valid b!"ϢӦ ok 𝄞" := by decide
example : ¬ Valid [0x61, 0xC3] := by decide
example : encode 0x1D11E = b!"𝄞" := by decide

end Utf8
end Verif
