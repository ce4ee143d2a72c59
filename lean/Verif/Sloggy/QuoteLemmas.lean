import Verif.Spec.Quotable
import Verif.Sloggy.Quote

/-
Lemmas: which strings `strconv.Quote` renders as JSON strings.
-/

set_option linter.unusedSimpArgs false

namespace Verif.Sloggy
open Json

theorem toNat_inj {a : UInt8} {n : Nat} (h : n < 256) (e : a.toNat = n) : UInt8.ofNat n = a := by
  apply UInt8.toNat_inj.1
  rw [UInt8.toNat_ofNat']
  omega

theorem cont_nat {b : UInt8} : Utf8.cont b = true ↔ 128 ≤ b.toNat ∧ b.toNat ≤ 191 := by
  simp [Utf8.cont, UInt8.le_iff_toNat_le]

theorem lead2_nat {a : UInt8} : Utf8.lead2 a = true ↔ 194 ≤ a.toNat ∧ a.toNat ≤ 223 := by
  simp [Utf8.lead2, UInt8.le_iff_toNat_le]

theorem lead3_nat {a b : UInt8} : Utf8.lead3 a b = true ↔
    224 ≤ a.toNat ∧ a.toNat ≤ 239 ∧ 128 ≤ b.toNat ∧ b.toNat ≤ 191 ∧
      (a.toNat = 224 → 160 ≤ b.toNat) ∧ (a.toNat = 237 → b.toNat ≤ 159) := by
  have h : ∀ (x : UInt8), a = x ↔ a.toNat = x.toNat := fun x => UInt8.toNat_inj.symm
  simp [Utf8.lead3, Utf8.cont, UInt8.le_iff_toNat_le, h]
  omega

theorem lead4_nat {a b : UInt8} : Utf8.lead4 a b = true ↔
    240 ≤ a.toNat ∧ a.toNat ≤ 244 ∧ 128 ≤ b.toNat ∧ b.toNat ≤ 191 ∧
      (a.toNat = 240 → 144 ≤ b.toNat) ∧ (a.toNat = 244 → b.toNat ≤ 143) := by
  have h : ∀ (x : UInt8), a = x ↔ a.toNat = x.toNat := fun x => UInt8.toNat_inj.symm
  simp [Utf8.lead4, Utf8.cont, UInt8.le_iff_toNat_le, h]
  omega

theorem encode2 {a b : UInt8} (h1 : Utf8.lead2 a = true) (h2 : Utf8.cont b = true) :
    rune2 a b < 0x800 ∧ 0x80 ≤ rune2 a b ∧ Utf8.encode (rune2 a b) = [a, b] := by
  rw [lead2_nat] at h1
  rw [cont_nat] at h2
  have e1 : rune2 a b = (a.toNat - 192) * 64 + (b.toNat - 128) := by simp only [rune2]; omega
  have l1 : ¬ rune2 a b < 0x80 := by omega
  have l2 : rune2 a b < 0x800 := by omega
  refine ⟨l2, by omega, ?_⟩
  simp only [Utf8.encode, l1, l2, if_true, if_false]
  rw [toNat_inj (by omega) (a := a) (by omega), toNat_inj (by omega) (a := b) (by omega)]

theorem encode3 {a b c : UInt8} (h1 : Utf8.lead3 a b = true) (h2 : Utf8.cont c = true) :
    rune3 a b c < 0x10000 ∧ ¬ (0xD800 ≤ rune3 a b c ∧ rune3 a b c ≤ 0xDFFF) ∧
      Utf8.encode (rune3 a b c) = [a, b, c] := by
  rw [lead3_nat] at h1
  rw [cont_nat] at h2
  have e1 : rune3 a b c = (a.toNat - 224) * 4096 + (b.toNat - 128) * 64 + (c.toNat - 128) := by
    simp only [rune3]; omega
  have l1 : ¬ rune3 a b c < 0x80 := by omega
  have l2 : ¬ rune3 a b c < 0x800 := by omega
  have l3 : rune3 a b c < 0x10000 := by omega
  refine ⟨l3, by omega, ?_⟩
  simp only [Utf8.encode, l1, l2, l3, if_true, if_false]
  rw [toNat_inj (by omega) (a := a) (by omega), toNat_inj (by omega) (a := b) (by omega),
    toNat_inj (by omega) (a := c) (by omega)]

theorem encode4 {a b c d : UInt8} (h1 : Utf8.lead4 a b = true) (h2 : Utf8.cont c = true)
    (h3 : Utf8.cont d = true) :
    0x10000 ≤ rune4 a b c d ∧ rune4 a b c d < 0x110000 ∧
      Utf8.encode (rune4 a b c d) = [a, b, c, d] := by
  rw [lead4_nat] at h1
  rw [cont_nat] at h2 h3
  have e1 : rune4 a b c d = (a.toNat - 240) * 262144 + (b.toNat - 128) * 4096 + (c.toNat - 128) * 64 +
      (d.toNat - 128) := by simp only [rune4]; omega
  have l1 : ¬ rune4 a b c d < 0x80 := by omega
  have l2 : ¬ rune4 a b c d < 0x800 := by omega
  have l3 : ¬ rune4 a b c d < 0x10000 := by omega
  refine ⟨by omega, by omega, ?_⟩
  simp only [Utf8.encode, l1, l2, l3, if_true, if_false]
  rw [toNat_inj (by omega) (a := a) (by omega), toNat_inj (by omega) (a := b) (by omega),
    toNat_inj (by omega) (a := c) (by omega), toNat_inj (by omega) (a := d) (by omega)]

/-- A code point beyond the basic plane is encoded as four bytes. -/
theorem encode_four {n : Nat} (h1 : 0x10000 ≤ n) (h2 : n < 0x110000) :
    ∃ a b c d, Utf8.encode n = [a, b, c, d] ∧ Utf8.lead4 a b = true ∧ Utf8.cont c = true ∧
      Utf8.cont d = true ∧ rune4 a b c d = n := by
  have l1 : ¬ n < 0x80 := by omega
  have l2 : ¬ n < 0x800 := by omega
  have l3 : ¬ n < 0x10000 := by omega
  refine ⟨_, _, _, _, by simp only [Utf8.encode, l1, l2, l3, if_false]; rfl, ?_, ?_, ?_, ?_⟩
  · rw [lead4_nat]
    simp only [UInt8.toNat_ofNat']
    omega
  · rw [cont_nat]; simp only [UInt8.toNat_ofNat']; omega
  · rw [cont_nat]; simp only [UInt8.toNat_ofNat']; omega
  · simp only [rune4, UInt8.toNat_ofNat']; omega

theorem hexVal_lower {n : Nat} (h : n < 16) : hexVal (lowerHex n) = some n := by
  have : ∀ n : Fin 16, hexVal (lowerHex n.val) = some n.val := by decide
  exact this ⟨n, h⟩

theorem hex4_lower {n : Nat} (h : n < 0x10000) :
    hex4 (lowerHex (n / 4096 % 16)) (lowerHex (n / 256 % 16)) (lowerHex (n / 16 % 16))
      (lowerHex (n % 16)) = some n := by
  simp only [hex4, hexVal_lower (show n / 4096 % 16 < 16 by omega),
    hexVal_lower (show n / 256 % 16 < 16 by omega), hexVal_lower (show n / 16 % 16 < 16 by omega),
    hexVal_lower (show n % 16 < 16 by omega), Option.some.injEq]
  omega

theorem decodeBody_hexUnit {n : Nat} (h : n < 0x10000) (s : Bytes) :
    decodeBody (hexUnit n ++ s) = (decodeBody s).map (unitBytes n ++ ·) :=
  decodeBody_uni (hex4_lower h) s

/-- `\x` is no JSON escape. -/
theorem decodeBody_hexByte (a : UInt8) (s : Bytes) : decodeBody (hexByte a ++ s) = none := by
  rw [hexByte, List.cons_append, List.cons_append, decodeBody.eq_def]
  simp [simpleEscape]

/-- `\U` is no JSON escape. -/
theorem decodeBody_hexLong (n : Nat) (s : Bytes) : decodeBody (hexLong n ++ s) = none := by
  rw [hexLong, List.cons_append, List.cons_append, decodeBody.eq_def]
  simp [simpleEscape]

theorem quoteAscii_cases (a : UInt8) (h : a < 0x80) :
    (commonByte a = true ∧ ((quoteAscii a = [a] ∧ 0x20 ≤ a ∧ a ≠ 0x22 ∧ a ≠ 0x5C) ∨
      ∃ e, quoteAscii a = [0x5C, e] ∧ simpleEscape e = some a)) ∨
    (commonByte a = false ∧ (quoteAscii a = hexByte a ∨
      ∃ e, quoteAscii a = [0x5C, e] ∧ simpleEscape e = none ∧ e ≠ 0x75)) := by
  have key : ∀ a : UInt8, a < 0x80 →
      (commonByte a = true ∧ ((quoteAscii a = [a] ∧ 0x20 ≤ a ∧ a ≠ 0x22 ∧ a ≠ 0x5C) ∨
        (quoteAscii a = [0x5C, (quoteAscii a).getD 1 0] ∧
          simpleEscape ((quoteAscii a).getD 1 0) = some a))) ∨
      (commonByte a = false ∧ (quoteAscii a = hexByte a ∨
        (quoteAscii a = [0x5C, (quoteAscii a).getD 1 0] ∧
          simpleEscape ((quoteAscii a).getD 1 0) = none ∧ (quoteAscii a).getD 1 0 ≠ 0x75))) := by
    set_option maxRecDepth 100000 in
    apply forall_byte; decide +kernel
  rcases key a h with ⟨h1, h2 | h2⟩ | ⟨h1, h2 | h2⟩
  · exact .inl ⟨h1, .inl h2⟩
  · exact .inl ⟨h1, .inr ⟨_, h2.1, h2.2⟩⟩
  · exact .inr ⟨h1, .inl h2⟩
  · exact .inr ⟨h1, .inr ⟨_, h2.1, h2.2⟩⟩

/-- Decoding what was quoted, for a byte below 0x80. -/
theorem decode_quoteAscii (a : UInt8) (h : a < 0x80) (s : Bytes) :
    decodeBody (quoteAscii a ++ s) = if commonByte a then (decodeBody s).map (a :: ·) else none := by
  rcases quoteAscii_cases a h with ⟨h1, ⟨h2, h3⟩ | ⟨e, h2, h3⟩⟩ | ⟨h1, h2 | ⟨e, h2, h3, h4⟩⟩
  · rw [h1, if_pos rfl, h2]
    exact decodeBody_chr (.one h) (by simpa using h3) s
  · rw [h1, if_pos rfl, h2]
    exact decodeBody_esc h3 s
  · rw [h1, h2, decodeBody_hexByte]; rfl
  · rw [h1, h2, List.cons_append, List.cons_append, decodeBody.eq_def]
    simp [h3, h4]

theorem high_plain {a : UInt8} (h : 0x80 ≤ a) : 0x20 ≤ a ∧ a ≠ 0x22 ∧ a ≠ 0x5C := by
  refine ⟨?_, ?_, ?_⟩
  · exact UInt8.le_trans (by decide) h
  · rintro rfl; revert h; decide
  · rintro rfl; revert h; decide

theorem cont_high {b : UInt8} (h : Utf8.cont b = true) : 0x80 ≤ b := by
  simp only [Utf8.cont, Bool.and_eq_true, decide_eq_true_eq] at h; exact h.1

theorem high_of {a : UInt8} (h : ¬ a < 0x80) : 0x80 ≤ a := UInt8.not_lt.1 h

theorem unitBytes_of {n : Nat} (h : ¬ (0xD800 ≤ n ∧ n ≤ 0xDFFF)) : unitBytes n = Utf8.encode n := by
  simp only [unitBytes, h, if_false]

/-- Inversion of `Quotable` by the first byte. -/
theorem quotable_cons_ascii {p : Nat → Bool} {a : UInt8} {s : Bytes} (h : a < 0x80) :
    Quotable p (a :: s) ↔ commonByte a = true ∧ Quotable p s := by
  have ha : a.toNat < 128 := h
  constructor
  · intro hq
    generalize he : a :: s = t at hq
    cases hq with
    | nil => cases he
    | byte h1 h2 => cases he; exact ⟨h1, h2⟩
    | two h1 h2 h3 => cases he; rw [lead2_nat] at h1; omega
    | three h1 h2 h3 => cases he; rw [lead3_nat] at h1; omega
    | four h1 h2 h3 h4 =>
      obtain ⟨a', b, c, d, e1, e2, _⟩ := encode_four h1 h2
      rw [e1] at he; cases he; rw [lead4_nat] at e2; omega
  · rintro ⟨h1, h2⟩; exact .byte h1 h2

theorem common_lt {a : UInt8} (h : commonByte a = true) : a.toNat < 128 := by
  revert a
  set_option maxRecDepth 100000 in
  apply forall_byte; decide +kernel

theorem quotable_two {p : Nat → Bool} {a b : UInt8} {s : Bytes} (h1 : Utf8.lead2 a = true)
    (h2 : Utf8.cont b = true) : Quotable p (a :: b :: s) ↔ Quotable p s := by
  have h1' := lead2_nat.1 h1
  constructor
  · intro hq
    generalize he : a :: b :: s = t at hq
    cases hq with
    | nil => cases he
    | byte g _ => cases he; have := common_lt g; omega
    | two _ _ h3 => cases he; exact h3
    | three g _ _ => cases he; rw [lead3_nat] at g; omega
    | four g1 g2 _ _ =>
      obtain ⟨a', b, c, d, e1, e2, _⟩ := encode_four g1 g2
      rw [e1] at he; cases he; rw [lead4_nat] at e2; omega
  · exact .two h1 h2

theorem quotable_three {p : Nat → Bool} {a b c : UInt8} {s : Bytes} (h1 : Utf8.lead3 a b = true)
    (h2 : Utf8.cont c = true) : Quotable p (a :: b :: c :: s) ↔ Quotable p s := by
  have h1' := lead3_nat.1 h1
  constructor
  · intro hq
    generalize he : a :: b :: c :: s = t at hq
    cases hq with
    | nil => cases he
    | byte g _ => cases he; have := common_lt g; omega
    | two g _ h3 => cases he; rw [lead2_nat] at g; omega
    | three _ _ h3 => cases he; exact h3
    | four g1 g2 _ _ =>
      obtain ⟨a', b, c, d, e1, e2, _⟩ := encode_four g1 g2
      rw [e1] at he; cases he; rw [lead4_nat] at e2; omega
  · exact .three h1 h2

theorem quotable_four {p : Nat → Bool} {a b c d : UInt8} {s : Bytes} (h1 : Utf8.lead4 a b = true)
    (h2 : Utf8.cont c = true) (h3 : Utf8.cont d = true) :
    Quotable p (a :: b :: c :: d :: s) ↔ p (rune4 a b c d) = true ∧ Quotable p s := by
  have h1' := lead4_nat.1 h1
  constructor
  · intro hq
    generalize he : a :: b :: c :: d :: s = t at hq
    cases hq with
    | nil => cases he
    | byte g _ => cases he; have := common_lt g; omega
    | two g _ h3 => cases he; rw [lead2_nat] at g; omega
    | three g _ h3 => cases he; rw [lead3_nat] at g; omega
    | four g1 g2 g3 g4 =>
      obtain ⟨a', b', c', d', e1, e2, e3, e4, e5⟩ := encode_four g1 g2
      rw [e1] at he; cases he; rw [e5]; exact ⟨g3, g4⟩
  · rintro ⟨h4, h5⟩
    obtain ⟨e1, e2, e3⟩ := encode4 h1 h2 h3
    have := Quotable.four e1 e2 h4 h5
    rw [e3] at this
    exact this

/-- No character starts here. -/
theorem not_quotable {p : Nat → Bool} {a : UInt8} {s : Bytes} (h : ¬ a < 0x80)
    (h2 : ∀ b t, s = b :: t → (Utf8.lead2 a && Utf8.cont b) = false)
    (h3 : ∀ b c t, s = b :: c :: t → (Utf8.lead3 a b && Utf8.cont c) = false)
    (h4 : ∀ b c d t, s = b :: c :: d :: t → (Utf8.lead4 a b && Utf8.cont c && Utf8.cont d) = false) :
    ¬ Quotable p (a :: s) := by
  intro hq
  have ha : ¬ a.toNat < 128 := h
  generalize he : a :: s = t at hq
  cases hq with
  | nil => cases he
  | byte g _ => cases he; exact ha (common_lt g)
  | two g1 g2 _ => cases he; have := h2 _ _ rfl; simp [g1, g2] at this
  | three g1 g2 _ => cases he; have := h3 _ _ _ rfl; simp [g1, g2] at this
  | four g1 g2 _ _ =>
    obtain ⟨a', b', c', d', e1, e2, e3, e4, e5⟩ := encode_four g1 g2
    rw [e1] at he; cases he; have := h4 _ _ _ _ rfl; simp [e2, e3, e4] at this

theorem map_some_iff {o : Option Bytes} {c s : Bytes} {P : Prop}
    (h : (o = some s ↔ P) ∧ (o.isSome = true ↔ P)) :
    (o.map (c ++ ·) = some (c ++ s) ↔ P) ∧ ((o.map (c ++ ·)).isSome = true ↔ P) := by
  refine ⟨?_, by simpa using h.2⟩
  rw [← h.1]
  cases o <;> simp

/-- The text between the quotes is JSON exactly for quotable strings, and then it
stands for the string itself. -/
theorem quoteBody_iff (p : Nat → Bool) (s : Bytes) :
    (decodeBody (quoteBody p s) = some s ↔ Quotable p s) ∧
    ((decodeBody (quoteBody p s)).isSome = true ↔ Quotable p s) := by
  have none_iff : ∀ {b s : Bytes} {P : Prop}, decodeBody b = none → ¬ P →
      (decodeBody b = some s ↔ P) ∧ ((decodeBody b).isSome = true ↔ P) := by
    intro b s P h1 h2
    rw [h1]; simp [h2]
  fun_induction quoteBody p s with
  | case1 => simp [decodeBody, Quotable.nil]
  | case2 a s ha ih =>
    rw [decode_quoteAscii a ha, quotable_cons_ascii ha]
    cases hc : commonByte a with
    | false => simp
    | true =>
      have := map_some_iff (c := [a]) ih
      simpa using this
  | case3 a ha =>
    refine none_iff (by simpa using decodeBody_hexByte a []) (not_quotable ha ?_ ?_ ?_) <;> simp
  | case4 a ha b s h2 ih =>
    simp only [Bool.and_eq_true] at h2
    obtain ⟨e1, e2, e3⟩ := encode2 h2.1 h2.2
    rw [quotable_two h2.1 h2.2]
    have key : decodeBody (quoteRune p [a, b] (rune2 a b) ++ quoteBody p s) =
        (decodeBody (quoteBody p s)).map ([a, b] ++ ·) := by
      simp only [quoteRune]
      split
      · exact decodeBody_chr (.two h2.1 h2.2) (by
          simp only [List.mem_cons, List.not_mem_nil, or_false, forall_eq_or_imp, forall_eq]
          exact ⟨high_plain (high_of ha), high_plain (cont_high h2.2)⟩) _
      · rw [if_pos (by omega), decodeBody_hexUnit (by omega), unitBytes_of (by omega), e3]
    rw [key]
    exact map_some_iff ih
  | case5 a ha b h2 ih =>
    refine none_iff (decodeBody_hexByte _ _) (not_quotable ha ?_ ?_ ?_)
    · rintro b t ⟨⟩; simpa using h2
    · simp
    · simp
  | case6 a ha b h2 c s h3 ih =>
    simp only [Bool.and_eq_true] at h3
    obtain ⟨e1, e2, e3⟩ := encode3 h3.1 h3.2
    rw [quotable_three h3.1 h3.2]
    have hb : Utf8.cont b = true := by
      have := lead3_nat.1 h3.1
      rw [cont_nat]; omega
    have key : decodeBody (quoteRune p [a, b, c] (rune3 a b c) ++ quoteBody p s) =
        (decodeBody (quoteBody p s)).map ([a, b, c] ++ ·) := by
      simp only [quoteRune]
      split
      · exact decodeBody_chr (.three h3.1 h3.2) (by
          simp only [List.mem_cons, List.not_mem_nil, or_false, forall_eq_or_imp, forall_eq]
          exact ⟨high_plain (high_of ha), high_plain (cont_high hb), high_plain (cont_high h3.2)⟩) _
      · rw [decodeBody_hexUnit e1, unitBytes_of e2, e3]
    rw [key]
    exact map_some_iff ih
  | case7 a ha b h2 c h3 ih =>
    refine none_iff (decodeBody_hexByte _ _) (not_quotable ha ?_ ?_ ?_)
    · rintro b t ⟨⟩; simpa using h2
    · rintro b c t ⟨⟩; simpa using h3
    · simp
  | case8 a ha b h2 c h3 d s h4 ih =>
    simp only [Bool.and_eq_true] at h4
    obtain ⟨e1, e2, e3⟩ := encode4 h4.1.1 h4.1.2 h4.2
    rw [quotable_four h4.1.1 h4.1.2 h4.2]
    have hb : Utf8.cont b = true := by
      have := lead4_nat.1 h4.1.1
      rw [cont_nat]; omega
    simp only [quoteRune]
    split
    · rename_i hp
      have key : decodeBody ([a, b, c, d] ++ quoteBody p s) =
          (decodeBody (quoteBody p s)).map ([a, b, c, d] ++ ·) :=
        decodeBody_chr (.four h4.1.1 h4.1.2 h4.2) (by
          simp only [List.mem_cons, List.not_mem_nil, or_false, forall_eq_or_imp, forall_eq]
          exact ⟨high_plain (high_of ha), high_plain (cont_high hb), high_plain (cont_high h4.1.2),
            high_plain (cont_high h4.2)⟩) _
      rw [key]
      simpa [hp] using map_some_iff (c := [a, b, c, d]) ih
    · rename_i hp
      rw [if_neg (by omega), decodeBody_hexLong]
      simp [hp]
  | case9 a ha b h2 c h3 d s h4 ih =>
    refine none_iff (decodeBody_hexByte _ _) (not_quotable ha ?_ ?_ ?_)
    · rintro b t ⟨⟩; simpa using h2
    · rintro b c t ⟨⟩; simpa using h3
    · rintro b c d t ⟨⟩; simpa using h4

theorem Quotable.valid {p : Nat → Bool} {s : Bytes} (h : Quotable p s) : Utf8.Valid s := by
  induction h with
  | nil => exact .nil
  | byte h _ ih => exact .cons (c := [_]) (.one (common_lt h)) ih
  | two h1 h2 _ ih => exact .cons (c := [_, _]) (.two h1 h2) ih
  | three h1 h2 _ ih => exact .cons (c := [_, _, _]) (.three h1 h2) ih
  | four h1 h2 _ _ ih =>
    obtain ⟨a, b, c, d, e1, e2, e3, e4, _⟩ := encode_four h1 h2
    rw [e1]
    exact .cons (.four e2 e3 e4) ih

end Verif.Sloggy
