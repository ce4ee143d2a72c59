import Verif.GoLib

/-
Specification of lines of text and of white space.
-/

set_option linter.unusedSimpArgs false

namespace Verif.Lines
open Go

/-- No newline in it. -/
def OneLine (l : Bytes) : Prop := ∀ b ∈ l, b ≠ 0x0A

/-- Does not end in a carriage return. -/
def NoCR (l : Bytes) : Prop := l.getLast? ≠ some 0x0D

/-- A text and its lines, ended by newline or carriage return and newline; the end of
the last line may be missing. -/
inductive Text : Bytes → List Bytes → Prop
  | nil : Text [] []
  | lf {l s ls} : OneLine l → NoCR l → Text s ls → Text (l ++ 0x0A :: s) (l :: ls)
  | crlf {l s ls} : OneLine l → Text s ls → Text (l ++ 0x0D :: 0x0A :: s) (l :: ls)
  | last {l} : OneLine l → NoCR l → l ≠ [] → Text l [l]
  | lastcr {l} : OneLine l → Text (l ++ [0x0D]) [l]

/-- Every line with a newline behind it. -/
def unlines : List Bytes → Bytes
  | [] => []
  | l :: ls => l ++ 0x0A :: unlines ls

/-- Unicode white space (the property White_Space) in UTF-8. -/
inductive Space1 : Bytes → Prop
  | ascii {a : UInt8} : (0x09 ≤ a ∧ a ≤ 0x0D) ∨ a = 0x20 → Space1 [a]
  | latin {b : UInt8} : b = 0x85 ∨ b = 0xA0 → Space1 [0xC2, b]
  | ogham : Space1 [0xE1, 0x9A, 0x80]
  | quad {c : UInt8} : (0x80 ≤ c ∧ c ≤ 0x8A) ∨ c = 0xA8 ∨ c = 0xA9 ∨ c = 0xAF → Space1 [0xE2, 0x80, c]
  | math : Space1 [0xE2, 0x81, 0x9F]
  | cjk : Space1 [0xE3, 0x80, 0x80]

/-- Only white space. -/
inductive Spaces : Bytes → Prop
  | nil : Spaces []
  | cons {p s} : Space1 p → Spaces s → Spaces (p ++ s)

/-- Starts with something that is not white space. -/
def StartsText (s : Bytes) : Prop := s ≠ [] ∧ ∀ p t, Space1 p → s ≠ p ++ t

/-! ### Lines -/

theorem splitLines_line {l : Bytes} (h : OneLine l) (s : Bytes) :
    splitLines (l ++ 0x0A :: s) = l :: splitLines s := by
  induction l with
  | nil => simp [splitLines]
  | cons b l ih =>
    have hb : b ≠ 0x0A := h b (by simp)
    rw [List.cons_append, splitLines, if_neg hb, ih (fun x hx => h x (by simp [hx]))]

theorem splitLines_last {l : Bytes} (h : OneLine l) (hne : l ≠ []) : splitLines l = [l] := by
  induction l with
  | nil => exact absurd rfl hne
  | cons b l ih =>
    have hb : b ≠ 0x0A := h b (by simp)
    rw [splitLines, if_neg hb]
    cases l with
    | nil => rfl
    | cons c l => rw [ih (fun x hx => h x (by simp [hx])) (by simp)]

theorem dropCR_of {l : Bytes} (h : NoCR l) : dropCR l = l := by
  unfold dropCR; rw [if_neg h]

theorem dropCR_cr (l : Bytes) : dropCR (l ++ [0x0D]) = l := by
  unfold dropCR; simp

theorem oneLine_cr {l : Bytes} (h : OneLine l) : OneLine (l ++ [0x0D]) := by
  intro b hb
  rcases List.mem_append.1 hb with hb | hb
  · exact h b hb
  · simp only [List.mem_singleton] at hb; subst hb; decide

/-- A scanner delivers the lines, if they are short. -/
theorem scanLines_text {s : Bytes} {ls : List Bytes} (h : Text s ls) (hs : ∀ l ∈ ls, l.length < 65535) :
    scanLines s = ls := by
  induction h with
  | nil => rfl
  | @lf l s ls h1 h2 _ ih =>
    have hl := hs l (by simp)
    have ih := ih fun x hx => hs x (by simp [hx])
    unfold scanLines at *
    rw [splitLines_line h1, List.takeWhile_cons, if_pos (by simp; omega), List.map_cons, ih, dropCR_of h2]
  | @crlf l s ls h1 _ ih =>
    have hl := hs l (by simp)
    have ih := ih fun x hx => hs x (by simp [hx])
    unfold scanLines at *
    rw [show l ++ 0x0D :: 0x0A :: s = (l ++ [0x0D]) ++ 0x0A :: s by simp,
      splitLines_line (oneLine_cr h1), List.takeWhile_cons, if_pos (by simp; omega), List.map_cons, ih, dropCR_cr]
  | @last l h1 h2 h3 =>
    have hl := hs l (by simp)
    unfold scanLines
    rw [splitLines_last h1 h3, List.takeWhile_cons, if_pos (by simp; omega)]
    simp [dropCR_of h2]
  | @lastcr l h1 =>
    have hl := hs l (by simp)
    unfold scanLines
    rw [splitLines_last (oneLine_cr h1) (by simp), List.takeWhile_cons, if_pos (by simp; omega)]
    simp [dropCR_cr]

/-- Every text has lines. -/
theorem text_exists : ∀ (n : Nat) (s : Bytes), s.length ≤ n → ∃ ls, Text s ls
  | _, [], _ => ⟨[], .nil⟩
  | 0, _ :: _, h => by simp at h
  | n + 1, b :: s, h => by
    -- up to the first newline
    have key : ∀ s : Bytes, OneLine s ∨ ∃ l t, s = l ++ 0x0A :: t ∧ OneLine l := by
      intro s
      induction s with
      | nil => exact .inl (by intro b hb; cases hb)
      | cons c s ih =>
        by_cases hc : c = 0x0A
        · exact .inr ⟨[], s, by simp [hc], by intro b hb; cases hb⟩
        · rcases ih with h | ⟨l, t, e, hl⟩
          · exact .inl (by
              intro b hb
              rcases List.mem_cons.1 hb with rfl | hb
              · exact hc
              · exact h b hb)
          · refine .inr ⟨c :: l, t, by simp [e], ?_⟩
            intro b hb
            rcases List.mem_cons.1 hb with rfl | hb
            · exact hc
            · exact hl b hb
    have cr : ∀ l : Bytes, NoCR l ∨ ∃ m, l = m ++ [0x0D] := by
      intro l
      by_cases h : NoCR l
      · exact .inl h
      · unfold NoCR at h
        have h : l.getLast? = some 0x0D := Classical.not_not.1 h
        obtain ⟨m, hm⟩ := List.getLast?_eq_some_iff.1 h
        exact .inr ⟨m, hm⟩
    rcases key (b :: s) with h1 | ⟨l, t, e, h1⟩
    · rcases cr (b :: s) with h2 | ⟨m, hm⟩
      · exact ⟨_, .last h1 h2 (by simp)⟩
      · rw [hm]
        exact ⟨_, .lastcr fun x hx => h1 x (by rw [hm]; simp [hx])⟩
    · rw [e]
      obtain ⟨ls, ih⟩ := text_exists n t (by
        have := congrArg List.length e
        simp at this h
        omega)
      rcases cr l with h2 | ⟨m, hm⟩
      · exact ⟨_, .lf h1 h2 ih⟩
      · subst hm
        refine ⟨m :: ls, ?_⟩
        rw [List.append_assoc]
        exact .crlf (fun x hx => h1 x (by simp [hx])) ih

theorem text_unlines {ls : List Bytes} (h : ∀ l ∈ ls, OneLine l ∧ NoCR l) : Text (unlines ls) ls := by
  induction ls with
  | nil => exact .nil
  | cons l ls ih =>
    exact .lf (h l (by simp)).1 (h l (by simp)).2 (ih fun x hx => h x (by simp [hx]))

/-! ### White space -/

theorem decode_space {p : Bytes} (h : Space1 p) (s : Bytes) :
    ∃ r, decodeRune (p ++ s) = some (r, p.length) ∧ isSpace r = true := by
  cases h with
  | @ascii a h =>
    have h1 : a < 0x80 := by
      simp only [UInt8.le_iff_toNat_le, UInt8.lt_iff_toNat_lt, ← UInt8.toNat_inj] at *
      simp at *; omega
    refine ⟨a.toNat, by simp [decodeRune, h1], ?_⟩
    unfold isSpace
    simp only [UInt8.le_iff_toNat_le, UInt8.lt_iff_toNat_lt, ← UInt8.toNat_inj] at *
    simp at *; omega
  | @latin b h =>
    rcases h with rfl | rfl
    · exact ⟨0x85, rfl, rfl⟩
    · exact ⟨0xA0, rfl, rfl⟩
  | ogham => exact ⟨0x1680, rfl, rfl⟩
  | @quad c h =>
    have hc : Utf8.cont c = true := by
      unfold Utf8.cont
      simp only [Bool.and_eq_true, decide_eq_true_eq]
      simp only [UInt8.le_iff_toNat_le, UInt8.lt_iff_toNat_lt, ← UInt8.toNat_inj] at *
      simp at *; omega
    refine ⟨(0xE2 % 16 * 64 + 0x80 % 64) * 64 + c.toNat % 64, ?_, ?_⟩
    · have h1 : ¬ (0xE2 : UInt8) < 0x80 := by decide
      have h2 : Utf8.lead2 0xE2 = false := rfl
      have h3 : Utf8.lead3 0xE2 0x80 = true := rfl
      simp only [List.cons_append, List.nil_append, decodeRune, h1, if_false, h2, Bool.false_and, h3, hc,
        Bool.and_self, if_true, Bool.false_eq_true, List.length_cons, List.length_nil]
      rfl
    · unfold isSpace
      simp only [UInt8.le_iff_toNat_le, UInt8.lt_iff_toNat_lt, ← UInt8.toNat_inj] at *
      simp at *; omega
  | math => exact ⟨0x205F, rfl, rfl⟩
  | cjk => exact ⟨0x3000, rfl, rfl⟩

theorem space3 (a b c : Nat) (ha : 0xE0 ≤ a ∧ a ≤ 0xEF) (hb : 0x80 ≤ b ∧ b ≤ 0xBF) (hc : 0x80 ≤ c ∧ c ≤ 0xBF)
    (h0 : a = 0xE0 → 0xA0 ≤ b) (hr : isSpace ((a % 16 * 64 + b % 64) * 64 + c % 64) = true) :
    (a = 0xE1 ∧ b = 0x9A ∧ c = 0x80) ∨ (a = 0xE2 ∧ b = 0x80 ∧
      ((0x80 ≤ c ∧ c ≤ 0x8A) ∨ c = 0xA8 ∨ c = 0xA9 ∨ c = 0xAF)) ∨
      (a = 0xE2 ∧ b = 0x81 ∧ c = 0x9F) ∨ (a = 0xE3 ∧ b = 0x80 ∧ c = 0x80) := by
  obtain ⟨x, rfl⟩ : ∃ x, a = 0xE0 + x := ⟨a - 0xE0, by omega⟩
  obtain ⟨y, rfl⟩ : ∃ y, b = 0x80 + y := ⟨b - 0x80, by omega⟩
  obtain ⟨z, rfl⟩ : ∃ z, c = 0x80 + z := ⟨c - 0x80, by omega⟩
  have e : ((0xE0 + x) % 16 * 64 + (0x80 + y) % 64) * 64 + (0x80 + z) % 64 = x * 4096 + y * 64 + z := by omega
  rw [e] at hr
  unfold isSpace at hr
  simp only [Bool.or_eq_true, Bool.and_eq_true, decide_eq_true_eq, beq_iff_eq] at hr
  rcases hr with (((((((((h | h) | h) | h) | h) | h) | h) | h) | h) | h) | h
  · omega
  · omega
  · omega
  · omega
  · exact .inl ⟨by omega, by omega, by omega⟩
  · exact .inr (.inl ⟨by omega, by omega, .inl (by omega)⟩)
  · exact .inr (.inl ⟨by omega, by omega, .inr (.inl (by omega))⟩)
  · exact .inr (.inl ⟨by omega, by omega, .inr (.inr (.inl (by omega)))⟩)
  · exact .inr (.inl ⟨by omega, by omega, .inr (.inr (.inr (by omega)))⟩)
  · exact .inr (.inr (.inl ⟨by omega, by omega, by omega⟩))
  · exact .inr (.inr (.inr ⟨by omega, by omega, by omega⟩))

theorem space4 (a b c d : Nat) (ha : 0xF0 ≤ a ∧ a ≤ 0xF4) (hb : 0x80 ≤ b ∧ b ≤ 0xBF)
    (h0 : a = 0xF0 → 0x90 ≤ b) :
    isSpace (((a % 8 * 64 + b % 64) * 64 + c % 64) * 64 + d % 64) = false := by
  have : 0x10000 ≤ ((a % 8 * 64 + b % 64) * 64 + c % 64) * 64 + d % 64 := by omega
  generalize ((a % 8 * 64 + b % 64) * 64 + c % 64) * 64 + d % 64 = r at this
  unfold isSpace
  simp only [Bool.or_eq_false_iff, Bool.and_eq_false_iff, decide_eq_false_iff_not, beq_eq_false_iff_ne]
  omega

theorem space_of_decode {s : Bytes} {r w : Nat} (h : decodeRune s = some (r, w)) (hr : isSpace r = true) :
    Space1 (s.take w) := by
  cases s with
  | nil => cases h
  | cons a s =>
    unfold decodeRune at h
    simp only [Option.some.injEq] at h
    by_cases ha : a < 0x80
    · rw [if_pos ha] at h
      cases h
      refine .ascii ?_
      unfold isSpace at hr
      simp only [UInt8.le_iff_toNat_le, UInt8.lt_iff_toNat_lt, ← UInt8.toNat_inj] at *
      simp at *; omega
    · rw [if_neg ha] at h
      have bad : isSpace 0xFFFD = false := rfl
      cases s with
      | nil => simp only [Prod.mk.injEq] at h; obtain ⟨rfl, rfl⟩ := h; rw [bad] at hr; cases hr
      | cons b s =>
        simp only at h
        by_cases h2 : (Utf8.lead2 a && Utf8.cont b) = true
        · rw [if_pos h2] at h
          simp only [Prod.mk.injEq] at h
          obtain ⟨rfl, rfl⟩ := h
          have : a = 0xC2 ∧ (b = 0x85 ∨ b = 0xA0) := by
            unfold isSpace at hr
            unfold Utf8.lead2 Utf8.cont at h2
            simp only [Bool.and_eq_true, decide_eq_true_eq] at h2
            simp only [UInt8.le_iff_toNat_le, UInt8.lt_iff_toNat_lt, ← UInt8.toNat_inj] at *
            simp at *; omega
          obtain ⟨rfl, hb⟩ := this
          exact .latin hb
        · rw [if_neg h2] at h
          cases s with
          | nil => simp only [Prod.mk.injEq] at h; obtain ⟨rfl, rfl⟩ := h; rw [bad] at hr; cases hr
          | cons c s =>
            simp only at h
            by_cases h3 : (Utf8.lead3 a b && Utf8.cont c) = true
            · rw [if_pos h3] at h
              simp only [Prod.mk.injEq] at h
              obtain ⟨rfl, rfl⟩ := h
              have : (a = 0xE1 ∧ b = 0x9A ∧ c = 0x80) ∨ (a = 0xE2 ∧ b = 0x80 ∧
                  ((0x80 ≤ c ∧ c ≤ 0x8A) ∨ c = 0xA8 ∨ c = 0xA9 ∨ c = 0xAF)) ∨
                  (a = 0xE2 ∧ b = 0x81 ∧ c = 0x9F) ∨ (a = 0xE3 ∧ b = 0x80 ∧ c = 0x80) := by
                unfold Utf8.lead3 Utf8.cont at h3
                simp only [Bool.and_eq_true, decide_eq_true_eq, Bool.or_eq_true, bne_iff_ne] at h3
                clear h2 ha
                simp only [UInt8.le_iff_toNat_le, ← UInt8.toNat_inj, ne_eq] at h3 ⊢
                exact space3 _ _ _ h3.1.1.1.1 h3.1.1.1.2 h3.2 (fun e => h3.1.1.2.resolve_left (fun h => h e)) hr
              rcases this with ⟨rfl, rfl, rfl⟩ | ⟨rfl, rfl, h⟩ | ⟨rfl, rfl, rfl⟩ | ⟨rfl, rfl, rfl⟩
              · exact .ogham
              · exact .quad h
              · exact .math
              · exact .cjk
            · rw [if_neg h3] at h
              cases s with
              | nil => simp only [Prod.mk.injEq] at h; obtain ⟨rfl, rfl⟩ := h; rw [bad] at hr; cases hr
              | cons d s =>
                simp only at h
                by_cases h4 : (Utf8.lead4 a b && Utf8.cont c && Utf8.cont d) = true
                · rw [if_pos h4] at h
                  simp only [Prod.mk.injEq] at h
                  obtain ⟨rfl, rfl⟩ := h
                  exfalso
                  unfold Utf8.lead4 Utf8.cont at h4
                  simp only [Bool.and_eq_true, decide_eq_true_eq, Bool.or_eq_true, bne_iff_ne] at h4
                  clear h2 h3 ha
                  simp only [UInt8.le_iff_toNat_le, ← UInt8.toNat_inj, ne_eq] at h4
                  rw [space4 _ _ _ _ h4.1.1.1.1.1 h4.1.1.1.1.2
                    (fun e => h4.1.1.1.2.resolve_left (fun h => h e))] at hr
                  cases hr
                · rw [if_neg h4] at h
                  simp only [Prod.mk.injEq] at h; obtain ⟨rfl, rfl⟩ := h; rw [bad] at hr; cases hr

/-- Text starts where the rune is no white space. -/
theorem startsText_iff {s : Bytes} :
    StartsText s ↔ ∃ r w, decodeRune s = some (r, w) ∧ isSpace r = false := by
  constructor
  · rintro ⟨h1, h2⟩
    cases e : decodeRune s with
    | none => cases s with
      | nil => exact absurd rfl h1
      | cons => cases e
    | some pair =>
      obtain ⟨r, w⟩ := pair
      refine ⟨r, w, rfl, ?_⟩
      cases hr : isSpace r with
      | false => rfl
      | true => exact absurd (List.take_append_drop w s).symm (h2 _ _ (space_of_decode e hr))
  · rintro ⟨r, w, h, hr⟩
    have hne : s ≠ [] := by
      intro e
      rw [e] at h
      cases h
    refine ⟨hne, ?_⟩
    rintro p t hp rfl
    obtain ⟨r', e, hr'⟩ := decode_space hp t
    rw [h] at e
    cases e
    rw [hr] at hr'; cases hr'

/-- The indentation is told by the line. -/
theorem indent_unique {p q s t : Bytes} (h : p ++ s = q ++ t) (hp : Spaces p) (hq : Spaces q)
    (hs : StartsText s) (ht : StartsText t) : p = q ∧ s = t := by
  induction hp generalizing q with
  | nil =>
    cases hq with
    | nil => exact ⟨rfl, h⟩
    | cons h1 _ =>
      rw [List.append_assoc] at h
      exact absurd h (hs.2 _ _ h1)
  | @cons p1 p2 h1 _ ih =>
    cases hq with
    | nil =>
      rw [List.append_assoc] at h
      exact absurd h.symm (ht.2 _ _ h1)
    | @cons q1 q2 h2 hq =>
      rw [List.append_assoc, List.append_assoc] at h
      obtain ⟨r, e, _⟩ := decode_space h1 (p2 ++ s)
      obtain ⟨r', e', _⟩ := decode_space h2 (q2 ++ t)
      rw [h, e'] at e
      simp only [Option.some.injEq, Prod.mk.injEq] at e
      obtain ⟨e1, e2⟩ := List.append_inj h e.2.symm
      subst e1
      obtain ⟨h3, h4⟩ := ih e2 hq
      exact ⟨by rw [h3], h4⟩

end Verif.Lines
