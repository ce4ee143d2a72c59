import Verif.Spec.Letters
import Verif.GoLib

/-
What is assumed of Go's `strings.ToLower` for every text, not only for ASCII.
-/

set_option linter.unusedSimpArgs false

namespace Verif.Letters
open Go

/-- Every rune of a text mapped (`strings.Map`; malformed bytes are U+FFFD each). -/
def mapRunes (low : Nat → Bytes) (s : Bytes) : Bytes :=
  match _h : decodeRune s with
  | none => []
  | some (r, w) => low r ++ mapRunes low (s.drop w)
termination_by s.length
decreasing_by
  have := decodeRune_width _h
  simp; omega

/-- `strings.ToLower`: rune by rune with `unicode.ToLower`, of which only this is
assumed: ASCII is as expected, two runes have an ASCII lower case (U+0130, the capital
I with a dot above, and U+212A, the Kelvin sign), no others do. -/
structure Lowers (L : Replace.Lib) (low : Nat → Bytes) : Prop where
  ascii : ∀ a : UInt8, a < 0x80 → low a.toNat = [down a]
  dotted : low 0x130 = b!"i"
  kelvin : low 0x212A = b!"k"
  other : ∀ r, 0x80 ≤ r → r ≠ 0x130 → r ≠ 0x212A → ∃ b t, low r = b :: t ∧ 0x80 ≤ b
  map : ∀ s, L.toLower s = mapRunes low s

/-- A text that reads as the ASCII text, in any letter case and with the two letters that
Go takes for upper case `i` and `k`. -/
inductive ReadsAs : Bytes → Bytes → Prop
  | nil : ReadsAs [] []
  | letter {a b : UInt8} {s t : Bytes} : SameLetter a b → ReadsAs s t → ReadsAs (a :: s) (b :: t)
  | dotted {s t : Bytes} : ReadsAs s t → ReadsAs (0xC4 :: 0xB0 :: s) (0x69 :: t)
  | kelvin {s t : Bytes} : ReadsAs s t → ReadsAs (0xE2 :: 0x84 :: 0xAA :: s) (0x6B :: t)

theorem mapRunes_step (low : Nat → Bytes) {s : Bytes} {r w : Nat} (h : decodeRune s = some (r, w)) :
    mapRunes low s = low r ++ mapRunes low (s.drop w) := by
  rw [mapRunes]
  split
  · rename_i h'; rw [h] at h'; cases h'
  · rename_i h'; rw [h] at h'; cases h'; rfl

theorem mapRunes_nil (low : Nat → Bytes) : mapRunes low [] = [] := by
  rw [mapRunes]; rfl

theorem rune3 (a b c : Nat) (ha : 0xE0 ≤ a ∧ a ≤ 0xEF) (hb : 0x80 ≤ b ∧ b ≤ 0xBF) (hc : 0x80 ≤ c ∧ c ≤ 0xBF)
    (h0 : a = 0xE0 → 0xA0 ≤ b) : 0x800 ≤ (a % 16 * 64 + b % 64) * 64 + c % 64 ∧
    ((a % 16 * 64 + b % 64) * 64 + c % 64 = 0x212A → a = 0xE2 ∧ b = 0x84 ∧ c = 0xAA) := by
  obtain ⟨x, rfl⟩ : ∃ x, a = 0xE0 + x := ⟨a - 0xE0, by omega⟩
  obtain ⟨y, rfl⟩ : ∃ y, b = 0x80 + y := ⟨b - 0x80, by omega⟩
  obtain ⟨z, rfl⟩ : ∃ z, c = 0x80 + z := ⟨c - 0x80, by omega⟩
  have e : ((0xE0 + x) % 16 * 64 + (0x80 + y) % 64) * 64 + (0x80 + z) % 64 = x * 4096 + y * 64 + z := by omega
  rw [e]
  refine ⟨by omega, fun h => ⟨by omega, by omega, by omega⟩⟩

/-- What a text that does not start with ASCII decodes to. -/
theorem decode_high {a : UInt8} {s : Bytes} {r w : Nat} (ha : ¬ a < 0x80) (h : decodeRune (a :: s) = some (r, w)) :
    0x80 ≤ r ∧ (r = 0x130 → w = 2 ∧ ∃ t, a :: s = 0xC4 :: 0xB0 :: t) ∧
    (r = 0x212A → w = 3 ∧ ∃ t, a :: s = 0xE2 :: 0x84 :: 0xAA :: t) := by
  unfold decodeRune at h
  simp only [Option.some.injEq] at h
  rw [if_neg ha] at h
  have bad : ∀ {r w : Nat}, (0xFFFD, 1) = (r, w) → 0x80 ≤ r ∧ (r = 0x130 → w = 2 ∧ ∃ t, a :: s = 0xC4 :: 0xB0 :: t) ∧
      (r = 0x212A → w = 3 ∧ ∃ t, a :: s = 0xE2 :: 0x84 :: 0xAA :: t) := by
    intro r w e
    cases e
    simp
  cases s with
  | nil => exact bad h
  | cons b s =>
    simp only at h
    by_cases h2 : (Utf8.lead2 a && Utf8.cont b) = true
    · rw [if_pos h2] at h
      simp only [Prod.mk.injEq] at h
      obtain ⟨rfl, rfl⟩ := h
      unfold Utf8.lead2 Utf8.cont at h2
      simp only [Bool.and_eq_true, decide_eq_true_eq, UInt8.le_iff_toNat_le] at h2
      clear bad
      simp at h2
      refine ⟨by omega, fun e => ⟨rfl, s, ?_⟩, fun e => by omega⟩
      have : a = 0xC4 ∧ b = 0xB0 := by
        simp only [← UInt8.toNat_inj]
        simp
        omega
      rw [this.1, this.2]
    · rw [if_neg h2] at h
      cases s with
      | nil => exact bad h
      | cons c s =>
        simp only at h
        by_cases h3 : (Utf8.lead3 a b && Utf8.cont c) = true
        · rw [if_pos h3] at h
          simp only [Prod.mk.injEq] at h
          obtain ⟨rfl, rfl⟩ := h
          unfold Utf8.lead3 Utf8.cont at h3
          simp only [Bool.and_eq_true, decide_eq_true_eq, Bool.or_eq_true, bne_iff_ne,
            UInt8.le_iff_toNat_le, ← UInt8.toNat_inj, ne_eq] at h3
          have := rune3 a.toNat b.toNat c.toNat h3.1.1.1.1 h3.1.1.1.2 h3.2
            (fun e => h3.1.1.2.resolve_left (fun h => h e))
          refine ⟨by omega, fun e => by omega, fun e => ⟨rfl, s, ?_⟩⟩
          obtain ⟨e1, e2, e3⟩ := this.2 e
          have e1 : a = 0xE2 := UInt8.toNat_inj.1 e1
          have e2 : b = 0x84 := UInt8.toNat_inj.1 e2
          have e3 : c = 0xAA := UInt8.toNat_inj.1 e3
          rw [e1, e2, e3]
        · rw [if_neg h3] at h
          cases s with
          | nil => exact bad h
          | cons d s =>
            simp only at h
            by_cases h4 : (Utf8.lead4 a b && Utf8.cont c && Utf8.cont d) = true
            · rw [if_pos h4] at h
              simp only [Prod.mk.injEq] at h
              obtain ⟨rfl, rfl⟩ := h
              unfold Utf8.lead4 Utf8.cont at h4
              simp only [Bool.and_eq_true, decide_eq_true_eq, Bool.or_eq_true, bne_iff_ne,
                UInt8.le_iff_toNat_le, ← UInt8.toNat_inj, ne_eq] at h4
              have g1 : 0xF0 ≤ a.toNat ∧ a.toNat ≤ 0xF4 := h4.1.1.1.1.1
              have g2 : 0x80 ≤ b.toNat ∧ b.toNat ≤ 0xBF := h4.1.1.1.1.2
              have g3 : a.toNat = 0xF0 → 0x90 ≤ b.toNat := fun e => h4.1.1.1.2.resolve_left (fun h => h e)
              clear h2 h3 h4 ha bad
              refine ⟨by omega, fun e => by omega, fun e => by omega⟩
            · rw [if_neg h4] at h
              exact bad h

set_option maxRecDepth 100000 in
theorem down_eq (a : UInt8) : ∀ b : UInt8, SameLetter a b → ¬ (0x41 ≤ b ∧ b ≤ 0x5A) → down a = b := by
  intro b h hb
  have h1 := down_spec a
  have := (SameLetter.trans h1.1 h)
  have h2 := h1.2
  generalize down a = d at *
  unfold SameLetter Pair at this
  simp only [UInt8.le_iff_toNat_le, ← UInt8.toNat_inj] at *
  simp at *
  omega

theorem ascii_of_down (a : UInt8) (h : ¬ a < 0x80) : ¬ down a < 0x80 := by
  have h1 := (down_spec a).1
  generalize down a = d at *
  unfold SameLetter Pair at h1
  simp only [UInt8.le_iff_toNat_le, UInt8.lt_iff_toNat_lt, ← UInt8.toNat_inj] at *
  simp at *
  omega

/-- The lower case of a text is the ASCII text without capital letters exactly if the text
reads as it. -/
theorem lower_iff {L : Replace.Lib} {low : Nat → Bytes} (h : Lowers L low) (t : Bytes) (ha : Ascii t) (hu : NoUpper t)
    (s : Bytes) : L.toLower s = t ↔ ReadsAs s t := by
  rw [h.map]
  constructor
  · generalize hn : s.length = n
    induction n using Nat.strongRecOn generalizing s t with
    | ind n ih =>
      intro e
      cases s with
      | nil =>
        rw [mapRunes_nil] at e
        rw [← e]; exact .nil
      | cons a s =>
        cases hd : decodeRune (a :: s) with
        | none => cases hd
        | some pair =>
          obtain ⟨r, w⟩ := pair
          rw [mapRunes_step low hd] at e
          by_cases ha' : a < 0x80
          · have : (r, w) = (a.toNat, 1) := by
              unfold decodeRune at hd
              simp only [if_pos ha', Option.some.injEq] at hd
              exact hd.symm
            cases this
            rw [h.ascii a ha'] at e
            have e' : t = down a :: mapRunes low s := e.symm
            rw [e']
            refine .letter (down_spec a).1.symm ?_
            refine ih s.length (by simp at hn; omega) _ ?_ ?_ s rfl rfl
            · intro b hb; exact ha b (by rw [e']; simp [hb])
            · intro b hb; exact hu b (by rw [e']; simp [hb])
          · obtain ⟨h1, h2, h3⟩ := decode_high ha' hd
            by_cases hr : r = 0x130
            · obtain ⟨rfl, s', hs⟩ := h2 hr
              rw [hs] at e hn ⊢
              rw [hr, h.dotted] at e
              have e' : t = 0x69 :: mapRunes low s' := e.symm
              rw [e']
              refine .dotted (ih s'.length (by simp at hn; omega) _ ?_ ?_ s' rfl rfl)
              · intro b hb; exact ha b (by rw [e']; simp [hb])
              · intro b hb; exact hu b (by rw [e']; simp [hb])
            · by_cases hk : r = 0x212A
              · obtain ⟨rfl, s', hs⟩ := h3 hk
                rw [hs] at e hn ⊢
                rw [hk, h.kelvin] at e
                have e' : t = 0x6B :: mapRunes low s' := e.symm
                rw [e']
                refine .kelvin (ih s'.length (by simp at hn; omega) _ ?_ ?_ s' rfl rfl)
                · intro b hb; exact ha b (by rw [e']; simp [hb])
                · intro b hb; exact hu b (by rw [e']; simp [hb])
              · obtain ⟨b, u, hb, hb'⟩ := h.other r h1 hr hk
                rw [hb] at e
                have := ha b (by rw [← e]; simp)
                simp only [UInt8.le_iff_toNat_le, UInt8.lt_iff_toNat_lt] at *
                simp at *; omega
  · intro hr
    induction hr with
    | nil => exact mapRunes_nil low
    | @letter a b s t hl _ ih =>
      have e := down_eq a b hl (hu b (by simp))
      have ha' : a < 0x80 := by
        have hb := ha b (by simp)
        rw [← e] at hb
        by_cases hx : a < 0x80
        · exact hx
        · exact absurd hb (ascii_of_down a hx)
      have hd : decodeRune (a :: s) = some (a.toNat, 1) := by simp [decodeRune, ha']
      rw [mapRunes_step low hd, h.ascii a ha', e]
      simp only [List.drop_succ_cons, List.drop_zero]
      rw [ih (fun x hx => ha x (by simp [hx])) (fun x hx => hu x (by simp [hx]))]
      rfl
    | @dotted s t _ ih =>
      have hd : decodeRune (0xC4 :: 0xB0 :: s) = some (0x130, 2) := rfl
      rw [mapRunes_step low hd, h.dotted]
      simp only [List.drop_succ_cons, List.drop_zero]
      rw [ih (fun x hx => ha x (by simp [hx])) (fun x hx => hu x (by simp [hx]))]
      rfl
    | @kelvin s t _ ih =>
      have hd : decodeRune (0xE2 :: 0x84 :: 0xAA :: s) = some (0x212A, 3) := rfl
      rw [mapRunes_step low hd, h.kelvin]
      simp only [List.drop_succ_cons, List.drop_zero]
      rw [ih (fun x hx => ha x (by simp [hx])) (fun x hx => hu x (by simp [hx]))]
      rfl

/-- A function as assumed. -/
def someLow (r : Nat) : Bytes :=
  if r < 0x80 then [down (UInt8.ofNat r)] else if r = 0x130 then b!"i" else if r = 0x212A then b!"k"
  else [0xEF, 0xBF, 0xBD]

/-- The assumptions can be met. -/
theorem some_lowers : Lowers { asciiLib with toLower := mapRunes someLow } someLow where
  ascii := fun a h => by
    have : a.toNat < 0x80 := by simpa [UInt8.lt_iff_toNat_lt] using h
    simp [someLow, this]
  dotted := rfl
  kelvin := rfl
  other := fun r h1 h2 h3 => by
    refine ⟨0xEF, [0xBF, 0xBD], ?_, by decide⟩
    simp [someLow, Nat.not_lt.2 h1, h2, h3]
  map := fun _ => rfl

end Verif.Letters
