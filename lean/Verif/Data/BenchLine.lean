import Verif.Data.BenchParser
import Verif.Data.WarnLines

/-
What the patterns of the benchmark parser match.
-/

set_option linter.unusedSimpArgs false

namespace Verif.Data
open Go Verif.Warning

/-! ### Specification -/

/-- One or more of a class. -/
structure Many (p : UInt8 → Bool) (s : Bytes) : Prop where
  ne : s ≠ []
  all : ∀ a ∈ s, p a = true

/-- Digits, or digits, a point and digits. -/
def Decimal (s : Bytes) : Prop := Many isD s ∨ ∃ a b, s = a ++ 0x2E :: b ∧ Many isD a ∧ Many isD b

/-- A line with the result of a benchmark: handler, test, number of CPUs, runs and time
as written, and what follows. -/
inductive DataLine : Bytes → Bytes → Bytes → Bytes → Bytes → Bytes → Bytes → Prop
  | mk {h t c r n s1 s2 s3 rest : Bytes} (hh : Many (isNot 0x2F) h) (ht : Many (isNot 0x2D) t) (hc : Many isD c)
      (h1 : Many isS s1) (hr : Many isD r) (h2 : Many isS s2) (hn : Decimal n) (h3 : Many isS s3) (hw : wordStops rest = true) :
    DataLine (b!"Benchmark" ++ h ++ b!"/Benchmark" ++ t ++ b!"-" ++ c ++ s1 ++ r ++ s2 ++ n ++ s3 ++ b!"ns/op" ++ rest) h t c r n rest

/-! ### Single patterns -/

theorem lang_plus {p : UInt8 → Bool} {s t : Bytes} (h : Lang (plus p) s t) : ∃ u, s = u ++ t ∧ Many p u := by
  cases h with
  | cat h1 h2 =>
    cases h1 with
    | @one _ a _ ha =>
      obtain ⟨u, rfl, hu⟩ := lang_star h2
      refine ⟨a :: u, rfl, by simp, fun b hb => ?_⟩
      rcases List.mem_cons.1 hb with rfl | hb
      · exact ha
      · exact hu b hb

theorem run_plus {p : UInt8 → Bool} {k : Bytes → Caps → Option Caps} {u t : Bytes} {m r : Caps} (hu : Many p u)
    (ht : ∀ a t', t = a :: t' → p a = false) (h : k t m = some r) : (plus p).run k (u ++ t) m = some r := by
  obtain ⟨hne, hu⟩ := hu
  cases u with
  | nil => exact absurd rfl hne
  | cons a u =>
    unfold plus
    rw [run_cat, List.cons_append, run_one _ (hu a (by simp))]
    exact run_star (fun b hb => hu b (by simp [hb])) ht h

theorem run_cap_plus {i : Nat} {p : UInt8 → Bool} {k : Bytes → Caps → Option Caps} {u t : Bytes} {m r : Caps} (hu : Many p u)
    (ht : ∀ a t', t = a :: t' → p a = false) (h : k t (m.set i u) = some r) : (Re.cap i (plus p)).run k (u ++ t) m = some r := by
  rw [run_cap]
  refine run_plus hu ht ?_
  rw [take_diff]
  exact h

theorem lang_decimal {s t : Bytes} (h : Lang decimal s t) : ∃ u, s = u ++ t ∧ Decimal u := by
  cases h with
  | cat h1 h2 =>
    obtain ⟨u, rfl, hu⟩ := lang_plus h1
    cases h2 with
    | opt0 => exact ⟨u, rfl, .inl hu⟩
    | opt1 h =>
      cases h with
      | cat h3 h4 =>
        cases h3 with
        | lit =>
          obtain ⟨v, rfl, hv⟩ := lang_plus h4
          exact ⟨u ++ 0x2E :: v, by simp, .inr ⟨u, v, rfl, hu, hv⟩⟩

theorem run_decimal {k : Bytes → Caps → Option Caps} {u t : Bytes} {m r : Caps} (hu : Decimal u)
    (ht : ∀ a t', t = a :: t' → isD a = false ∧ a ≠ 0x2E) (h : k t m = some r) : decimal.run k (u ++ t) m = some r := by
  unfold decimal
  rw [run_cat]
  rcases hu with hu | ⟨a, b, rfl, ha, hb⟩
  · refine run_plus hu (fun a t' e => (ht a t' e).1) ?_
    unfold Re.run
    have : (Re.cat (.lit b!".") (plus isD)).run k t m = none := by
      unfold Re.run
      cases e : t with
      | nil => simp [Re.run, stripPrefix]
      | cons a t' =>
        have := (ht a t' e).2
        simp [Re.run, stripPrefix, Ne.symm this]
    rw [this]
    exact h
  · rw [List.append_assoc]
    refine run_plus ha (by rintro a t' e; cases e; decide) ?_
    unfold Re.run
    have : (Re.cat (.lit b!".") (plus isD)).run k (0x2E :: b ++ t) m = some r := by
      rw [run_cat]
      have : (0x2E :: b ++ t : Bytes) = b!"." ++ (b ++ t) := rfl
      rw [this, run_lit]
      exact run_plus hb (fun a t' e => (ht a t' e).1) h
    rw [this]

theorem run_cap_decimal {i : Nat} {k : Bytes → Caps → Option Caps} {u t : Bytes} {m r : Caps} (hu : Decimal u)
    (ht : ∀ a t', t = a :: t' → isD a = false ∧ a ≠ 0x2E) (h : k t (m.set i u) = some r) :
    (Re.cap i decimal).run k (u ++ t) m = some r := by
  rw [run_cap]
  refine run_decimal hu ht ?_
  rw [take_diff]
  exact h

/-- White space. -/
theorem space_first {s t : Bytes} (hs : Many isS s) {p : UInt8 → Bool} (hp : ∀ a, isS a = true → p a = false) :
    ∀ a t', s ++ t = a :: t' → p a = false := by
  obtain ⟨hne, h⟩ := hs
  cases s with
  | nil => exact absurd rfl hne
  | cons b s =>
    rintro a t' e
    cases e
    exact hp _ (h _ (by simp))

theorem isS_cases : ∀ a, isS a = true → a = 0x09 ∨ a = 0x0A ∨ a = 0x0C ∨ a = 0x0D ∨ a = 0x20 := by
  intro a h
  unfold isS at h
  simpa [or_assoc] using h

theorem space_digit : ∀ a, isS a = true → isD a = false := by
  intro a h
  rcases isS_cases a h with rfl | rfl | rfl | rfl | rfl <;> decide

theorem space_point : ∀ a, isS a = true → a ≠ 0x2E := by
  intro a h
  rcases isS_cases a h with rfl | rfl | rfl | rfl | rfl <;> decide

theorem digit_space : ∀ a, isD a = true → isS a = false := by
  intro a h
  cases e : isS a with
  | false => rfl
  | true => rw [space_digit a e] at h; cases h

theorem digit_first {s t : Bytes} (hs : Many isD s) : ∀ a t', s ++ t = a :: t' → isS a = false := by
  obtain ⟨hne, h⟩ := hs
  cases s with
  | nil => exact absurd rfl hne
  | cons b s =>
    rintro a t' e
    cases e
    exact digit_space _ (h _ (by simp))

theorem decimal_first {s t : Bytes} (hs : Decimal s) : ∀ a t', s ++ t = a :: t' → isS a = false := by
  rcases hs with h | ⟨a, b, rfl, ha, _⟩
  · exact digit_first h
  · rw [List.append_assoc]; exact digit_first ha

/-! ### Data lines -/

theorem find_data {l h t c r n rest : Bytes} (hd : DataLine l h t c r n rest) :
    ptnDataLine.find l = some [(1, h), (2, t), (3, c), (4, r), (5, n)] := by
  cases hd with
  | @mk _ _ _ _ _ s1 s2 s3 _ hh ht hc h1 hr h2 hn h3 hw =>
    unfold ptnDataLine Re.find
    simp only [seq, List.append_assoc]
    rw [run_cat, run_lit, run_cat]
    refine run_cap_plus hh (by rintro a t' e; cases e; decide) ?_
    rw [run_cat, run_lit, run_cat]
    refine run_cap_plus ht (by rintro a t' e; cases e; decide) ?_
    rw [run_cat, run_lit, run_cat]
    refine run_cap_plus hc (space_first h1 space_digit) ?_
    rw [run_cat]
    refine run_plus h1 (digit_first hr) ?_
    rw [run_cat]
    refine run_cap_plus hr (space_first h2 space_digit) ?_
    rw [run_cat]
    refine run_plus h2 (decimal_first hn) ?_
    rw [run_cat]
    refine run_cap_decimal hn (fun a t' e => ⟨space_first h3 space_digit a t' e, ?_⟩) ?_
    · have := space_first h3 (p := fun a => a == 0x2E) (by intro a h; simpa using space_point a h) a t' e
      simpa using this
    rw [run_cat]
    refine run_plus h3 (by rintro a t' e; cases e; decide) ?_
    rw [run_cat, run_lit]
    unfold Re.run
    rw [if_pos hw]
    rfl

theorem data_of_find {l : Bytes} {m : Caps} (hf : ptnDataLine.find l = some m) :
    ∃ h t c r n rest, DataLine l h t c r n rest ∧ m = [(1, h), (2, t), (3, c), (4, r), (5, n)] := by
  have : ∃ u, Lang ptnDataLine l u := by
    apply Classical.byContradiction
    intro hn
    have := (Re.find_none ptnDataLine l).2 fun t ht => hn ⟨t, ht⟩
    rw [this] at hf; cases hf
  obtain ⟨u, hl⟩ := this
  have hd : ∃ h t c r n rest, DataLine l h t c r n rest := by
    unfold ptnDataLine at hl
    simp only [seq] at hl
    cases hl with | cat q hl =>
    cases q with | lit =>
    cases hl with | cat q hl =>
    cases q with | cap q =>
    obtain ⟨h, rfl, hh⟩ := lang_plus q
    cases hl with | cat q hl =>
    cases q with | lit =>
    cases hl with | cat q hl =>
    cases q with | cap q =>
    obtain ⟨t, rfl, ht⟩ := lang_plus q
    cases hl with | cat q hl =>
    cases q with | lit =>
    cases hl with | cat q hl =>
    cases q with | cap q =>
    obtain ⟨c, rfl, hc⟩ := lang_plus q
    cases hl with | cat q hl =>
    obtain ⟨s1, rfl, h1⟩ := lang_plus q
    cases hl with | cat q hl =>
    cases q with | cap q =>
    obtain ⟨r, rfl, hr⟩ := lang_plus q
    cases hl with | cat q hl =>
    obtain ⟨s2, rfl, h2⟩ := lang_plus q
    cases hl with | cat q hl =>
    cases q with | cap q =>
    obtain ⟨n, rfl, hn⟩ := lang_decimal q
    cases hl with | cat q hl =>
    obtain ⟨s3, rfl, h3⟩ := lang_plus q
    cases hl with | cat q hl =>
    cases q with | lit =>
    cases hl with | nw hw =>
    refine ⟨h, t, c, r, n, u, ?_⟩
    have := DataLine.mk hh ht hc h1 hr h2 hn h3 hw
    simpa using this
  obtain ⟨h, t, c, r, n, rest, hd⟩ := hd
  refine ⟨h, t, c, r, n, rest, hd, ?_⟩
  rw [find_data hd] at hf
  cases hf; rfl

/-- A data line can be taken apart in one way only. -/
theorem data_unique {l h t c r n rest h' t' c' r' n' rest' : Bytes} (hd : DataLine l h t c r n rest)
    (hd' : DataLine l h' t' c' r' n' rest') : h = h' ∧ t = t' ∧ c = c' ∧ r = r' ∧ n = n' := by
  have := (find_data hd).symm.trans (find_data hd')
  simpa using this

theorem find_data_none {l : Bytes} (h : ∀ h t c r n rest, ¬ DataLine l h t c r n rest) : ptnDataLine.find l = none := by
  cases hf : ptnDataLine.find l with
  | none => rfl
  | some m =>
    obtain ⟨_, _, _, _, _, _, hd, _⟩ := data_of_find hf
    exact absurd hd (h _ _ _ _ _ _)

/-! ### Marked lines -/

theorem find_warnLine {t : Bytes} (h : ∀ a ∈ t, isDot a = true) : ptnWarnLine.find (b!"# " ++ t) = some [(1, t)] := by
  unfold ptnWarnLine Re.find
  simp only [seq]
  rw [run_cat, run_lit, run_cap]
  have := run_star (p := isDot) (k := fun u m => some (Map.set m 1 (t.take (t.length - u.length)))) (u := t) (t := []) (m := [])
    (r := [(1, t)]) h (by simp) (by simp [Map.set])
  rw [List.append_nil] at this
  exact this

theorem find_warnLine_none {l : Bytes} (h : ¬ b!"# " <+: l) : ptnWarnLine.find l = none := by
  rw [Re.find_none]
  intro t hl
  unfold ptnWarnLine at hl
  simp only [seq] at hl
  cases hl with | cat q hl =>
  cases q with | lit => exact h ⟨_, rfl⟩

theorem find_handlerDef_none {l : Bytes} (h : ∀ t, l ≠ 0x23 :: t) : ptnHandlerDef.find l = none := by
  rw [Re.find_none]
  intro t hl
  unfold ptnHandlerDef at hl
  simp only [seq] at hl
  cases hl with | cat q hl =>
  cases q with | lit => exact h _ rfl

end Verif.Data
