import Verif.Warning.Registry
import Verif.Warning.Level
import Verif.Spec.Lines
import Verif.Spec.Letters
import Verif.Spec.LowerCase
import Verif.Spec.Numeral

/-
Property C32 (names of warning levels) and C33 (indentation of descriptions).
-/

set_option linter.unusedSimpArgs false

namespace Verif.Props.WarnText
open Go Lines Letters Verif.Warning

/-! ### C32 -/

/-- The documented spellings. -/
inductive Spelling : Bytes → Nat → Prop
  | admin : Spelling b!"admin" 1
  | administrative : Spelling b!"administrative" 1
  | suggested : Spelling b!"suggested" 2
  | implied : Spelling b!"implied" 3
  | required : Spelling b!"required" 4

theorem lower_spelling {s : Bytes} {l : Nat} (h : Spelling s l) : Ascii s ∧ NoUpper s := by
  cases h <;> (unfold Ascii NoUpper; decide)

theorem levelParse_iff (s : Bytes) (l : Nat) : levelParse s = some l ↔ Spelling s l := by
  constructor
  · intro h
    unfold levelParse at h
    split at h
    · rename_i e; cases h; subst e; exact .admin
    · split at h
      · rename_i e; cases h; subst e; exact .administrative
      · split at h
        · rename_i e; cases h; subst e; exact .suggested
        · split at h
          · rename_i e; cases h; subst e; exact .implied
          · split at h
            · rename_i e; cases h; subst e; exact .required
            · cases h
  · intro h
    cases h <;> decide

/-- C32: a text parses as a level exactly if it is a documented spelling of the level, in
whatever letter case. -/
theorem C32_parse_iff {L : Replace.Lib} (hL : Good L) (text : Bytes) (ha : Ascii text) (l : Nat) :
    parseLevel L text = some l ↔ ∃ s, Spelling s l ∧ SameText text s := by
  obtain ⟨h1, h2⟩ := hL.lower text ha
  unfold parseLevel
  rw [levelParse_iff]
  constructor
  · intro h
    exact ⟨_, h, h1.symm⟩
  · rintro ⟨s, hs, h⟩
    have : L.toLower text = s := (h1.trans h).eq_of_noUpper h2 (lower_spelling hs).2
    rw [this]; exact hs

/-- C32: the same for every text whatsoever: what parses is a documented spelling in
whatever letter case, where Go counts U+0130 as a capital `i` (no spelling has a `k`). -/
theorem C32_parse_any_text {L : Replace.Lib} {low : Nat → Bytes} (hL : Lowers L low) (text : Bytes) (l : Nat) :
    parseLevel L text = some l ↔ ∃ s, Spelling s l ∧ ReadsAs text s := by
  unfold parseLevel
  rw [levelParse_iff]
  constructor
  · intro h
    exact ⟨_, h, (lower_iff hL _ (lower_spelling h).1 (lower_spelling h).2 text).1 rfl⟩
  · rintro ⟨s, hs, h⟩
    rw [(lower_iff hL s (lower_spelling hs).1 (lower_spelling hs).2 text).2 h]
    exact hs

/-- A case: the Turkish capital letter is accepted. -/
example : ReadsAs (b!"ADM" ++ [0xC4, 0xB0] ++ b!"N") b!"admin" :=
  .letter (by decide) (.letter (by decide) (.letter (by decide) (.dotted (.letter (by decide) .nil))))

/-- C32: letter case does not matter. -/
theorem C32_parse_ignores_case {L : Replace.Lib} (hL : Good L) (s t : Bytes) (hs : Ascii s) (h : SameText s t) :
    parseLevel L s = parseLevel L t := by
  have ht : Ascii t := h.symm.ascii hs
  have : L.toLower s = L.toLower t :=
    (((hL.lower s hs).1.trans h).trans (hL.lower t ht).1.symm).eq_of_noUpper (hL.lower s hs).2 (hL.lower t ht).2
  unfold parseLevel
  rw [this]

theorem same_of_map {s t : Bytes} (h : s.map down = t) : SameText s t := by
  rw [← h]; exact (down_text s).1.symm

/-- C32: the printed name of each level parses as this level; the levels are those of
`LevelOrder`, most important (largest) first. -/
theorem C32_round_trip {L : Replace.Lib} (hL : Good L) (l : Nat) (h : 1 ≤ l ∧ l ≤ 4) :
    parseLevel L (levelText l) = some l := by
  have : l = 1 ∨ l = 2 ∨ l = 3 ∨ l = 4 := by omega
  rcases this with rfl | rfl | rfl | rfl
  · exact (C32_parse_iff hL _ (by unfold Ascii; decide) _).2
      ⟨_, .administrative, same_of_map rfl⟩
  · exact (C32_parse_iff hL _ (by unfold Ascii; decide) _).2 ⟨_, .suggested, same_of_map rfl⟩
  · exact (C32_parse_iff hL _ (by unfold Ascii; decide) _).2 ⟨_, .implied, same_of_map rfl⟩
  · exact (C32_parse_iff hL _ (by unfold Ascii; decide) _).2 ⟨_, .required, same_of_map rfl⟩

/-- C32: different levels print differently, and what is printed for any other number does
not parse. -/
theorem C32_printing {L : Replace.Lib} (hL : Good L) (l : Nat) :
    parseLevel L (levelText l) = if 1 ≤ l ∧ l ≤ 4 then some l else none := by
  by_cases h : 1 ≤ l ∧ l ≤ 4
  · rw [if_pos h]; exact C32_round_trip hL l h
  · rw [if_neg h]
    have e : levelText l = b!"Unknown level " ++ Slog.decNat l := by
      have h1 : l ≠ 1 := by omega
      have h2 : l ≠ 2 := by omega
      have h3 : l ≠ 3 := by omega
      have h4 : l ≠ 4 := by omega
      simp [levelText, levelName, h1, h2, h3, h4]
    cases hp : parseLevel L (levelText l) with
    | none => rfl
    | some k =>
      exfalso
      have ha : Ascii (levelText l) := by
        rw [e]
        intro b hb
        have h0 : ∀ b ∈ b!"Unknown level ", b < 0x80 := by decide
        rcases List.mem_append.1 hb with hb | hb
        · exact h0 b hb
        · have := List.all_eq_true.1 (Slog.decNat_digits l) b hb
          unfold Json.isDigit at this
          simp only [Bool.and_eq_true, decide_eq_true_eq, UInt8.le_iff_toNat_le, UInt8.lt_iff_toNat_lt] at *
          simp at *; omega
      obtain ⟨s, hs, hst⟩ := (C32_parse_iff hL _ ha k).1 hp
      rw [e] at hst
      cases hst with
      | cons h1 h2 => cases hs <;> (revert h1; decide)

/-- The order of levels: every level once, descending. -/
theorem C32_order : levelOrder.Pairwise (· > ·) ∧ ∀ l, l ∈ levelOrder ↔ 1 ≤ l ∧ l ≤ 4 := by
  refine ⟨by decide, fun l => ?_⟩
  simp [levelOrder]; omega

/-- A case: mixed letters, and a text that is no level. -/
example : parseLevel asciiLib b!"ADMIN" = some 1 ∧ parseLevel asciiLib b!"ReQuired" = some 4 ∧
    parseLevel asciiLib b!"require" = none ∧ levelText 7 = b!"Unknown level 7" := by
  refine ⟨by decide, by decide, by decide, by decide +kernel⟩

/-! ### C33 -/

/-- A line that is not blank: its indentation and its text. -/
def Indented (l p t : Bytes) : Prop := l = p ++ t ∧ Spaces p ∧ StartsText t

theorem spaces_append {p q : Bytes} (h : Spaces p) (h' : Spaces q) : Spaces (p ++ q) := by
  induction h with
  | nil => exact h'
  | cons h1 _ ih => rw [List.append_assoc]; exact .cons h1 ih

/-- What the scan of a line finds. -/
theorem firstText_spec : ∀ (n i : Nat) (s : Bytes), s.length ≤ n →
    (firstText n i s = none ∧ Spaces s) ∨ ∃ p t, firstText n i s = some (i + p.length) ∧ Indented s p t
  | 0, i, s, h => by
    have : s = [] := List.length_eq_zero_iff.1 (by omega)
    subst this
    exact .inl ⟨rfl, .nil⟩
  | n + 1, i, s, h => by
    cases hd : decodeRune s with
    | none =>
      cases s with
      | nil => exact .inl ⟨by simp [firstText, hd], .nil⟩
      | cons => cases hd
    | some pair =>
      obtain ⟨r, w⟩ := pair
      obtain ⟨w1, w2⟩ := decodeRune_width hd
      cases hr : isSpace r with
      | false =>
        exact .inr ⟨[], s, by simp [firstText, hd, hr], rfl, .nil, startsText_iff.2 ⟨r, w, hd, hr⟩⟩
      | true =>
        have hsp := space_of_decode hd hr
        have htd := List.take_append_drop w s
        have hlen : (s.take w).length = w := by simp; omega
        rcases firstText_spec n (i + w) (s.drop w) (by simp; omega) with ⟨e, hs⟩ | ⟨p, t, e, e2, hp, ht⟩
        · refine .inl ⟨by simp [firstText, hd, hr, e], ?_⟩
          rw [← htd]; exact .cons hsp hs
        · refine .inr ⟨s.take w ++ p, t, ?_, ?_, .cons hsp hp, ht⟩
          · simp only [firstText, hd, hr, if_true, e, List.length_append, hlen]
            congr 1; omega
          · rw [List.append_assoc, ← e2, htd]

theorem not_blank {s p t : Bytes} (hs : Spaces s) (h : Indented s p t) : False := by
  obtain ⟨e, hp, ht⟩ := h
  induction hp generalizing s with
  | nil =>
    cases hs with
    | nil => exact ht.1 (by simpa using e.symm)
    | cons h1 _ => exact ht.2 _ _ h1 (by simpa using e.symm)
  | @cons p1 p2 h1 _ ih =>
    cases hs with
    | nil =>
      have := congrArg List.length e
      simp only [List.length_nil, List.length_append] at this
      exact ht.1 (List.length_eq_zero_iff.1 (by omega))
    | @cons s1 s2 h2 hs =>
      rw [List.append_assoc] at e
      obtain ⟨r, e1, _⟩ := decode_space h1 (p2 ++ t)
      obtain ⟨r', e2, _⟩ := decode_space h2 s2
      rw [e, e1] at e2
      simp only [Option.some.injEq, Prod.mk.injEq] at e2
      exact ih hs (List.append_inj e e2.2.symm).2

theorem indentOf_none {l : Bytes} : indentOf l = none ↔ Spaces l := by
  rcases firstText_spec l.length 0 l (Nat.le_refl _) with ⟨e, hs⟩ | ⟨p, t, e, h⟩
  · exact ⟨fun _ => hs, fun _ => e⟩
  · constructor
    · intro h'; unfold indentOf at h'; rw [e] at h'; cases h'
    · intro hs; exact (not_blank hs h).elim

theorem indentOf_some {l : Bytes} {n : Nat} : indentOf l = some n ↔ ∃ p t, Indented l p t ∧ p.length = n := by
  rcases firstText_spec l.length 0 l (Nat.le_refl _) with ⟨e, hs⟩ | ⟨p, t, e, h⟩
  · unfold indentOf
    rw [e]
    constructor
    · intro h; cases h
    · rintro ⟨p, t, h, _⟩; exact (not_blank hs h).elim
  · unfold indentOf
    rw [e]
    simp only [Nat.zero_add, Option.some.injEq]
    constructor
    · intro hn; exact ⟨p, t, h, hn⟩
    · rintro ⟨p', t', h', hn⟩
      have := indent_unique (h.1.symm.trans h'.1) h.2.1 h'.2.1 h.2.2 h'.2.2
      rw [this.1]; exact hn

/-- One step of the first loop. -/
def least (acc : Option Nat) (line : Bytes) : Option Nat :=
  match indentOf line, acc with
  | some n, some p => if n < p then some n else acc
  | some n, none => some n
  | none, _ => acc

theorem fold_least (ls : List Bytes) : ∀ acc, ls.foldl least acc =
    match acc, ls.foldl least none with
    | some a, some b => some (min a b)
    | some a, none => some a
    | none, b => b := by
  have step : ∀ acc l, least acc l = match acc, indentOf l with
      | some a, some b => some (min a b) | some a, none => some a | none, b => b := by
    intro acc l
    unfold least
    cases indentOf l <;> cases acc <;> simp
    split <;> simp <;> omega
  induction ls with
  | nil => intro acc; cases acc <;> rfl
  | cons l ls ih =>
    intro acc
    rw [List.foldl_cons, List.foldl_cons, ih (least acc l), ih (least none l), step acc l, step none l]
    cases acc <;> cases indentOf l <;> cases ls.foldl least none <;> simp [Nat.min_assoc]

theorem prefixSpaces_cons (l : Bytes) (ls : List Bytes) : prefixSpaces (l :: ls) =
    match indentOf l, prefixSpaces ls with
    | some a, some b => some (min a b)
    | some a, none => some a
    | none, b => b := by
  show (l :: ls).foldl least none = match indentOf l, ls.foldl least none with
    | some a, some b => some (min a b) | some a, none => some a | none, b => b
  rw [List.foldl_cons, fold_least]
  unfold least
  cases indentOf l <;> rfl

theorem prefixSpaces_none {ls : List Bytes} : prefixSpaces ls = none ↔ ∀ l ∈ ls, Spaces l := by
  induction ls with
  | nil => simp [prefixSpaces]
  | cons l ls ih =>
    rw [prefixSpaces_cons]
    simp only [List.mem_cons, forall_eq_or_imp]
    rw [← ih, ← indentOf_none (l := l)]
    cases indentOf l <;> cases prefixSpaces ls <;> simp

theorem prefixSpaces_some {ls : List Bytes} {n : Nat} : prefixSpaces ls = some n ↔
    (∃ l ∈ ls, ∃ p t, Indented l p t ∧ p.length = n) ∧ ∀ l ∈ ls, ∀ p t, Indented l p t → n ≤ p.length := by
  induction ls generalizing n with
  | nil => simp [prefixSpaces]
  | cons l ls ih =>
    have hmem : ∀ p t, Indented l p t → indentOf l = some p.length := fun p t h => indentOf_some.2 ⟨p, t, h, rfl⟩
    rw [prefixSpaces_cons]
    simp only [List.mem_cons, forall_eq_or_imp, exists_eq_or_imp]
    cases e1 : indentOf l with
    | none =>
      have h0 : ∀ p t, ¬ Indented l p t := fun p t h => by rw [hmem p t h] at e1; cases e1
      simp only
      rw [ih]
      constructor
      · rintro ⟨h1, h2⟩
        exact ⟨.inr h1, fun p t h => absurd h (h0 p t), h2⟩
      · rintro ⟨h1 | h1, _, h2⟩
        · obtain ⟨p, t, h, _⟩ := h1; exact absurd h (h0 p t)
        · exact ⟨h1, h2⟩
    | some a =>
      obtain ⟨p0, t0, h0, hp0⟩ := indentOf_some.1 e1
      have hu : ∀ p t, Indented l p t → p.length = a := fun p t h => by
        rw [hmem p t h] at e1; exact Option.some.inj e1
      cases e2 : prefixSpaces ls with
      | none =>
        have hb := prefixSpaces_none.1 e2
        simp only [Option.some.injEq]
        constructor
        · rintro rfl
          exact ⟨.inl ⟨p0, t0, h0, hp0⟩, fun p t h => by rw [hu p t h]; exact Nat.le_refl _,
            fun l hl p t h => (not_blank (hb l hl) h).elim⟩
        · rintro ⟨h1 | ⟨l, hl, p, t, h, _⟩, h2, h3⟩
          · obtain ⟨p, t, h, hn⟩ := h1
            rw [← hn, hu p t h]
          · exact (not_blank (hb l hl) h).elim
      | some b =>
        obtain ⟨⟨l1, hl1, p1, t1, h1, hp1⟩, hmin⟩ := ih.1 e2
        simp only [Option.some.injEq]
        constructor
        · rintro rfl
          refine ⟨?_, fun p t h => by rw [hu p t h]; exact Nat.min_le_left _ _,
            fun l hl p t h => Nat.le_trans (Nat.min_le_right _ _) (hmin l hl p t h)⟩
          by_cases hab : a ≤ b
          · exact .inl ⟨p0, t0, h0, by omega⟩
          · exact .inr ⟨l1, hl1, p1, t1, h1, by omega⟩
        · rintro ⟨h2, h3, h4⟩
          have ha := h3 p0 t0 h0
          have hb := h4 l1 hl1 p1 t1 h1
          rcases h2 with ⟨p, t, h, hn⟩ | ⟨l, hl, p, t, h, hn⟩
          · have := hu p t h; omega
          · have := hmin l hl p t h; omega

theorem cut_long {n : Nat} {l : Bytes} (h : n < l.length) : cutLine (some n) l = l.drop n := by
  simp only [cutLine]; rw [if_pos h]

theorem cut_short {n : Nat} {l : Bytes} (h : l.length ≤ n) : cutLine (some n) l = l := by
  simp only [cutLine]; rw [if_neg (by omega)]

theorem flatten_unlines (ls : List Bytes) (f : Bytes → Bytes) :
    (ls.map fun l => f l ++ [0x0A]).flatten = unlines (ls.map f) := by
  induction ls with
  | nil => rfl
  | cons l ls ih => simp [unlines, ih]

theorem fix_text {d : Bytes} {ls : List Bytes} (h : Text d ls) (hs : ∀ l ∈ ls, l.length < 65535) :
    fixDescription d = unlines (ls.map (cutLine (prefixSpaces ls))) := by
  unfold fixDescription
  rw [scanLines_text h hs]
  exact flatten_unlines ls _

/-- The indentation common to all lines that are not blank. -/
def Common (ls : List Bytes) (n : Nat) : Prop :=
  (∃ l ∈ ls, ∃ p t, Indented l p t ∧ p.length = n) ∧ ∀ l ∈ ls, ∀ p t, Indented l p t → n ≤ p.length

/-- C33: what is stored is the given lines in order. If all are blank they are as they
were. Otherwise each line that is not blank loses the common indentation and nothing
else; a blank line loses it as well if it is longer, and is kept if not. -/
theorem C33_dedent {d : Bytes} {ls : List Bytes} (h : Text d ls) (hs : ∀ l ∈ ls, l.length < 65535) :
    ((∀ l ∈ ls, Spaces l) ∧ fixDescription d = unlines ls) ∨
    ∃ n, Common ls n ∧ ∃ f : Bytes → Bytes, fixDescription d = unlines (ls.map f) ∧
      (∀ l ∈ ls, ∀ p t, Indented l p t → f l = p.drop n ++ t) ∧
      (∀ l ∈ ls, Spaces l → (n < l.length → f l = l.drop n) ∧ (l.length ≤ n → f l = l)) := by
  rw [fix_text h hs]
  cases e : prefixSpaces ls with
  | none =>
    refine .inl ⟨prefixSpaces_none.1 e, ?_⟩
    congr 1
    rw [List.map_congr_left (g := id) (fun l _ => by simp [cutLine])]
    simp
  | some n =>
    have hc := prefixSpaces_some.1 e
    refine .inr ⟨n, hc, cutLine (some n), rfl, ?_, ?_⟩
    · intro l hl p t hi
      have hn := hc.2 l hl p t hi
      obtain ⟨rfl, _, ht⟩ := hi
      have ht : 0 < t.length := List.length_pos_iff.2 ht.1
      rw [cut_long (by simp; omega), List.drop_append_of_le_length hn]
    · intro l _ _
      exact ⟨cut_long, cut_short⟩

/-- Every text has lines, so C33_dedent speaks about every description with lines short
enough. -/
theorem C33_text_exists (d : Bytes) : ∃ ls, Text d ls := text_exists d.length d (Nat.le_refl _)

/-- C33, idempotence in full. -/
def C33_idempotent_statement : Prop := ∀ d : Bytes, fixDescription (fixDescription d) = fixDescription d

/-- It does not hold: of two carriage returns at the end of a line, each pass drops
one. -/
theorem C33_not_idempotent : ¬ C33_idempotent_statement := by
  intro h
  have := h b!"a\r\r\n"
  revert this
  decide

/-- C33: dedenting twice is dedenting once if no line ends in another carriage
return. -/
theorem C33_idempotent_partial {d : Bytes} {ls : List Bytes} (h : Text d ls) (hs : ∀ l ∈ ls, l.length < 65535)
    (hcr : ∀ l ∈ ls, NoCR l) : fixDescription (fixDescription d) = fixDescription d := by
  have hone : ∀ l ∈ ls, OneLine l := by
    clear hs hcr
    induction h with
    | nil => intro l hl; cases hl
    | lf h1 _ _ ih => exact fun l hl => (List.mem_cons.1 hl).elim (fun e => e ▸ h1) (ih l)
    | crlf h1 _ ih => exact fun l hl => (List.mem_cons.1 hl).elim (fun e => e ▸ h1) (ih l)
    | last h1 _ _ => intro l hl; rw [List.mem_singleton.1 hl]; exact h1
    | lastcr h1 => intro l hl; rw [List.mem_singleton.1 hl]; exact h1
  have hcut : ∀ p, ∀ l ∈ ls, OneLine (cutLine p l) ∧ NoCR (cutLine p l) ∧ (cutLine p l).length < 65535 := by
    intro p l hl
    have h1 := hone l hl
    have h2 := hcr l hl
    have h3 := hs l hl
    unfold cutLine
    cases p with
    | none => exact ⟨h1, h2, h3⟩
    | some p =>
      simp only
      split
      · rename_i hp
        refine ⟨fun b hb => h1 b (List.mem_of_mem_drop hb), ?_, by simp; omega⟩
        unfold NoCR
        rw [List.getLast?_drop, if_neg (by omega)]
        exact h2
      · exact ⟨h1, h2, h3⟩
  have h2 : Text (fixDescription d) (ls.map (cutLine (prefixSpaces ls))) := by
    rw [fix_text h hs]
    refine text_unlines fun l hl => ?_
    obtain ⟨l, hl', rfl⟩ := List.mem_map.1 hl
    exact ⟨(hcut _ l hl').1, (hcut _ l hl').2.1⟩
  rw [fix_text h2 (fun l hl => by
    obtain ⟨l, hl', rfl⟩ := List.mem_map.1 hl
    exact (hcut _ l hl').2.2)]
  rw [fix_text h hs]
  congr 1
  cases e : prefixSpaces ls with
  | none =>
    have : ls.map (cutLine none) = ls := by
      rw [List.map_congr_left (g := id) (fun l _ => by simp [cutLine])]; simp
    rw [this, e, this]
  | some n =>
    have hc := prefixSpaces_some.1 e
    have hz : prefixSpaces (ls.map (cutLine (some n))) = some 0 := by
      rw [prefixSpaces_some]
      refine ⟨?_, fun _ _ _ _ _ => Nat.zero_le _⟩
      obtain ⟨⟨l, hl, p, t, hi, hp⟩, _⟩ := hc
      refine ⟨cutLine (some n) l, List.mem_map.2 ⟨l, hl, rfl⟩, [], t, ⟨?_, .nil, hi.2.2⟩, rfl⟩
      have ht : 0 < t.length := List.length_pos_iff.2 hi.2.2.1
      obtain ⟨rfl, _⟩ := hi
      rw [cut_long (by simp; omega), ← hp]
      simp
    rw [hz]
    rw [List.map_congr_left (g := id) (fun l _ => by
      by_cases hl : 0 < l.length
      · rw [cut_long hl]; rfl
      · rw [cut_short (by omega)]; rfl)]
    simp

/-- C33: a line too long for the scanner ends the description: everything from it on is
lost. -/
theorem C33_long_line_loses_the_rest {l : Bytes} (h : OneLine l) (hl : 65536 ≤ l.length) (d : Bytes) :
    fixDescription (l ++ 0x0A :: d) = [] := by
  unfold fixDescription scanLines
  rw [splitLines_line h, List.takeWhile_cons, if_neg (by simp; omega)]
  rfl

/-- A case: three lines, one of them blank, with tabs. -/
example : fixDescription b!"\n\t\tA test\n\t\n\t\t  more.\r\n" = b!"\nA test\n\t\n  more.\n" ∧
    Text b!"\n\t\tA test\n\t\n\t\t  more.\r\n" [[], b!"\t\tA test", b!"\t", b!"\t\t  more."] := by
  refine ⟨by decide, ?_⟩
  have ol : ∀ l : Bytes, l.all (· ≠ 0x0A) = true → OneLine l := by
    intro l h b hb
    simpa using List.all_eq_true.1 h b hb
  exact .lf (l := []) (ol _ rfl) (by unfold NoCR; decide) (.lf (l := b!"\t\tA test") (ol _ rfl) (by unfold NoCR; decide)
    (.lf (l := b!"\t") (ol _ rfl) (by unfold NoCR; decide) (.crlf (l := b!"\t\t  more.") (ol _ rfl) .nil)))

/-- A case of `C33_idempotent_partial`: the same lines without carriage return. -/
example : fixDescription (fixDescription b!"\n\t\tA test\n\t\n\t\t  more.") = fixDescription b!"\n\t\tA test\n\t\n\t\t  more." := by
  have ol : ∀ l : Bytes, l.all (· ≠ 0x0A) = true → OneLine l := by
    intro l h b hb
    simpa using List.all_eq_true.1 h b hb
  refine C33_idempotent_partial (ls := [[], b!"\t\tA test", b!"\t", b!"\t\t  more."]) (.lf (l := []) (ol _ rfl) (by unfold NoCR; decide)
    (.lf (l := b!"\t\tA test") (ol _ rfl) (by unfold NoCR; decide) (.lf (l := b!"\t") (ol _ rfl) (by unfold NoCR; decide)
      (.last (l := b!"\t\t  more.") (ol _ rfl) (by unfold NoCR; decide) (by decide))))) (by decide) ?_
  intro l hl
  simp only [List.mem_cons, List.not_mem_nil, or_false] at hl
  rcases hl with rfl | rfl | rfl | rfl <;> (unfold NoCR; decide)

/-- A case of `C33_long_line_loses_the_rest`. -/
example (d : Bytes) : fixDescription (List.replicate 65536 0x2D ++ 0x0A :: d) = [] :=
  C33_long_line_loses_the_rest (fun b hb => by rw [(List.mem_replicate.1 hb).2]; decide) (by rw [List.length_replicate]; exact Nat.le_refl _) d

end Verif.Props.WarnText
