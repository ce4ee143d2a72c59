import Verif.Count.Lenient
import Verif.Props.FieldCount

/-
C35: exactly which texts the field counter accepts.
-/

set_option linter.unusedSimpArgs false

namespace Verif.Props.FieldLenient
open Go Verif.Count

/-! ### The texts, without reference to the parsers

A grammar of objects in runes that is wider than that of JSON. -/

/-- White space, as package unicode sees it. -/
def White (w : List Nat) : Prop := ∀ r ∈ w, isSpace r = true

/-- Digits, as package unicode sees them. -/
def Digits (U : Uni) (ds : List Nat) : Prop := ∀ r ∈ ds, U.isDigit r = true

/-- A string after its opening quote: anything, where a backslash takes the next rune
with it. -/
inductive Str : List Nat → Prop
  | close : Str [0x22]
  | escape {s : List Nat} (e : Nat) : Str s → Str (0x5C :: e :: s)
  | plain {r : Nat} {s : List Nat} : r ≠ 0x22 → r ≠ 0x5C → Str s → Str (r :: s)

/-- A sign and more digits. -/
inductive Signed (U : Uni) : List Nat → Prop
  | none : Signed U []
  | some {r : Nat} {ds : List Nat} : r = 0x2D ∨ r = 0x2B → Digits U ds → Signed U (r :: ds)

/-- An exponent; the sign may stand anywhere in it. -/
inductive Expo (U : Uni) : List Nat → Prop
  | none : Expo U []
  | some {r : Nat} {ds s : List Nat} : r = 0x65 ∨ r = 0x45 → Digits U ds → Signed U s → Expo U (r :: ds ++ s)

/-- A fraction. -/
inductive Frac (U : Uni) : List Nat → Prop
  | none : Frac U []
  | some {ds : List Nat} : Digits U ds → Frac U (0x2E :: ds)

/-- A number: a digit or a minus, and then digits, a fraction and an exponent, all of
which may be missing. -/
inductive Number (U : Uni) : List Nat → Prop
  | mk {r : Nat} {ds f e : List Nat} : U.isDigit r = true ∨ r = 0x2D → Digits U ds → Frac U f → Expo U e →
      Number U (r :: ds ++ f ++ e)

/-- A word: letters, the first of them one of t, f, n, T, F, N, which in lower case are
true, false or null. -/
inductive Word (U : Uni) : List Nat → Prop
  | mk {r : Nat} {ls : List Nat} : r ∈ [0x74, 0x54, 0x66, 0x46, 0x6E, 0x4E] → (∀ l ∈ ls, U.isLetter l = true) →
      U.toLower (spell (r :: ls)) ∈ [b!"true", b!"false", b!"null"] → Word U (r :: ls)

mutual
/-- A value. -/
inductive Value (U : Uni) : List Nat → Prop
  | word {s : List Nat} : Word U s → Value U s
  | number {s : List Nat} : Number U s → Value U s
  | str {s : List Nat} : Str s → Value U (0x22 :: s)
  | arr {s : List Nat} : Elems U s → Value U (0x5B :: s)
  | obj {s : List Nat} : Members U s → Value U (0x7B :: s)
/-- An array after its opening bracket; the last element may have a comma. -/
inductive Elems (U : Uni) : List Nat → Prop
  | close {w : List Nat} : White w → Elems U (w ++ [0x5D])
  | last {w v w' : List Nat} : White w → Value U v → White w' → Elems U (w ++ v ++ w' ++ [0x5D])
  | more {w v w' s : List Nat} : White w → Value U v → White w' → Elems U s → Elems U (w ++ v ++ w' ++ 0x2C :: s)
/-- An object after its opening brace; the last member may have a comma. -/
inductive Members (U : Uni) : List Nat → Prop
  | close {w : List Nat} : White w → Members U (w ++ [0x7D])
  | last {w k w1 w2 v w3 : List Nat} : White w → Str k → White w1 → White w2 → Value U v → White w3 →
      Members U (w ++ 0x22 :: k ++ w1 ++ 0x3A :: w2 ++ v ++ w3 ++ [0x7D])
  | more {w k w1 w2 v w3 s : List Nat} : White w → Str k → White w1 → White w2 → Value U v → White w3 → Members U s →
      Members U (w ++ 0x22 :: k ++ w1 ++ 0x3A :: w2 ++ v ++ w3 ++ 0x2C :: s)
end

/-- White space and an object. -/
inductive Whole (U : Uni) : List Nat → Prop
  | mk {w s : List Nat} : White w → Members U s → Whole U (w ++ 0x7B :: s)

/-- A continuation that does not begin with a letter. -/
def NoLetter (U : Uni) (z : List Nat) : Prop := ∀ r, z.head? = some r → U.isLetter r = false

/-- The texts that begin with an object, or begin one: something that does not begin with
a letter makes it complete. -/
def Lenient (U : Uni) (s : List Nat) : Prop :=
  (∃ p q, s = p ++ q ∧ Whole U p) ∨ (∃ z, NoLetter U z ∧ Whole U (s ++ z))

/-- What package unicode says about white space. -/
def SpaceOk (U : Uni) : Prop := ∀ r, isSpace r = true → U.isLetter r = false ∧ U.isDigit r = false

/-! ### From the texts to the parsers -/

theorem ascii (n : Nat) (h : n < 0x80) : ∃ a : UInt8, a.toNat = n ∧ a < 0x80 := by
  refine ⟨UInt8.ofNat n, ?_, ?_⟩
  · simp [UInt8.toNat_ofNat']; omega
  · rw [UInt8.lt_iff_toNat_lt]; simp [UInt8.toNat_ofNat']; omega

theorem letter_no {U : Uni} (hU : Latin U) (n : Nat) (h : n < 0x80)
    (h' : ¬ ((0x41 ≤ n ∧ n ≤ 0x5A) ∨ (0x61 ≤ n ∧ n ≤ 0x7A))) : U.isLetter n = false := by
  obtain ⟨a, rfl, ha⟩ := ascii n h
  cases e : U.isLetter a.toNat with
  | false => rfl
  | true =>
    have := (hU.letter a ha).1 e
    simp only [UInt8.le_iff_toNat_le] at this
    exact absurd this h'

theorem digit_no {U : Uni} (hU : Latin U) (n : Nat) (h : n < 0x80)
    (h' : ¬ (0x30 ≤ n ∧ n ≤ 0x39)) : U.isDigit n = false := by
  obtain ⟨a, rfl, ha⟩ := ascii n h
  cases e : U.isDigit a.toNat with
  | false => rfl
  | true =>
    have := (hU.digit a ha).1 e
    simp only [UInt8.le_iff_toNat_le] at this
    exact absurd this h'

/-- What a number or a word stops at. -/
def Stops (U : Uni) (t : List Nat) : Prop :=
  ∀ r, t.head? = some r → U.isLetter r = false ∧ U.isDigit r = false ∧ r ≠ 0x2E ∧ r ≠ 0x65 ∧ r ≠ 0x45 ∧ r ≠ 0x2D ∧ r ≠ 0x2B

theorem stops_space {U : Uni} (hS : SpaceOk U) {r : Nat} (h : isSpace r = true) (t : List Nat) : Stops U (r :: t) := by
  intro x hx
  cases hx
  refine ⟨(hS r h).1, (hS r h).2, ?_, ?_, ?_, ?_, ?_⟩ <;> (rintro rfl; revert h; decide)

theorem stops_comma {U : Uni} (hU : Latin U) (t : List Nat) : Stops U (0x2C :: t) := by
  intro x hx
  cases hx
  exact ⟨letter_no hU 0x2C (by decide) (by decide), digit_no hU 0x2C (by decide) (by decide), by decide, by decide, by decide, by decide, by decide⟩

theorem stops_bracket {U : Uni} (hU : Latin U) (t : List Nat) : Stops U (0x5D :: t) := by
  intro x hx
  cases hx
  exact ⟨letter_no hU 0x5D (by decide) (by decide), digit_no hU 0x5D (by decide) (by decide), by decide, by decide, by decide, by decide, by decide⟩

theorem stops_brace {U : Uni} (hU : Latin U) (t : List Nat) : Stops U (0x7D :: t) := by
  intro x hx
  cases hx
  exact ⟨letter_no hU 0x7D (by decide) (by decide), digit_no hU 0x7D (by decide) (by decide), by decide, by decide, by decide, by decide, by decide⟩

theorem stops_white {U : Uni} (hS : SpaceOk U) {w t : List Nat} (hw : White w) (ht : Stops U t) : Stops U (w ++ t) := by
  cases w with
  | nil => exact ht
  | cons r w => exact stops_space hS (hw r (by simp)) _

theorem str_rest {k : List Nat} (h : Str k) (t : List Nat) : strRest (k ++ t) = t := by
  induction h with
  | close => exact strRest_quote t
  | escape e _ ih => exact ih
  | plain h1 h2 _ ih => rw [List.cons_append, strRest_plain h2 h1]; exact ih

theorem num_digits {U : Uni} {ds : List Nat} (hd : Digits U ds) (st : Num) (t : List Nat) :
    numRest U st (ds ++ t) = numRest U st t := by
  induction ds with
  | nil => rfl
  | cons r ds ih =>
    rw [List.cons_append, numRest, if_pos (hd r (by simp))]
    exact ih (fun x hx => hd x (by simp [hx]))

theorem num_stop {U : Uni} {t : List Nat} (ht : Stops U t) (st : Num) : numRest U st t = some t := by
  cases t with
  | nil => rfl
  | cons r t =>
    obtain ⟨_, h1, h2, h3, h4, h5, h6⟩ := ht r rfl
    rw [numRest, if_neg (by rw [h1]; decide), if_neg h2, if_neg (by simp [h3, h4]), if_neg (by simp [h5, h6])]

theorem num_signed {U : Uni} (hU : Latin U) {s t : List Nat} (h : Signed U s) (ht : Stops U t) {st : Num} (h1 : st.exponent = true)
    (h2 : st.sign = false) : numRest U st (s ++ t) = some t := by
  cases h with
  | none => exact num_stop ht _
  | @some r ds hr hd =>
    have hnd : U.isDigit r = false := by
      rcases hr with rfl | rfl
      · exact digit_no hU 0x2D (by decide) (by decide)
      · exact digit_no hU 0x2B (by decide) (by decide)
    have h3 : ¬ r = 0x2E := by rcases hr with rfl | rfl <;> decide
    have h4 : ¬ (r = 0x65 ∨ r = 0x45) := by rcases hr with rfl | rfl <;> decide
    rw [List.cons_append, numRest, if_neg (by rw [hnd]; decide), if_neg h3, if_neg h4, if_pos hr]
    simp only [h1, h2, Bool.not_true, Bool.false_or, Bool.false_eq_true, if_false]
    rw [num_digits hd, num_stop ht]

theorem num_expo {U : Uni} (hU : Latin U) {s t : List Nat} (h : Expo U s) (ht : Stops U t) {st : Num} (h1 : st.exponent = false)
    (h2 : st.sign = false) : numRest U st (s ++ t) = some t := by
  cases h with
  | none => exact num_stop ht _
  | @some r ds sg hr hd hsg =>
    have hnd : U.isDigit r = false := by
      rcases hr with rfl | rfl
      · exact digit_no hU 0x65 (by decide) (by decide)
      · exact digit_no hU 0x45 (by decide) (by decide)
    have h3 : ¬ r = 0x2E := by rcases hr with rfl | rfl <;> decide
    rw [List.cons_append, List.cons_append, numRest, if_neg (by rw [hnd]; decide), if_neg h3, if_pos hr]
    simp only [h1, Bool.false_eq_true, if_false]
    rw [List.append_assoc, num_digits hd]
    exact num_signed hU hsg ht rfl h2

theorem num_rest {U : Uni} (hU : Latin U) {r : Nat} {s t : List Nat} (h : Number U (r :: s)) (ht : Stops U t) :
    numRest U {} (s ++ t) = some t := by
  generalize hs : r :: s = rs at h
  cases h with
  | @mk r' ds f e hr hd hf he =>
    cases hs
    show numRest U {} (ds ++ f ++ e ++ t) = some t
    rw [List.append_assoc, List.append_assoc, num_digits hd]
    cases hf with
    | none => exact num_expo hU he ht rfl rfl
    | @some ds' hd' =>
      rw [List.cons_append, numRest, if_neg (by rw [digit_no hU 0x2E (by decide) (by decide)]; decide), if_pos rfl]
      simp only [Bool.or_self, Bool.false_eq_true, if_false]
      rw [num_digits hd']
      exact num_expo hU he ht rfl rfl

theorem word_take {U : Uni} {ls t : List Nat} (h : ∀ l ∈ ls, U.isLetter l = true) (ht : Stops U t) :
    (ls ++ t).takeWhile U.isLetter = ls ∧ (ls ++ t).dropWhile U.isLetter = t := by
  induction ls with
  | nil =>
    cases t with
    | nil => exact ⟨rfl, rfl⟩
    | cons r t =>
      have := (ht r rfl).1
      simp [this]
  | cons l ls ih =>
    obtain ⟨h1, h2⟩ := ih (fun x hx => h x (by simp [hx]))
    have := h l (by simp)
    simp only [List.cons_append, List.takeWhile_cons_of_pos this, List.dropWhile_cons_of_pos this, h1, h2, and_self]

theorem good_iff {s : Bytes} : goodKeyword s = true ↔ s ∈ [b!"true", b!"false", b!"null"] := by
  simp [goodKeyword, or_assoc]

theorem rune_iff {r : Nat} : runeKeyword r = true ↔ r ∈ [0x74, 0x54, 0x66, 0x46, 0x6E, 0x4E] := by
  simp [runeKeyword, or_assoc]

/-- White space before something. -/
theorem white_elems {U : Uni} {b : Bool} {w s t : List Nat} (hw : White w) (h : RElems U b s t) : RElems U b (w ++ s) t := by
  induction w with
  | nil => exact h
  | cons r w ih => exact .space (hw r (by simp)) (ih (fun x hx => hw x (by simp [hx])))
theorem white_members {U : Uni} {b : Bool} {w s t : List Nat} (hw : White w) (h : RMembers U b s t) : RMembers U b (w ++ s) t := by
  induction w with
  | nil => exact h
  | cons r w ih => exact .space (hw r (by simp)) (ih (fun x hx => hw x (by simp [hx])))
theorem white_field {U : Uni} {b : Bool} {w s t : List Nat} (hw : White w) (h : RField U b s t) : RField U b (w ++ s) t := by
  induction w with
  | nil => exact h
  | cons r w ih => exact .space (hw r (by simp)) (ih (fun x hx => hw x (by simp [hx])))
theorem white_top {U : Uni} {w s : List Nat} (hw : White w) (h : RTop U s) : RTop U (w ++ s) := by
  induction w with
  | nil => exact h
  | cons r w ih => exact .space (hw r (by simp)) (ih (fun x hx => hw x (by simp [hx])))

/-- A value has a first rune, which is no white space, comma, colon or bracket. -/
def FirstOk (r : Nat) : Prop := isSpace r = false ∧ r ≠ 0x2C ∧ r ≠ 0x5D ∧ r ≠ 0x3A

theorem value_first {U : Uni} (hU : Latin U) (hS : SpaceOk U) {v : List Nat} (h : Value U v) : ∃ r s, v = r :: s ∧ FirstOk r := by
  cases h with
  | word h =>
    cases h with
    | @mk r ls hr _ _ =>
      refine ⟨r, ls, rfl, ?_⟩
      rcases keyword_rune (rune_iff.2 hr) with rfl | rfl | rfl | rfl | rfl | rfl <;> exact ⟨by decide, by decide, by decide, by decide⟩
  | number h =>
    cases h with
    | @mk r ds f e hr _ _ _ =>
      refine ⟨r, _, rfl, ?_⟩
      rcases hr with hr | rfl
      · refine ⟨?_, ?_, ?_, ?_⟩
        · cases hs : isSpace r with
          | false => rfl
          | true => rw [(hS r hs).2] at hr; cases hr
        · rintro rfl; rw [digit_no hU 0x2C (by decide) (by decide)] at hr; cases hr
        · rintro rfl; rw [digit_no hU 0x5D (by decide) (by decide)] at hr; cases hr
        · rintro rfl; rw [digit_no hU 0x3A (by decide) (by decide)] at hr; cases hr
      · exact ⟨by decide, by decide, by decide, by decide⟩
  | str h => exact ⟨_, _, rfl, by decide, by decide, by decide, by decide⟩
  | arr h => exact ⟨_, _, rfl, by decide, by decide, by decide, by decide⟩
  | obj h => exact ⟨_, _, rfl, by decide, by decide, by decide, by decide⟩

theorem number_reads {U : Uni} (hU : Latin U) (hS : SpaceOk U) {v : List Nat} (h : Number U v) (t : List Nat) (ht : Stops U t) :
    RValue U (v ++ t) t := by
  obtain ⟨r, s, rfl, hf⟩ := value_first hU hS (.number h)
  have hr : U.isDigit r = true ∨ r = 0x2D := by
    generalize hs : r :: s = rs at h
    cases h with
    | mk hr _ _ _ => cases hs; exact hr
  refine .num hf.1 ?_ ?_ ?_ (num_rest hU h ht)
  · cases hk : runeKeyword r with
    | false => rfl
    | true =>
      rcases keyword_rune hk with rfl | rfl | rfl | rfl | rfl | rfl
      · rw [digit_no hU 0x74 (by decide) (by decide)] at hr; simp at hr
      · rw [digit_no hU 0x54 (by decide) (by decide)] at hr; simp at hr
      · rw [digit_no hU 0x66 (by decide) (by decide)] at hr; simp at hr
      · rw [digit_no hU 0x46 (by decide) (by decide)] at hr; simp at hr
      · rw [digit_no hU 0x6E (by decide) (by decide)] at hr; simp at hr
      · rw [digit_no hU 0x4E (by decide) (by decide)] at hr; simp at hr
  · rintro rfl; rw [digit_no hU 0x22 (by decide) (by decide)] at hr; simp at hr
  · simpa using hr

theorem word_reads {U : Uni} {v : List Nat} (h : Word U v) (t : List Nat) (ht : Stops U t) :
    RValue U (v ++ t) t := by
  cases h with
  | @mk r ls hr hl hg =>
    obtain ⟨h1, h2⟩ := word_take (t := t) hl ht
    have := RValue.word (U := U) (r := r) (s := ls ++ t) (rune_iff.2 hr) (by rw [h1]; exact good_iff.2 hg)
    rw [h2] at this
    exact this

theorem elem_reads {U : Uni} (hU : Latin U) (hS : SpaceOk U) {w v u t : List Nat} (hw : White w) (hv : Value U v)
    (h : RValue U (v ++ u) u) (h' : RElems U true u t) : RElems U false (w ++ (v ++ u)) t := by
  obtain ⟨r, s, rfl, hf⟩ := value_first hU hS hv
  exact white_elems hw (.elem hf.1 hf.2.1 hf.2.2.1 h h')

theorem member_reads {U : Uni} (hU : Latin U) (hS : SpaceOk U) {w k w1 w2 v u t : List Nat} (hw : White w) (hk : Str k)
    (hw1 : White w1) (hw2 : White w2) (hv : Value U v) (h : RValue U (v ++ u) u) (h' : RMembers U true u t) :
    RMembers U false (w ++ 0x22 :: (k ++ (w1 ++ 0x3A :: (w2 ++ (v ++ u))))) t := by
  obtain ⟨r, s, rfl, hf⟩ := value_first hU hS hv
  refine white_members hw (.member ?_ h')
  rw [str_rest hk]
  exact white_field hw1 (.colon (white_field hw2 (.value hf.1 hf.2.2.2 h)))

mutual
theorem value_reads {U : Uni} (hU : Latin U) (hS : SpaceOk U) {v : List Nat} (h : Value U v) (t : List Nat) (ht : Stops U t) :
    RValue U (v ++ t) t := by
  match h with
  | .word h => exact word_reads h t ht
  | .number h => exact number_reads hU hS h t ht
  | @Value.str _ s h =>
    have := RValue.str (U := U) (s := s ++ t)
    rw [str_rest h t] at this
    exact this
  | .arr h => exact .arr (digit_no hU 0x5B (by decide) (by decide)) (elems_reads hU hS h t)
  | .obj h => exact .obj (digit_no hU 0x7B (by decide) (by decide)) (members_reads hU hS h t)
theorem elems_reads {U : Uni} (hU : Latin U) (hS : SpaceOk U) {s : List Nat} (h : Elems U s) (t : List Nat) :
    RElems U false (s ++ t) t := by
  match h with
  | .close hw =>
    rw [List.append_assoc]
    exact white_elems hw .close
  | @Elems.last _ w v w' hw hv hw' =>
    simp only [List.append_assoc]
    exact elem_reads hU hS hw hv (value_reads hU hS hv _ (stops_white hS hw' (stops_bracket hU t))) (white_elems hw' .close)
  | @Elems.more _ w v w' s hw hv hw' hs =>
    simp only [List.append_assoc]
    exact elem_reads hU hS hw hv (value_reads hU hS hv _ (stops_white hS hw' (stops_comma hU _)))
      (white_elems hw' (.comma (elems_reads hU hS hs t)))
theorem members_reads {U : Uni} (hU : Latin U) (hS : SpaceOk U) {s : List Nat} (h : Members U s) (t : List Nat) :
    RMembers U false (s ++ t) t := by
  match h with
  | .close hw =>
    rw [List.append_assoc]
    exact white_members hw .close
  | @Members.last _ w k w1 w2 v w3 hw hk hw1 hw2 hv hw3 =>
    simp only [List.append_assoc, List.cons_append]
    exact member_reads hU hS hw hk hw1 hw2 hv (value_reads hU hS hv _ (stops_white hS hw3 (stops_brace hU _)))
      (white_members hw3 .close)
  | @Members.more _ w k w1 w2 v w3 s hw hk hw1 hw2 hv hw3 hs =>
    simp only [List.append_assoc, List.cons_append]
    exact member_reads hU hS hw hk hw1 hw2 hv (value_reads hU hS hv _ (stops_white hS hw3 (stops_comma hU _)))
      (white_members hw3 (.comma (members_reads hU hS hs t)))
end

/-! ### Texts that end early -/

/-- A relation can be cut short before `z`. -/
def Cut (R : List Nat → List Nat → Prop) (x z t : List Nat) : Prop := R x [] ∨ ∃ t', t = t' ++ z ∧ R x t'

theorem Cut.map {R Q : List Nat → List Nat → Prop} {x y z t : List Nat} (h : Cut R x z t) (f : ∀ t, R x t → Q y t) :
    Cut Q y z t := by
  rcases h with h | ⟨t', e, h⟩
  · exact .inl (f _ h)
  · exact .inr ⟨t', e, f _ h⟩

theorem num_cut {U : Uni} : ∀ (x : List Nat) (st : Num) (z t : List Nat), numRest U st (x ++ z) = some t →
    Cut (fun x t => numRest U st x = some t) x z t
  | [], st, z, t, h => .inl rfl
  | r :: x, st, z, t, h => by
    rw [List.cons_append, numRest] at h
    unfold Cut
    simp only [numRest]
    by_cases h1 : U.isDigit r = true
    · simp only [if_pos h1] at h ⊢; exact num_cut x _ z t h
    simp only [if_neg h1] at h ⊢
    by_cases h2 : r = 0x2E
    · simp only [if_pos h2] at h ⊢
      by_cases h' : (st.exponent || st.decimal) = true
      · rw [if_pos h'] at h; cases h
      · simp only [if_neg h'] at h ⊢; exact num_cut x _ z t h
    simp only [if_neg h2] at h ⊢
    by_cases h3 : r = 0x65 ∨ r = 0x45
    · simp only [if_pos h3] at h ⊢
      by_cases h' : st.exponent = true
      · rw [if_pos h'] at h; cases h
      · simp only [if_neg h'] at h ⊢; exact num_cut x _ z t h
    simp only [if_neg h3] at h ⊢
    by_cases h4 : r = 0x2D ∨ r = 0x2B
    · simp only [if_pos h4] at h ⊢
      by_cases h' : (!st.exponent || st.sign) = true
      · rw [if_pos h'] at h; cases h
      · simp only [if_neg h'] at h ⊢; exact num_cut x _ z t h
    simp only [if_neg h4] at h ⊢
    cases h
    exact .inr ⟨r :: x, rfl, rfl⟩

theorem str_cut : ∀ (n : Nat) (x z : List Nat), x.length ≤ n →
    strRest x = [] ∨ strRest (x ++ z) = strRest x ++ z
  | _, [], z, _ => .inl rfl
  | _, [r], z, _ => .inl (by simp [strRest])
  | 0, r :: e :: x, z, h => by simp at h
  | n + 1, r :: e :: x, z, h => by
    simp only [List.length_cons] at h
    simp only [List.cons_append, strRest]
    by_cases h1 : r = 0x5C
    · simp only [if_pos h1]; exact str_cut n x z (by omega)
    simp only [if_neg h1]
    by_cases h2 : r = 0x22
    · simp only [if_pos h2]; exact .inr rfl
    simp only [if_neg h2]
    exact str_cut n (e :: x) z (by simp only [List.length_cons]; omega)

theorem word_cut {U : Uni} {z : List Nat} (hz : NoLetter U z) (x : List Nat) :
    (x ++ z).takeWhile U.isLetter = x.takeWhile U.isLetter ∧ (x ++ z).dropWhile U.isLetter = x.dropWhile U.isLetter ++ z := by
  induction x with
  | nil =>
    cases z with
    | nil => exact ⟨rfl, rfl⟩
    | cons r z => have := hz r rfl; simp [this]
  | cons r x ih =>
    by_cases h : U.isLetter r = true
    · simp only [List.cons_append, List.takeWhile_cons_of_pos h, List.dropWhile_cons_of_pos h, ih.1, ih.2, and_self]
    · simp only [List.cons_append, List.takeWhile_cons_of_neg h, List.dropWhile_cons_of_neg h, and_self]

/-- A relation between a text and its rest can be cut short. -/
def Cuts (U : Uni) (R : List Nat → List Nat → Prop) (s t : List Nat) : Prop :=
  ∀ x z, s = x ++ z → NoLetter U z → Cut R x z t

theorem Cuts.cons {U : Uni} {R Q : List Nat → List Nat → Prop} {r : Nat} {s t : List Nat} (h : Cuts U R s t)
    (h0 : Q [] []) (f : ∀ s t, R s t → Q (r :: s) t) : Cuts U Q (r :: s) t := by
  intro x z e hz
  cases x with
  | nil => exact .inl h0
  | cons r' x => cases e; exact (h x z rfl hz).map fun t h => f x t h

mutual
theorem value_cut {U : Uni} {s t : List Nat} (h : RValue U s t) : Cuts U (RValue U) s t := by
  match h with
  | .stop =>
    intro x z e _
    have := List.append_eq_nil_iff.1 e.symm
    rw [this.1]
    exact .inl .stop
  | .space h1 h2 => exact (value_cut h2).cons .stop fun _ _ h => .space h1 h
  | @RValue.word _ r s h1 h2 =>
    intro x z e hz
    cases x with
    | nil => exact .inl .stop
    | cons r' x =>
      have e1 := (List.cons.inj e).1
      have e2 := (List.cons.inj e).2
      subst e1 e2
      obtain ⟨g1, g2⟩ := word_cut hz x
      exact .inr ⟨_, g2, .word h1 (by rw [← g1]; exact h2)⟩
  | @RValue.str _ s =>
    intro x z e hz
    cases x with
    | nil => exact .inl .stop
    | cons r' x =>
      have e1 := (List.cons.inj e).1
      have e2 := (List.cons.inj e).2
      subst e1 e2
      rcases str_cut x.length x z (Nat.le_refl _) with h | h
      · refine .inl ?_
        have := RValue.str (U := U) (s := x)
        rw [h] at this
        exact this
      · exact .inr ⟨_, h, .str⟩
  | .num h1 h2 h3 h4 h5 =>
    intro x z e hz
    cases x with
    | nil => exact .inl .stop
    | cons r' x =>
      have e1 := (List.cons.inj e).1
      have e2 := (List.cons.inj e).2
      subst e1 e2
      exact (num_cut x _ z _ h5).map fun _ h => .num h1 h2 h3 h4 h
  | .arr h1 h2 => exact (elems_cut h2).cons .stop fun _ _ h => .arr h1 h
  | .obj h1 h2 => exact (members_cut h2).cons .stop fun _ _ h => .obj h1 h
theorem elems_cut {U : Uni} {b : Bool} {s t : List Nat} (h : RElems U b s t) : Cuts U (RElems U b) s t := by
  match h with
  | .stop =>
    intro x z e _
    have := List.append_eq_nil_iff.1 e.symm
    rw [this.1]
    exact .inl .stop
  | .space h1 h2 => exact (elems_cut h2).cons .stop fun _ _ h => .space h1 h
  | .comma h2 => exact (elems_cut h2).cons .stop fun _ _ h => .comma h
  | @RElems.close _ _ s =>
    intro x z e hz
    cases x with
    | nil => exact .inl .stop
    | cons r' x =>
      have e1 := (List.cons.inj e).1
      have e2 := (List.cons.inj e).2
      subst e1 e2
      exact .inr ⟨_, rfl, .close⟩
  | .elem h1 h2 h3 h4 h5 =>
    have ih4 := value_cut h4
    have ih5 := elems_cut h5
    intro x z e hz
    cases x with
    | nil => exact .inl .stop
    | cons r' x =>
      have e1 := (List.cons.inj e).1
      have e2 := (List.cons.inj e).2
      subst e1 e2
      rcases ih4 (_ :: x) z rfl hz with h | ⟨t', e', h⟩
      · exact .inl (.elem h1 h2 h3 h .stop)
      · rcases ih5 t' z e' hz with h' | ⟨t2, e2, h'⟩
        · exact .inl (.elem h1 h2 h3 h h')
        · exact .inr ⟨t2, e2, .elem h1 h2 h3 h h'⟩
theorem field_cut {U : Uni} {b : Bool} {s t : List Nat} (h : RField U b s t) : Cuts U (RField U b) s t := by
  match h with
  | .stop =>
    intro x z e _
    have := List.append_eq_nil_iff.1 e.symm
    rw [this.1]
    exact .inl .stop
  | .space h1 h2 => exact (field_cut h2).cons .stop fun _ _ h => .space h1 h
  | .colon h2 => exact (field_cut h2).cons .stop fun _ _ h => .colon h
  | .value h1 h2 h3 =>
    have ih := value_cut h3
    intro x z e hz
    cases x with
    | nil => exact .inl .stop
    | cons r' x =>
      have e1 := (List.cons.inj e).1
      have e2 := (List.cons.inj e).2
      subst e1 e2
      exact (ih (_ :: x) z rfl hz).map fun _ h => .value h1 h2 h
theorem members_cut {U : Uni} {b : Bool} {s t : List Nat} (h : RMembers U b s t) : Cuts U (RMembers U b) s t := by
  match h with
  | .stop =>
    intro x z e _
    have := List.append_eq_nil_iff.1 e.symm
    rw [this.1]
    exact .inl .stop
  | .space h1 h2 => exact (members_cut h2).cons .stop fun _ _ h => .space h1 h
  | .comma h2 => exact (members_cut h2).cons .stop fun _ _ h => .comma h
  | @RMembers.close _ _ s =>
    intro x z e hz
    cases x with
    | nil => exact .inl .stop
    | cons r' x =>
      have e1 := (List.cons.inj e).1
      have e2 := (List.cons.inj e).2
      subst e1 e2
      exact .inr ⟨_, rfl, .close⟩
  | .member h1 h2 =>
    have ih1 := field_cut h1
    have ih2 := members_cut h2
    intro x z e hz
    cases x with
    | nil => exact .inl .stop
    | cons r' x =>
      have e1 := (List.cons.inj e).1
      have e2 := (List.cons.inj e).2
      subst e1 e2
      rcases str_cut x.length x z (Nat.le_refl _) with h | h
      · exact .inl (.member (u := []) (by rw [h]; exact .stop) .stop)
      · rcases ih1 (strRest x) z h hz with h' | ⟨t', e', h'⟩
        · exact .inl (.member h' .stop)
        · rcases ih2 t' z e' hz with h'' | ⟨t2, e2, h''⟩
          · exact .inl (.member h' h'')
          · exact .inr ⟨t2, e2, .member h' h''⟩
end

theorem top_cut {U : Uni} {s : List Nat} (h : RTop U s) (x z : List Nat) (e : s = x ++ z) (hz : NoLetter U z) : RTop U x := by
  induction h generalizing x with
  | stop =>
    cases x with
    | nil => exact .stop
    | cons => cases e
  | space h1 _ ih =>
    cases x with
    | nil => exact .stop
    | cons r x => cases e; exact .space h1 (ih x rfl)
  | obj h =>
    cases x with
    | nil => exact .stop
    | cons r x =>
      cases e
      rcases members_cut h x z rfl hz with h' | ⟨t', _, h'⟩
      · exact .obj h'
      · exact .obj h'

/-! ### From the parsers to the texts -/

/-- `s` without the rest `t` is a `P`, or `s` ends early and can be completed to one. -/
def Ext (U : Uni) (P : List Nat → Prop) (s t : List Nat) : Prop :=
  (∃ p, s = p ++ t ∧ P p) ∨ (t = [] ∧ ∃ z, z ≠ [] ∧ NoLetter U z ∧ P (s ++ z))

theorem noLetter_append {U : Uni} {z : List Nat} (h : NoLetter U z) (hz : z ≠ []) (y : List Nat) : NoLetter U (z ++ y) := by
  cases z with
  | nil => exact absurd rfl hz
  | cons r z => exact h

theorem Ext.cons {U : Uni} {P Q : List Nat → Prop} {s t : List Nat} (h : Ext U P s t) {r : Nat} (f : ∀ p, P p → Q (r :: p)) :
    Ext U Q (r :: s) t := by
  rcases h with ⟨p, e, h⟩ | ⟨e, z, h1, h2, h3⟩
  · exact .inl ⟨r :: p, by rw [e]; rfl, f p h⟩
  · exact .inr ⟨e, z, h1, h2, f _ h3⟩

theorem Ext.map {U : Uni} {P Q : List Nat → Prop} {s t : List Nat} (h : Ext U P s t) (f : ∀ p, P p → Q p) :
    Ext U Q s t := by
  rcases h with ⟨p, e, h⟩ | ⟨e, z, h1, h2, h3⟩
  · exact .inl ⟨p, e, f p h⟩
  · exact .inr ⟨e, z, h1, h2, f _ h3⟩

theorem Ext.seq {U : Uni} {P Q R : List Nat → Prop} {s u t : List Nat} (h : Ext U P s u) (h' : Ext U Q u t)
    (f : ∀ p q, P p → Q q → R (p ++ q)) : Ext U R s t := by
  rcases h with ⟨p, rfl, h⟩ | ⟨rfl, z, h1, h2, h3⟩
  · rcases h' with ⟨q, rfl, h'⟩ | ⟨rfl, z, h1, h2, h3⟩
    · exact .inl ⟨p ++ q, by simp, f _ _ h h'⟩
    · exact .inr ⟨rfl, z, h1, h2, by rw [List.append_assoc]; exact f _ _ h h3⟩
  · rcases h' with ⟨q, e, h'⟩ | ⟨rfl, z', h1', _, h3'⟩
    · have := List.append_eq_nil_iff.1 e.symm
      obtain ⟨rfl, rfl⟩ := this
      exact .inr ⟨rfl, z, h1, h2, by have := f _ _ h3 h'; simpa using this⟩
    · exact .inr ⟨rfl, z ++ z', by simp [h1], noLetter_append h2 h1 _, by have := f _ _ h3 h3'; simpa using this⟩

theorem num_inv1 {U : Uni} {st : Num} (h1 : st.exponent = true) (h2 : st.sign = true) : ∀ {s t : List Nat},
    numRest U st s = some t → ∃ ds, Digits U ds ∧ s = ds ++ t
  | [], t, h => by cases h; exact ⟨[], by simp [Digits], rfl⟩
  | r :: s, t, h => by
    rw [numRest] at h
    by_cases g1 : U.isDigit r = true
    · rw [if_pos g1] at h
      obtain ⟨ds, hd, rfl⟩ := num_inv1 h1 h2 h
      exact ⟨r :: ds, by intro x hx; rcases List.mem_cons.1 hx with rfl | hx; exact g1; exact hd x hx, rfl⟩
    rw [if_neg g1] at h
    simp only [h1, h2, Bool.true_or, Bool.or_true, if_true] at h
    by_cases g2 : r = 0x2E
    · rw [if_pos g2] at h; cases h
    rw [if_neg g2] at h
    by_cases g3 : r = 0x65 ∨ r = 0x45
    · rw [if_pos g3] at h; cases h
    rw [if_neg g3] at h
    by_cases g4 : r = 0x2D ∨ r = 0x2B
    · rw [if_pos g4] at h; cases h
    rw [if_neg g4] at h
    cases h
    exact ⟨[], by simp [Digits], rfl⟩

theorem digits_cons {U : Uni} {r : Nat} {ds : List Nat} (h : U.isDigit r = true) (hd : Digits U ds) : Digits U (r :: ds) := by
  intro x hx
  rcases List.mem_cons.1 hx with rfl | hx
  · exact h
  · exact hd x hx

theorem digits_nil {U : Uni} : Digits U [] := by simp [Digits]

theorem num_inv2 {U : Uni} {st : Num} (h1 : st.exponent = true) (h2 : st.sign = false) : ∀ {s t : List Nat},
    numRest U st s = some t → ∃ ds sg, Digits U ds ∧ Signed U sg ∧ s = ds ++ sg ++ t
  | [], t, h => by cases h; exact ⟨[], [], digits_nil, .none, rfl⟩
  | r :: s, t, h => by
    rw [numRest] at h
    by_cases g1 : U.isDigit r = true
    · rw [if_pos g1] at h
      obtain ⟨ds, sg, hd, hs, rfl⟩ := num_inv2 h1 h2 h
      exact ⟨r :: ds, sg, digits_cons g1 hd, hs, rfl⟩
    rw [if_neg g1] at h
    simp only [h1, h2, Bool.true_or, Bool.or_false, if_true] at h
    by_cases g2 : r = 0x2E
    · rw [if_pos g2] at h; cases h
    rw [if_neg g2] at h
    by_cases g3 : r = 0x65 ∨ r = 0x45
    · rw [if_pos g3] at h; cases h
    rw [if_neg g3] at h
    by_cases g4 : r = 0x2D ∨ r = 0x2B
    · rw [if_pos g4] at h
      simp only [Bool.not_true, Bool.false_eq_true, if_false] at h
      obtain ⟨ds, hd, rfl⟩ := num_inv1 (st := { st with exponent := true, sign := true }) rfl rfl h
      exact ⟨[], r :: ds, digits_nil, .some g4 hd, rfl⟩
    rw [if_neg g4] at h
    cases h
    exact ⟨[], [], digits_nil, .none, rfl⟩

theorem num_inv3 {U : Uni} {st : Num} (h1 : st.exponent = false) (h2 : st.sign = false) (h3 : st.decimal = true) : ∀ {s t : List Nat},
    numRest U st s = some t → ∃ ds e, Digits U ds ∧ Expo U e ∧ s = ds ++ e ++ t
  | [], t, h => by cases h; exact ⟨[], [], digits_nil, .none, rfl⟩
  | r :: s, t, h => by
    rw [numRest] at h
    by_cases g1 : U.isDigit r = true
    · rw [if_pos g1] at h
      obtain ⟨ds, sg, hd, hs, rfl⟩ := num_inv3 h1 h2 h3 h
      exact ⟨r :: ds, sg, digits_cons g1 hd, hs, rfl⟩
    rw [if_neg g1] at h
    simp only [h1, h2, h3, Bool.or_true, if_true, Bool.not_false, Bool.true_or, Bool.false_eq_true, if_false] at h
    by_cases g2 : r = 0x2E
    · rw [if_pos g2] at h; cases h
    rw [if_neg g2] at h
    by_cases g3 : r = 0x65 ∨ r = 0x45
    · rw [if_pos g3] at h
      obtain ⟨ds, sg, hd, hs, rfl⟩ := num_inv2 (st := { st with decimal := true, exponent := true, sign := false }) rfl rfl h
      exact ⟨[], r :: ds ++ sg, digits_nil, .some g3 hd hs, by simp⟩
    rw [if_neg g3] at h
    by_cases g4 : r = 0x2D ∨ r = 0x2B
    · rw [if_pos g4] at h; cases h
    rw [if_neg g4] at h
    cases h
    exact ⟨[], [], digits_nil, .none, rfl⟩

theorem num_inv4 {U : Uni} : ∀ {s t : List Nat},
    numRest U {} s = some t → ∃ ds f e, Digits U ds ∧ Frac U f ∧ Expo U e ∧ s = ds ++ f ++ e ++ t
  | [], t, h => by cases h; exact ⟨[], [], [], digits_nil, .none, .none, rfl⟩
  | r :: s, t, h => by
    rw [numRest] at h
    by_cases g1 : U.isDigit r = true
    · rw [if_pos g1] at h
      obtain ⟨ds, f, sg, hd, hf, hs, rfl⟩ := num_inv4 h
      exact ⟨r :: ds, f, sg, digits_cons g1 hd, hf, hs, rfl⟩
    rw [if_neg g1] at h
    simp only [Bool.or_false, if_true, Bool.not_false, Bool.true_or, Bool.false_eq_true, if_false] at h
    by_cases g2 : r = 0x2E
    · rw [if_pos g2] at h
      obtain ⟨ds, e, hd, he, rfl⟩ := num_inv3 (st := { decimal := true, exponent := false, sign := false }) rfl rfl rfl h
      subst g2
      exact ⟨[], 0x2E :: ds, e, digits_nil, .some hd, he, rfl⟩
    rw [if_neg g2] at h
    by_cases g3 : r = 0x65 ∨ r = 0x45
    · rw [if_pos g3] at h
      obtain ⟨ds, sg, hd, hs, rfl⟩ := num_inv2 (st := { decimal := false, exponent := true, sign := false }) rfl rfl h
      exact ⟨[], [], r :: ds ++ sg, digits_nil, .none, .some g3 hd hs, by simp⟩
    rw [if_neg g3] at h
    by_cases g4 : r = 0x2D ∨ r = 0x2B
    · rw [if_pos g4] at h; cases h
    rw [if_neg g4] at h
    cases h
    exact ⟨[], [], [], digits_nil, .none, .none, rfl⟩

theorem noLetter_cons {U : Uni} (hU : Latin U) (n : Nat) (h : n < 0x80)
    (h' : ¬ ((0x41 ≤ n ∧ n ≤ 0x5A) ∨ (0x61 ≤ n ∧ n ≤ 0x7A))) (z : List Nat) : NoLetter U (n :: z) := by
  intro r hr
  cases hr
  exact letter_no hU n h h'

theorem str_ext {U : Uni} (hU : Latin U) : ∀ (n : Nat) (s : List Nat), s.length ≤ n → Ext U Str s (strRest s)
  | _, [], _ => .inr ⟨rfl, [0x22], by simp, noLetter_cons hU 0x22 (by decide) (by decide) _, .close⟩
  | _, [r], _ => by
    by_cases h1 : r = 0x5C
    · subst h1
      exact .inr ⟨rfl, [0x22, 0x22], by simp, noLetter_cons hU 0x22 (by decide) (by decide) _, .escape _ .close⟩
    by_cases h2 : r = 0x22
    · subst h2
      exact .inl ⟨[0x22], rfl, .close⟩
    refine .inr ⟨by simp [strRest], [0x22], by simp, noLetter_cons hU 0x22 (by decide) (by decide) _, .plain h2 h1 .close⟩
  | 0, r :: e :: x, h => by simp at h
  | n + 1, r :: e :: x, h => by
    simp only [List.length_cons] at h
    by_cases h1 : r = 0x5C
    · subst h1
      rw [strRest_escape]
      have := str_ext hU n x (by omega)
      exact (this.cons (r := e) (Q := fun p => Str (0x5C :: p)) fun p hp => .escape e hp).cons fun p hp => hp
    by_cases h2 : r = 0x22
    · subst h2
      exact .inl ⟨[0x22], rfl, .close⟩
    rw [strRest_plain h1 h2]
    exact (str_ext hU n (e :: x) (by simp only [List.length_cons]; omega)).cons fun p hp => .plain h2 h1 hp

/-- White space and a value. -/
def PV (U : Uni) (p : List Nat) : Prop := ∃ w v, White w ∧ Value U v ∧ p = w ++ v
/-- What follows a key, or the colon. -/
def PF (U : Uni) : Bool → List Nat → Prop
  | true, p => ∃ w1 q, White w1 ∧ PV U q ∧ p = w1 ++ 0x3A :: q
  | false, p => PV U p
/-- What follows an element, or the bracket. -/
def PE (U : Uni) : Bool → List Nat → Prop
  | true, p => ∃ w, White w ∧ (p = w ++ [0x5D] ∨ ∃ q, Elems U q ∧ p = w ++ 0x2C :: q)
  | false, p => Elems U p
/-- What follows a member, or the brace. -/
def PM (U : Uni) : Bool → List Nat → Prop
  | true, p => ∃ w, White w ∧ (p = w ++ [0x7D] ∨ ∃ q, Members U q ∧ p = w ++ 0x2C :: q)
  | false, p => Members U p

theorem white_cons {r : Nat} (h : isSpace r = true) {w : List Nat} (hw : White w) : White (r :: w) := by
  intro x hx
  rcases List.mem_cons.1 hx with rfl | hx
  · exact h
  · exact hw x hx

theorem white_nil : White [] := by simp [White]

theorem pv_space {U : Uni} {r : Nat} (h : isSpace r = true) {p : List Nat} : PV U p → PV U (r :: p)
  | ⟨w, v, hw, hv, e⟩ => ⟨r :: w, v, white_cons h hw, hv, by rw [e]; rfl⟩

theorem pf_space {U : Uni} {b : Bool} {r : Nat} (h : isSpace r = true) {p : List Nat} (hp : PF U b p) : PF U b (r :: p) := by
  cases b with
  | true => obtain ⟨w, q, hw, hq, rfl⟩ := hp; exact ⟨r :: w, q, white_cons h hw, hq, rfl⟩
  | false => exact pv_space h hp

theorem pe_space {U : Uni} {b : Bool} {r : Nat} (h : isSpace r = true) {p : List Nat} (hp : PE U b p) : PE U b (r :: p) := by
  cases b with
  | true =>
    obtain ⟨w, hw, rfl | ⟨q, hq, rfl⟩⟩ := hp
    · exact ⟨r :: w, white_cons h hw, .inl rfl⟩
    · exact ⟨r :: w, white_cons h hw, .inr ⟨q, hq, rfl⟩⟩
  | false =>
    change Elems U p at hp
    change Elems U (r :: p)
    cases hp with
    | @close w hw => exact .close (w := r :: w) (white_cons h hw)
    | @last w v w' hw hv hw' => exact .last (w := r :: w) (white_cons h hw) hv hw'
    | @more w v w' s hw hv hw' hs => exact .more (w := r :: w) (white_cons h hw) hv hw' hs

theorem pm_space {U : Uni} {b : Bool} {r : Nat} (h : isSpace r = true) {p : List Nat} (hp : PM U b p) : PM U b (r :: p) := by
  cases b with
  | true =>
    obtain ⟨w, hw, rfl | ⟨q, hq, rfl⟩⟩ := hp
    · exact ⟨r :: w, white_cons h hw, .inl rfl⟩
    · exact ⟨r :: w, white_cons h hw, .inr ⟨q, hq, rfl⟩⟩
  | false =>
    change Members U p at hp
    change Members U (r :: p)
    cases hp with
    | @close w hw => exact .close (w := r :: w) (white_cons h hw)
    | @last w k w1 w2 v w3 hw hk h1 h2 hv h3 => exact .last (w := r :: w) (white_cons h hw) hk h1 h2 hv h3
    | @more w k w1 w2 v w3 s hw hk h1 h2 hv h3 hs => exact .more (w := r :: w) (white_cons h hw) hk h1 h2 hv h3 hs

theorem elem_ext {U : Uni} {p q : List Nat} (hp : PV U p) (hq : PE U true q) : PE U false (p ++ q) := by
  obtain ⟨w, v, hw, hv, rfl⟩ := hp
  obtain ⟨w', hw', rfl | ⟨s, hs, rfl⟩⟩ := hq
  · have := Elems.last hw hv hw'; simpa [PE] using this
  · have := Elems.more hw hv hw' hs; simpa [PE] using this

theorem member_ext {U : Uni} {k p q : List Nat} (hk : Str k) (hp : PF U true p) (hq : PM U true q) :
    PM U false (0x22 :: (k ++ (p ++ q))) := by
  obtain ⟨w1, p', hw1, ⟨w2, v, hw2, hv, rfl⟩, rfl⟩ := hp
  obtain ⟨w3, hw3, rfl | ⟨s, hs, rfl⟩⟩ := hq
  · have := Members.last white_nil hk hw1 hw2 hv hw3; simpa [PM] using this
  · have := Members.more white_nil hk hw1 hw2 hv hw3 hs; simpa [PM] using this

theorem zero_value {U : Uni} (hU : Latin U) : Value U [0x30] := by
  have h : U.isDigit 0x30 = true := (hU.digit 0x30 (by decide)).2 (by decide)
  have := Number.mk (U := U) (r := 0x30) (.inl h) digits_nil .none .none
  exact .number this

mutual
theorem value_ext {U : Uni} (hU : Latin U) {s t : List Nat} (h : RValue U s t) : Ext U (PV U) s t := by
  match h with
  | .stop =>
    exact .inr ⟨rfl, [0x30], by simp, noLetter_cons hU 0x30 (by decide) (by decide) _, [], [0x30], white_nil, zero_value hU, rfl⟩
  | .space h1 h2 => exact (value_ext hU h2).cons fun p hp => pv_space h1 hp
  | @RValue.word _ r s h1 h2 =>
    refine .inl ⟨r :: s.takeWhile U.isLetter, by simp, [], _, white_nil, .word (.mk (rune_iff.1 h1) ?_ (good_iff.1 h2)), rfl⟩
    intro l hl
    exact List.all_eq_true.1 (List.all_takeWhile (l := s) (p := U.isLetter)) l hl
  | @RValue.str _ s =>
    exact (str_ext hU s.length s (Nat.le_refl _)).cons fun p hp => ⟨[], _, white_nil, .str hp, rfl⟩
  | @RValue.num _ r s t h1 h2 h3 h4 h5 =>
    obtain ⟨ds, f, e, hd, hf, he, rfl⟩ := num_inv4 h5
    exact .inl ⟨r :: ds ++ f ++ e, by simp, [], _, white_nil, .number (.mk (by simpa using h4) hd hf he), rfl⟩
  | .arr h1 h2 => exact (elems_ext hU h2).cons fun p hp => ⟨[], _, white_nil, .arr hp, rfl⟩
  | .obj h1 h2 => exact (members_ext hU h2).cons fun p hp => ⟨[], _, white_nil, .obj hp, rfl⟩
theorem elems_ext {U : Uni} (hU : Latin U) {b : Bool} {s t : List Nat} (h : RElems U b s t) : Ext U (PE U b) s t := by
  match h with
  | .stop =>
    refine .inr ⟨rfl, [0x5D], by simp, noLetter_cons hU 0x5D (by decide) (by decide) _, ?_⟩
    cases b with
    | true => exact ⟨[], white_nil, .inl rfl⟩
    | false => exact Elems.close white_nil
  | .space h1 h2 => exact (elems_ext hU h2).cons fun p hp => pe_space h1 hp
  | .comma h2 => exact (elems_ext hU h2).cons fun p hp => ⟨[], white_nil, .inr ⟨p, hp, rfl⟩⟩
  | .close =>
    refine .inl ⟨[0x5D], rfl, ?_⟩
    cases b with
    | true => exact ⟨[], white_nil, .inl rfl⟩
    | false => exact Elems.close white_nil
  | .elem h1 h2 h3 h4 h5 => exact (value_ext hU h4).seq (elems_ext hU h5) fun p q hp hq => elem_ext hp hq
theorem field_ext {U : Uni} (hU : Latin U) {b : Bool} {s t : List Nat} (h : RField U b s t) : Ext U (PF U b) s t := by
  match h with
  | .stop =>
    cases b with
    | true =>
      exact .inr ⟨rfl, [0x3A, 0x30], by simp, noLetter_cons hU 0x3A (by decide) (by decide) _, [], [0x30], white_nil,
        ⟨[], [0x30], white_nil, zero_value hU, rfl⟩, rfl⟩
    | false =>
      exact .inr ⟨rfl, [0x30], by simp, noLetter_cons hU 0x30 (by decide) (by decide) _, [], [0x30], white_nil, zero_value hU, rfl⟩
  | .space h1 h2 => exact (field_ext hU h2).cons fun p hp => pf_space h1 hp
  | .colon h2 => exact (field_ext hU h2).cons fun p hp => ⟨[], p, white_nil, hp, rfl⟩
  | .value h1 h2 h3 => exact value_ext hU h3
theorem members_ext {U : Uni} (hU : Latin U) {b : Bool} {s t : List Nat} (h : RMembers U b s t) : Ext U (PM U b) s t := by
  match h with
  | .stop =>
    refine .inr ⟨rfl, [0x7D], by simp, noLetter_cons hU 0x7D (by decide) (by decide) _, ?_⟩
    cases b with
    | true => exact ⟨[], white_nil, .inl rfl⟩
    | false => exact Members.close white_nil
  | .space h1 h2 => exact (members_ext hU h2).cons fun p hp => pm_space h1 hp
  | .comma h2 => exact (members_ext hU h2).cons fun p hp => ⟨[], white_nil, .inr ⟨p, hp, rfl⟩⟩
  | .close =>
    refine .inl ⟨[0x7D], rfl, ?_⟩
    cases b with
    | true => exact ⟨[], white_nil, .inl rfl⟩
    | false => exact Members.close white_nil
  | @RMembers.member _ s u t h1 h2 =>
    have hf := (field_ext hU h1).seq (members_ext hU h2) (R := fun x => ∃ p q, PF U true p ∧ PM U true q ∧ x = p ++ q)
      fun p q hp hq => ⟨p, q, hp, hq, rfl⟩
    have := (str_ext hU s.length s (Nat.le_refl _)).seq hf (R := fun x => PM U false (0x22 :: x)) (by
      rintro k _ hk ⟨p, q, hp, hq, rfl⟩
      exact member_ext hk hp hq)
    exact this.cons fun p hp => hp
end

/-! ### The theorem -/

theorem whole_space {U : Uni} {r : Nat} (h : isSpace r = true) {p : List Nat} (hp : Whole U p) : Whole U (r :: p) := by
  cases hp with
  | @mk w s hw hs => exact .mk (w := r :: w) (white_cons h hw) hs

theorem top_lenient {U : Uni} (hU : Latin U) {s : List Nat} (h : RTop U s) : Lenient U s := by
  induction h with
  | stop =>
    exact .inr ⟨[0x7B, 0x7D], noLetter_cons hU 0x7B (by decide) (by decide) _, .mk (w := []) white_nil (.close (w := []) white_nil)⟩
  | @space r s h1 _ ih =>
    rcases ih with ⟨p, q, rfl, hp⟩ | ⟨z, hz, hp⟩
    · exact .inl ⟨r :: p, q, rfl, whole_space h1 hp⟩
    · exact .inr ⟨z, hz, whole_space h1 hp⟩
  | @obj s t h =>
    rcases members_ext hU h with ⟨p, rfl, hp⟩ | ⟨_, z, _, hz, hp⟩
    · exact .inl ⟨0x7B :: p, t, rfl, .mk (w := []) white_nil hp⟩
    · exact .inr ⟨z, hz, .mk (w := []) white_nil hp⟩

theorem lenient_top {U : Uni} (hU : Latin U) (hS : SpaceOk U) {s : List Nat} (h : Lenient U s) : RTop U s := by
  have key : ∀ p q, Whole U p → RTop U (p ++ q) := by
    rintro p q ⟨hw, hs⟩
    rw [List.append_assoc]
    exact white_top hw (.obj (members_reads hU hS hs q))
  rcases h with ⟨p, q, rfl, hp⟩ | ⟨z, hz, hp⟩
  · exact key p q hp
  · have := key _ [] hp
    rw [List.append_nil] at this
    exact top_cut this s z rfl hz

/-- C35, exactly what holds, for every input: the counter accepts it if and only if it
begins with an object, in a grammar wider than that of JSON, or begins an object that
something not beginning with a letter completes; every other input is rejected. What is
missing for C35: the grammar is that of `Lenient`, not that of JSON objects. -/
theorem C35_exact_partial {U : Uni} (hU : Latin U) (hS : SpaceOk U) (src : Bytes) :
    ((∃ c, Count.parse U src = some (c, .ok)) ↔ Lenient U (runes src)) ∧
    ((∃ c, Count.parse U src = some (c, .failed false)) ↔ ¬ Lenient U (runes src)) := by
  rcases parse_says U (digit_no hU 0x5B (by decide) (by decide)) (digit_no hU 0x7B (by decide) (by decide)) src with
    ⟨h, c, hc⟩ | ⟨h, c, hc⟩
  · have hl := top_lenient hU h
    refine ⟨⟨fun _ => hl, fun _ => ⟨c, hc⟩⟩, ⟨?_, fun hn => absurd hl hn⟩⟩
    rintro ⟨c', hc'⟩
    rw [hc] at hc'
    cases hc'
  · have hl : ¬ Lenient U (runes src) := fun hl => h (lenient_top hU hS hl)
    refine ⟨⟨?_, fun hl' => absurd hl' hl⟩, ⟨fun _ => hl, fun _ => ⟨c, hc⟩⟩⟩
    rintro ⟨c', hc'⟩
    rw [hc] at hc'
    cases hc'

/-- The hypotheses can be met. -/
theorem latin1_space : SpaceOk FieldCount.latin1 := by
  intro r h
  simp only [isSpace, Bool.or_eq_true, Bool.and_eq_true, decide_eq_true_eq, beq_iff_eq] at h
  simp only [FieldCount.latin1, decide_eq_false_iff_not]
  omega

/-- The grammar is as wide as that of JSON: whatever begins with a JSON object. -/
theorem C35_json_lenient {U : Uni} (hU : Latin U) (hS : SpaceOk U) {src : Bytes} {ms : List (Bytes × Json.Cst)}
    (h : Json.parse src = some (.obj ms)) (junk : Bytes) : Lenient U (runes (src ++ junk)) :=
  (C35_exact_partial hU hS _).1.1 (FieldCount.C35_trailing_text_accepted hU h junk)

theorem outcome {U : Uni} {src : Bytes} {sg : Sig} (h : (Count.parse U src).map Prod.snd = some sg) :
    ∃ c, Count.parse U src = some (c, sg) := by
  cases hp : Count.parse U src with
  | none => rw [hp] at h; cases h
  | some p => rw [hp] at h; obtain ⟨c, s⟩ := p; cases h; exact ⟨c, rfl⟩

/-- Cases: accepted are an odd number, commas too many, text after the object and an
early end. -/
example : Lenient FieldCount.latin1 (runes b!"{\"a\":[-.e5-,true,],}x") :=
  (C35_exact_partial FieldCount.latin1_ok latin1_space _).1.1 (outcome (by decide +kernel))
example : Lenient FieldCount.latin1 (runes b!" {\"a\":{\"b\"") :=
  (C35_exact_partial FieldCount.latin1_ok latin1_space _).1.1 (outcome (by decide +kernel))

/-- Cases: rejected are an early end within a word, two commas and a member without
value. -/
example : ¬ Lenient FieldCount.latin1 (runes b!"{\"a\":tru") :=
  (C35_exact_partial FieldCount.latin1_ok latin1_space _).2.1 (outcome (by decide +kernel))
example : ¬ Lenient FieldCount.latin1 (runes b!"{\"a\":1,,\"b\":2}") :=
  (C35_exact_partial FieldCount.latin1_ok latin1_space _).2.1 (outcome (by decide +kernel))
example : ¬ Lenient FieldCount.latin1 (runes b!"{\"a\"}") :=
  (C35_exact_partial FieldCount.latin1_ok latin1_space _).2.1 (outcome (by decide +kernel))

end Verif.Props.FieldLenient
