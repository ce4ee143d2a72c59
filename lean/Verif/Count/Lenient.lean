import Verif.Count.Total
import Verif.Count.Grammar

/-
What the parsers of the field counter do with the runes of the input, without counters,
rounds and locations: from which runes they succeed, and what they leave (C35).
-/

set_option linter.unusedSimpArgs false

namespace Verif.Count
open Go

/-- The runes of a text as `readRune` hands them out (internal/json/field.go:387-400), at
most `n`: a newline is read as a blank. -/
def runesFrom : Nat → Bytes → List Nat
  | 0, _ => []
  | n + 1, s =>
    match decodeRune s with
    | none => []
    | some (r, w) => (if r = 0x0A then 0x20 else r) :: runesFrom n (s.drop w)

/-- The runes of a text as `readRune` hands them out (internal/json/field.go:387-400). -/
def runes (s : Bytes) : List Nat := runesFrom s.length s

theorem runesFrom_eq : ∀ (n m : Nat) (s : Bytes), s.length ≤ n → s.length ≤ m → runesFrom n s = runesFrom m s := by
  intro n
  induction n with
  | zero =>
    intro m s h _
    have : s = [] := List.length_eq_zero_iff.1 (by omega)
    subst this
    cases m <;> rfl
  | succ n ih =>
    intro m s hn hm
    cases m with
    | zero =>
      have : s = [] := List.length_eq_zero_iff.1 (by omega)
      subst this
      rfl
    | succ m =>
      simp only [runesFrom]
      cases hd : decodeRune s with
      | none => rfl
      | some p =>
        obtain ⟨r, w⟩ := p
        have := decodeRune_width hd
        simp only
        rw [ih m (s.drop w) (by simp; omega) (by simp; omega)]

theorem runes_nil : runes [] = [] := rfl

theorem runes_read {c c' : Ctr} {r : Nat} (h : readRune c = (c', some r)) : runes c.rest = r :: runes c'.rest := by
  obtain ⟨⟨r0, w, hd, hr, e⟩, _⟩ := readRune_some h
  have hw := decodeRune_width hd
  rw [hr, e]
  unfold runes
  cases hl : c.rest.length with
  | zero => omega
  | succ n =>
    rw [runesFrom, hd]
    simp only
    rw [runesFrom_eq n (c.rest.drop w).length _ (by simp; omega) (Nat.le_refl _)]

theorem runes_end {c c' : Ctr} (h : readRune c = (c', none)) : runes c.rest = [] ∧ runes c'.rest = [] := by
  obtain ⟨h1, h2, _⟩ := readRune_none h
  rw [h2, h1]
  exact ⟨rfl, rfl⟩

/-- What is left of a string after its opening quote; a backslash takes the next rune. -/
def strRest : List Nat → List Nat
  | [] => []
  | [r] => if r = 0x5C then [] else if r = 0x22 then [] else []
  | r :: e :: s => if r = 0x5C then strRest s else if r = 0x22 then e :: s else strRest (e :: s)

/-- What is left of a number after its first rune, if it is one. -/
def numRest (U : Uni) : Num → List Nat → Option (List Nat)
  | _, [] => some []
  | st, r :: s =>
    if U.isDigit r then numRest U st s
    else if r = 0x2E then if st.exponent || st.decimal then none else numRest U { st with decimal := true } s
    else if r = 0x65 ∨ r = 0x45 then if st.exponent then none else numRest U { st with exponent := true } s
    else if r = 0x2D ∨ r = 0x2B then if !st.exponent || st.sign then none else numRest U { st with sign := true } s
    else some (r :: s)

/-- The bytes of runes. -/
def spell : List Nat → Bytes
  | [] => []
  | r :: s => Utf8.encode r ++ spell s

mutual
/-- The elements of an array, up to the rest after the bracket; with `true` after an
element. -/
inductive RElems (U : Uni) : Bool → List Nat → List Nat → Prop
  | stop {b : Bool} : RElems U b [] []
  | space {b : Bool} {r : Nat} {s t : List Nat} : isSpace r = true → RElems U b s t → RElems U b (r :: s) t
  | comma {s t : List Nat} : RElems U false s t → RElems U true (0x2C :: s) t
  | close {b : Bool} {s : List Nat} : RElems U b (0x5D :: s) s
  | elem {r : Nat} {s u t : List Nat} : isSpace r = false → r ≠ 0x2C → r ≠ 0x5D → RValue U (r :: s) u →
      RElems U true u t → RElems U false (r :: s) t
/-- The members of an object, up to the rest after the brace; with `true` after a member. -/
inductive RMembers (U : Uni) : Bool → List Nat → List Nat → Prop
  | stop {b : Bool} : RMembers U b [] []
  | space {b : Bool} {r : Nat} {s t : List Nat} : isSpace r = true → RMembers U b s t → RMembers U b (r :: s) t
  | comma {s t : List Nat} : RMembers U false s t → RMembers U true (0x2C :: s) t
  | close {b : Bool} {s : List Nat} : RMembers U b (0x7D :: s) s
  | member {s u t : List Nat} : RField U true (strRest s) u → RMembers U true u t → RMembers U false (0x22 :: s) t
/-- The rest of a member after its key; with `true` before the colon. -/
inductive RField (U : Uni) : Bool → List Nat → List Nat → Prop
  | stop {b : Bool} : RField U b [] []
  | space {b : Bool} {r : Nat} {s t : List Nat} : isSpace r = true → RField U b s t → RField U b (r :: s) t
  | colon {s t : List Nat} : RField U false s t → RField U true (0x3A :: s) t
  | value {r : Nat} {s t : List Nat} : isSpace r = false → r ≠ 0x3A → RValue U (r :: s) t → RField U false (r :: s) t
/-- A value. -/
inductive RValue (U : Uni) : List Nat → List Nat → Prop
  | stop : RValue U [] []
  | space {r : Nat} {s t : List Nat} : isSpace r = true → RValue U s t → RValue U (r :: s) t
  | word {r : Nat} {s : List Nat} : runeKeyword r = true →
      goodKeyword (U.toLower (spell (r :: s.takeWhile U.isLetter))) = true → RValue U (r :: s) (s.dropWhile U.isLetter)
  | str {s : List Nat} : RValue U (0x22 :: s) (strRest s)
  | num {r : Nat} {s t : List Nat} : isSpace r = false → runeKeyword r = false → r ≠ 0x22 →
      (U.isDigit r || r == 0x2D) = true → numRest U {} s = some t → RValue U (r :: s) t
  | arr {s t : List Nat} : U.isDigit 0x5B = false → RElems U false s t → RValue U (0x5B :: s) t
  | obj {s t : List Nat} : U.isDigit 0x7B = false → RMembers U false s t → RValue U (0x7B :: s) t
end

/-- A result of a parser says what the relation `R` makes of the runes `s`. -/
def Says (R : List Nat → Prop) (c : Ctr) : Sig → Prop
  | .ok => ∀ t, R t ↔ t = runes c.rest
  | .finished => False
  | .failed true => runes c.rest = [] ∧ ∀ t, R t ↔ t = []
  | .failed false => ∀ t, ¬ R t

/-- A parser that came to an end says so. -/
def Agrees (R : List Nat → Prop) (o : Option (Ctr × Sig)) : Prop := ∀ c sg, o = some (c, sg) → Says R c sg

/-- The same for a loop. -/
def LoopAgrees {σ : Type} (R : List Nat → Prop) (o : Option (σ × Ctr × Sig)) : Prop :=
  ∀ st c sg, o = some (st, c, sg) → Says R c sg

/-- A round of a loop. -/
def RoundAgrees {σ : Type} (Q : σ → List Nat → List Nat → Prop) (R : List Nat → Prop) (o : Option (σ × Ctr × Sig)) : Prop :=
  ∀ st c sg, o = some (st, c, sg) → match sg with
    | .ok => ∀ t, R t ↔ Q st (runes c.rest) t
    | .finished => ∀ t, R t ↔ t = runes c.rest
    | .failed true => runes c.rest = [] ∧ ∀ t, R t ↔ t = []
    | .failed false => ∀ t, ¬ R t

theorem loop_agrees {σ : Type} {fn : σ → Nat → Ctr → Option (σ × Ctr × Sig)} {Q : σ → List Nat → List Nat → Prop}
    (h0 : ∀ st t, Q st [] t ↔ t = [])
    (hb : ∀ st r c0 c1, readRune c0 = (c1, some r) → RoundAgrees Q (Q st (r :: runes c1.rest)) (fn st r c1)) :
    ∀ (n : Nat) (st : σ) (c : Ctr), LoopAgrees (Q st (runes c.rest)) (readLoop n fn st c) := by
  intro n
  induction n with
  | zero => intro st c _ _ _ h; cases h
  | succ n ih =>
    intro st c st' c' sg h
    unfold readLoop at h
    cases hr : readRune c with
    | mk c1 o =>
      cases o with
      | none =>
        rw [hr] at h
        cases h
        obtain ⟨h1, h2⟩ := runes_end hr
        intro t
        rw [h1, h2]
        exact h0 st t
      | some r =>
        rw [hr] at h
        simp only at h
        rw [runes_read hr]
        have := hb st r c c1 hr
        cases hf : fn st r c1 with
        | none => rw [hf] at h; cases h
        | some p =>
          obtain ⟨st2, c2, sg2⟩ := p
          rw [hf] at h
          have := this st2 c2 sg2 hf
          cases sg2 with
          | ok =>
            simp only at h this
            have := ih st2 c2 st' c' sg h
            rename_i this0
            cases sg with
            | ok => exact fun t => (this0 t).trans (this t)
            | finished => exact this.elim
            | failed e =>
              cases e with
              | true => exact ⟨this.1, fun t => (this0 t).trans (this.2 t)⟩
              | false => exact fun t ht => this t ((this0 t).1 ht)
          | finished => cases h; exact this
          | failed e =>
            cases h
            cases e with
            | true => exact this
            | false => exact this

theorem drop1_agrees {σ : Type} {R : List Nat → Prop} {o : Option (σ × Ctr × Sig)} (h : LoopAgrees R o) :
    Agrees R (drop1 o) := by
  intro c sg hc
  cases o with
  | none => cases hc
  | some p => obtain ⟨st, c', sg'⟩ := p; cases hc; exact h _ _ _ rfl

/-- A nested parser after which the loop goes on. -/
theorem nested_on {σ : Type} {Q : σ → List Nat → List Nat → Prop} (h0 : ∀ st t, Q st [] t ↔ t = []) {st : σ}
    {R V : List Nat → Prop} (hR : ∀ t, R t ↔ ∃ u, V u ∧ Q st u t) {o : Option (Ctr × Sig)} (h : Agrees V o) :
    RoundAgrees Q R (nested st false o) := by
  intro st' c sg e
  cases o with
  | none => cases e
  | some p =>
    obtain ⟨c', s⟩ := p
    have := h c' s rfl
    cases s with
    | ok =>
      cases e
      intro t
      rw [hR]
      constructor
      · rintro ⟨u, hu, hq⟩; rw [(this u).1 hu] at hq; exact hq
      · intro hq; exact ⟨_, (this _).2 rfl, hq⟩
    | finished => exact this.elim
    | failed b =>
      cases e
      cases b with
      | true =>
        refine ⟨this.1, fun t => ?_⟩
        rw [hR, ← h0 st t]
        constructor
        · rintro ⟨u, hu, hq⟩; rw [(this.2 u).1 hu] at hq; exact hq
        · intro hq; exact ⟨_, (this.2 _).2 rfl, hq⟩
      | false => exact fun t ht => by obtain ⟨u, hu, _⟩ := (hR t).1 ht; exact this u hu

/-- A nested parser with which the loop ends. -/
theorem nested_last {σ : Type} {Q : σ → List Nat → List Nat → Prop} {st : σ} {R V : List Nat → Prop}
    (hR : ∀ t, R t ↔ V t) {o : Option (Ctr × Sig)} (h : Agrees V o) : RoundAgrees Q R (nested st true o) := by
  intro st' c sg e
  cases o with
  | none => cases e
  | some p =>
    obtain ⟨c', s⟩ := p
    have := h c' s rfl
    cases s with
    | ok => cases e; exact fun t => (hR t).trans (this t)
    | finished => exact this.elim
    | failed b =>
      cases e
      cases b with
      | true => exact ⟨this.1, fun t => (hR t).trans (this.2 t)⟩
      | false => exact fun t ht => this t ((hR t).1 ht)

/-! ### Strings, numbers, words -/

theorem strRest_plain {r : Nat} (h1 : r ≠ 0x5C) (h2 : r ≠ 0x22) (s : List Nat) : strRest (r :: s) = strRest s := by
  cases s with
  | nil => simp [strRest]
  | cons e s => rw [strRest, if_neg h1, if_neg h2]

theorem strRest_quote (s : List Nat) : strRest (0x22 :: s) = s := by
  cases s with
  | nil => rfl
  | cons e s => rfl

theorem strRest_escape (e : Nat) (s : List Nat) : strRest (0x5C :: e :: s) = strRest s := rfl

theorem string_agrees (n : Nat) (c : Ctr) : LoopAgrees (fun t => t = strRest (runes c.rest)) (parseString n c) := by
  unfold parseString
  refine loop_agrees (Q := fun _ s t => t = strRest s) (fun _ t => Iff.rfl) ?_ n [] c
  intro st r c0 c1 hr st' c' sg h
  unfold stringBody at h
  by_cases h1 : r = 0x5C
  · subst h1
    rw [if_pos rfl] at h
    cases hr2 : readRune c1 with
    | mk c2 o =>
      cases o with
      | none =>
        rw [hr2] at h
        cases h
        obtain ⟨e, e'⟩ := runes_end hr2
        rw [e]
        exact ⟨e', fun t => Iff.rfl⟩
      | some e =>
        rw [hr2] at h
        cases h
        rw [runes_read hr2]
        intro t; exact Iff.rfl
  · rw [if_neg h1] at h
    by_cases h2 : r = 0x22
    · subst h2
      rw [if_pos rfl] at h
      cases h
      intro t
      rw [strRest_quote]
    · rw [if_neg h2] at h
      cases h
      intro t
      simp only [strRest_plain h1 h2]

theorem number_agrees (U : Uni) (n : Nat) (c : Ctr) :
    LoopAgrees (fun t => numRest U {} (runes c.rest) = some t) (parseNumber U n c) := by
  unfold parseNumber
  refine loop_agrees (Q := fun st s t => numRest U st s = some t)
    (fun st t => ⟨fun h => by cases h; rfl, fun h => by rw [h]; rfl⟩) ?_ n {} c
  intro st r c0 c1 hr st' c' sg h
  obtain ⟨c2, e, g1, _⟩ := unread_read hr
  unfold numberBody at h
  rw [e] at h
  simp only [numRest]
  by_cases h1 : U.isDigit r = true
  · rw [if_pos h1] at h; cases h; simp only [h1, if_true]; intro t; trivial
  rw [if_neg h1] at h
  simp only [if_neg h1]
  by_cases h2 : r = 0x2E
  · rw [if_pos h2] at h
    simp only [if_pos h2]
    cases hx : st.exponent with
    | true => simp only [hx, if_true] at h; cases h; simp
    | false =>
      simp only [hx] at h
      cases hy : st.decimal with
      | true => simp only [hy, if_true] at h; cases h; simp
      | false => simp [hy] at h; obtain ⟨rfl, rfl, rfl⟩ := h; simp [hx]
  rw [if_neg h2] at h
  simp only [if_neg h2]
  by_cases h3 : r = 0x65 ∨ r = 0x45
  · rw [if_pos h3] at h
    simp only [if_pos h3]
    cases hx : st.exponent with
    | true => simp only [hx, if_true] at h; cases h; simp
    | false => simp [hx] at h; obtain ⟨rfl, rfl, rfl⟩ := h; simp [hx]
  rw [if_neg h3] at h
  simp only [if_neg h3]
  by_cases h4 : r = 0x2D ∨ r = 0x2B
  · rw [if_pos h4] at h
    simp only [if_pos h4]
    cases hx : st.exponent with
    | false => simp [hx] at h; obtain ⟨rfl, rfl, rfl⟩ := h; simp
    | true =>
      cases hy : st.sign with
      | true => simp [hx, hy] at h; obtain ⟨rfl, rfl, rfl⟩ := h; simp
      | false => simp [hx, hy] at h; obtain ⟨rfl, rfl, rfl⟩ := h; simp [hx]
  rw [if_neg h4] at h
  simp only [if_neg h4]
  cases h
  intro t
  rw [g1, runes_read hr]
  simp [eq_comm]

/-- A word: the letters read, and what is left. -/
theorem keyword_says (U : Uni) : ∀ (n : Nat) (kw : Bytes) (c : Ctr) (kw' : Bytes) (c' : Ctr) (sg : Sig),
    readLoop n (fun kw r c =>
      if U.isLetter r then some (kw ++ Utf8.encode r, c, Sig.ok)
      else match unreadRune c with
        | (c, .ok) => some (kw, c, .finished)
        | (c, e) => some (kw, c, wrap false e)) kw c = some (kw', c', sg) →
    sg = .ok ∧ kw' = kw ++ spell ((runes c.rest).takeWhile U.isLetter) ∧
      runes c'.rest = (runes c.rest).dropWhile U.isLetter := by
  intro n
  induction n with
  | zero => intro kw c kw' c' sg h; cases h
  | succ n ih =>
    intro kw c kw' c' sg h
    unfold readLoop at h
    cases hr : readRune c with
    | mk c1 o =>
      cases o with
      | none =>
        rw [hr] at h
        cases h
        obtain ⟨h1, h2⟩ := runes_end hr
        rw [h1, h2]
        simp [spell]
      | some r =>
        rw [hr] at h
        simp only at h
        rw [runes_read hr]
        by_cases hl : U.isLetter r = true
        · simp only [hl, if_true] at h
          obtain ⟨h1, h2, h3⟩ := ih _ _ _ _ _ h
          rw [List.takeWhile_cons_of_pos hl, List.dropWhile_cons_of_pos hl]
          refine ⟨h1, ?_, h3⟩
          rw [h2, spell, List.append_assoc]
        · obtain ⟨c2, e, g1, _⟩ := unread_read hr
          simp only [if_neg hl, e] at h
          cases h
          rw [List.takeWhile_cons_of_neg hl, List.dropWhile_cons_of_neg hl, g1, runes_read hr]
          simp [spell]

/-! ### What the relations say for the first rune -/

theorem relems_nil {U : Uni} {b : Bool} {t : List Nat} : RElems U b [] t ↔ t = [] :=
  ⟨fun h => by cases h; rfl, fun h => by rw [h]; exact .stop⟩
theorem rmembers_nil {U : Uni} {b : Bool} {t : List Nat} : RMembers U b [] t ↔ t = [] :=
  ⟨fun h => by cases h; rfl, fun h => by rw [h]; exact .stop⟩
theorem rfield_nil {U : Uni} {b : Bool} {t : List Nat} : RField U b [] t ↔ t = [] :=
  ⟨fun h => by cases h; rfl, fun h => by rw [h]; exact .stop⟩
theorem rvalue_nil {U : Uni} {t : List Nat} : RValue U [] t ↔ t = [] :=
  ⟨fun h => by cases h; rfl, fun h => by rw [h]; exact .stop⟩

theorem relems_cons {U : Uni} {b : Bool} {r : Nat} {s t : List Nat} : RElems U b (r :: s) t ↔
    if isSpace r then RElems U b s t
    else if r = 0x2C then b = true ∧ RElems U false s t
    else if r = 0x5D then t = s
    else b = false ∧ ∃ u, RValue U (r :: s) u ∧ RElems U true u t := by
  constructor
  · intro h
    cases h with
    | space h1 h2 => rw [if_pos h1]; exact h2
    | comma h1 => exact ⟨rfl, h1⟩
    | close => rfl
    | elem h1 h2 h3 h4 h5 => rw [if_neg (by rw [h1]; decide), if_neg h2, if_neg h3]; exact ⟨rfl, _, h4, h5⟩
  · intro h
    by_cases h1 : isSpace r = true
    · rw [if_pos h1] at h; exact .space h1 h
    rw [if_neg h1] at h
    by_cases h2 : r = 0x2C
    · rw [if_pos h2] at h; obtain ⟨rfl, h⟩ := h; subst h2; exact .comma h
    rw [if_neg h2] at h
    by_cases h3 : r = 0x5D
    · rw [if_pos h3] at h; subst h; subst h3; exact .close
    rw [if_neg h3] at h
    obtain ⟨rfl, u, h4, h5⟩ := h
    exact .elem (by simpa using h1) h2 h3 h4 h5

theorem rmembers_cons {U : Uni} {b : Bool} {r : Nat} {s t : List Nat} : RMembers U b (r :: s) t ↔
    if isSpace r then RMembers U b s t
    else if r = 0x2C then b = true ∧ RMembers U false s t
    else if r = 0x22 then b = false ∧ ∃ u, RField U true (strRest s) u ∧ RMembers U true u t
    else r = 0x7D ∧ t = s := by
  constructor
  · intro h
    cases h with
    | space h1 h2 => rw [if_pos h1]; exact h2
    | comma h1 => exact ⟨rfl, h1⟩
    | close => exact ⟨rfl, rfl⟩
    | member h1 h2 => exact ⟨rfl, _, h1, h2⟩
  · intro h
    by_cases h1 : isSpace r = true
    · rw [if_pos h1] at h; exact .space h1 h
    rw [if_neg h1] at h
    by_cases h2 : r = 0x2C
    · rw [if_pos h2] at h; obtain ⟨rfl, h⟩ := h; subst h2; exact .comma h
    rw [if_neg h2] at h
    by_cases h3 : r = 0x22
    · rw [if_pos h3] at h; obtain ⟨rfl, u, h4, h5⟩ := h; subst h3; exact .member h4 h5
    rw [if_neg h3] at h
    obtain ⟨rfl, rfl⟩ := h
    exact .close

theorem rfield_cons {U : Uni} {b : Bool} {r : Nat} {s t : List Nat} : RField U b (r :: s) t ↔
    if isSpace r then RField U b s t
    else if r = 0x3A then b = true ∧ RField U false s t
    else b = false ∧ RValue U (r :: s) t := by
  constructor
  · intro h
    cases h with
    | space h1 h2 => rw [if_pos h1]; exact h2
    | colon h1 => exact ⟨rfl, h1⟩
    | value h1 h2 h3 => rw [if_neg (by rw [h1]; decide), if_neg h2]; exact ⟨rfl, h3⟩
  · intro h
    by_cases h1 : isSpace r = true
    · rw [if_pos h1] at h; exact .space h1 h
    rw [if_neg h1] at h
    by_cases h2 : r = 0x3A
    · rw [if_pos h2] at h; obtain ⟨rfl, h⟩ := h; subst h2; exact .colon h
    rw [if_neg h2] at h
    obtain ⟨rfl, h⟩ := h
    exact .value (by simpa using h1) h2 h

theorem keyword_rune {r : Nat} (h : runeKeyword r = true) :
    r = 0x74 ∨ r = 0x54 ∨ r = 0x66 ∨ r = 0x46 ∨ r = 0x6E ∨ r = 0x4E := by
  simpa [runeKeyword, or_assoc] using h

theorem rvalue_cons {U : Uni} {r : Nat} {s t : List Nat} : RValue U (r :: s) t ↔
    if isSpace r then RValue U s t
    else if runeKeyword r then
      goodKeyword (U.toLower (spell (r :: s.takeWhile U.isLetter))) = true ∧ t = s.dropWhile U.isLetter
    else if r = 0x22 then t = strRest s
    else if U.isDigit r || r == 0x2D then numRest U {} s = some t
    else if r = 0x5B then RElems U false s t
    else r = 0x7B ∧ RMembers U false s t := by
  constructor
  · intro h
    cases h with
    | space h1 h2 => rw [if_pos h1]; exact h2
    | word h1 h2 =>
      have : ¬ isSpace r = true := by
        rcases keyword_rune h1 with rfl | rfl | rfl | rfl | rfl | rfl <;> decide
      rw [if_neg this, if_pos h1]; exact ⟨h2, rfl⟩
    | str => rfl
    | num h1 h2 h3 h4 h5 => rw [if_neg (by rw [h1]; decide), if_neg (by rw [h2]; decide), if_neg h3, if_pos h4]; exact h5
    | arr h1 h2 =>
      rw [if_neg (by decide), if_neg (by decide), if_neg (by decide), if_neg (by rw [h1]; decide), if_pos rfl]; exact h2
    | obj h1 h2 =>
      rw [if_neg (by decide), if_neg (by decide), if_neg (by decide), if_neg (by rw [h1]; decide), if_neg (by decide)]
      exact ⟨rfl, h2⟩
  · intro h
    by_cases h1 : isSpace r = true
    · rw [if_pos h1] at h; exact .space h1 h
    rw [if_neg h1] at h
    by_cases h2 : runeKeyword r = true
    · rw [if_pos h2] at h; obtain ⟨h3, rfl⟩ := h; exact .word h2 h3
    rw [if_neg h2] at h
    by_cases h3 : r = 0x22
    · rw [if_pos h3] at h; subst h; subst h3; exact .str
    rw [if_neg h3] at h
    by_cases h4 : (U.isDigit r || r == 0x2D) = true
    · rw [if_pos h4] at h; exact .num (by simpa using h1) (by simpa using h2) h3 h4 h
    rw [if_neg h4] at h
    by_cases h5 : r = 0x5B
    · rw [if_pos h5] at h; subst h5; exact .arr (by simpa using h4) h
    rw [if_neg h5] at h
    obtain ⟨rfl, h⟩ := h
    exact .obj (by simpa using h4) h

/-! ### The parsers -/

theorem parsers_agree (U : Uni) (hB : U.isDigit 0x5B = false) (hC : U.isDigit 0x7B = false) : ∀ f : Nat,
    (∀ b c, Agrees (RMembers U false (runes c.rest)) (parseObject U f b c)) ∧
    (∀ k c, Agrees (RField U true (runes c.rest)) (parseField U f k c)) ∧
    (∀ c, Agrees (RElems U false (runes c.rest)) (parseArray U f c)) ∧
    (∀ c, Agrees (RValue U (runes c.rest)) (parseValue U f c)) := by
  intro f
  induction f with
  | zero =>
    exact ⟨fun _ _ _ _ h => (by simp [parseObject] at h), fun _ _ _ _ h => (by simp [parseField] at h),
      fun _ _ _ h => (by simp [parseArray] at h), fun _ _ _ h => (by simp [parseValue] at h)⟩
  | succ f ih =>
    obtain ⟨iho, ihf, iha, ihv⟩ := ih
    refine ⟨fun b c => ?_, fun k c => ?_, fun c => ?_, fun c => ?_⟩
    · rw [parseObject]
      refine drop1_agrees (loop_agrees (Q := RMembers U) (fun _ _ => rmembers_nil) ?_ _ _ c)
      intro st r c0 c1 hr
      unfold objectBody
      by_cases h1 : isSpace r = true
      · rw [if_pos h1]; intro _ _ _ h; cases h; intro t; rw [rmembers_cons, if_pos h1]
      rw [if_neg h1]
      by_cases h2 : r = 0x2C
      · rw [if_pos h2]
        cases st with
        | true => intro _ _ _ h; cases h; intro t; rw [rmembers_cons, if_neg h1, if_pos h2]; simp
        | false => intro _ _ _ h; cases h; intro t; rw [rmembers_cons, if_neg h1, if_pos h2]; simp
      rw [if_neg h2]
      by_cases h3 : r = 0x22
      · rw [if_pos h3]
        cases st with
        | true => intro _ _ _ h; cases h; intro t; rw [rmembers_cons, if_neg h1, if_neg h2, if_pos h3]; simp
        | false =>
          rw [if_neg (by decide)]
          have hs := string_agrees f c1
          cases hp : parseString f c1 with
          | none => intro _ _ _ h; cases h
          | some p =>
            obtain ⟨fld, c2, sg⟩ := p
            have hs := hs _ _ _ hp
            cases sg with
            | finished => exact hs.elim
            | failed e =>
              cases e with
              | false => exact absurd rfl (hs _)
              | true =>
                intro _ _ _ h
                cases h
                have hs0 := hs.1
                have hs := hs.2
                refine ⟨hs0, fun t => ?_⟩
                rw [rmembers_cons, if_neg h1, if_neg h2, if_pos h3, ← (hs _).1 rfl]
                constructor
                · rintro ⟨_, u, h4, h5⟩
                  have h4 := rfield_nil.1 ((hs _).1 rfl ▸ h4)
                  subst h4
                  rw [(hs _).1 rfl]
                  exact rmembers_nil.1 h5
                · intro e
                  rw [e, (hs _).1 rfl]
                  exact ⟨rfl, [], .stop, .stop⟩
            | ok =>
              simp only
              refine nested_on (Q := RMembers U) (fun _ _ => rmembers_nil)
                (V := RField U true (strRest (runes c1.rest))) (fun t => ?_) ?_
              · rw [rmembers_cons, if_neg h1, if_neg h2, if_pos h3]; simp
              · rw [(hs _).1 rfl]
                have : runes c2.rest = runes (if b = true then { c2 with counts := c2.counts.set fld ((c2.counts.get fld).getD 0 + 1) } else c2).rest := by
                  split <;> rfl
                rw [this]
                exact ihf _ _
      rw [if_neg h3]
      by_cases h4 : r = 0x7D
      · rw [if_pos h4]; intro _ _ _ h; cases h; intro t; rw [rmembers_cons, if_neg h1, if_neg h2, if_neg h3]; simp [h4]
      · rw [if_neg h4]; intro _ _ _ h; cases h; intro t; rw [rmembers_cons, if_neg h1, if_neg h2, if_neg h3]; simp [h4]
    · rw [parseField]
      refine drop1_agrees (loop_agrees (Q := RField U) (fun _ _ => rfield_nil) ?_ _ _ c)
      intro st r c0 c1 hr
      unfold fieldBody
      by_cases h1 : isSpace r = true
      · rw [if_pos h1]; intro _ _ _ h; cases h; intro t; rw [rfield_cons, if_pos h1]
      rw [if_neg h1]
      by_cases h2 : r = 0x3A
      · rw [if_pos h2]
        cases st with
        | true => intro _ _ _ h; cases h; intro t; rw [rfield_cons, if_neg h1, if_pos h2]; simp
        | false => intro _ _ _ h; cases h; intro t; rw [rfield_cons, if_neg h1, if_pos h2]; simp
      rw [if_neg h2]
      cases st with
      | true => intro _ _ _ h; cases h; intro t; rw [rfield_cons, if_neg h1, if_neg h2]; simp
      | false =>
        rw [if_neg (by decide)]
        have hR : ∀ t, RField U false (r :: runes c1.rest) t ↔ RValue U (r :: runes c1.rest) t := by
          intro t; rw [rfield_cons, if_neg h1, if_neg h2]; simp
        by_cases h4 : r = 0x7B
        · rw [if_pos h4]
          have hR' : ∀ t, RField U false (r :: runes c1.rest) t ↔ RMembers U false (runes c1.rest) t := by
            intro t
            rw [hR, rvalue_cons, if_neg h1]
            subst h4
            rw [if_neg (by decide), if_neg (by decide), if_neg (by rw [hC]; decide), if_neg (by decide)]
            simp
          split
          · exact nested_last hR' (iho true { c1 with counts := c1.counts.del k })
          · exact nested_last hR' (iho false c1)
        rw [if_neg h4]
        by_cases h5 : r = 0x5B
        · rw [if_pos h5]
          refine nested_last (fun t => ?_) (iha c1)
          rw [hR, rvalue_cons, if_neg h1]
          subst h5
          rw [if_neg (by decide), if_neg (by decide), if_neg (by rw [hB]; decide), if_pos rfl]
        rw [if_neg h5]
        obtain ⟨c2, e, g1, _⟩ := unread_read hr
        rw [e]
        have := ihv c2
        rw [g1, runes_read hr] at this
        exact nested_last (fun t => hR t) this
    · rw [parseArray]
      refine drop1_agrees (loop_agrees (Q := RElems U) (fun _ _ => relems_nil) ?_ _ _ c)
      intro st r c0 c1 hr
      unfold arrayBody
      by_cases h1 : isSpace r = true
      · rw [if_pos h1]; intro _ _ _ h; cases h; intro t; rw [relems_cons, if_pos h1]
      rw [if_neg h1]
      by_cases h2 : r = 0x2C
      · rw [if_pos h2]
        cases st with
        | true => intro _ _ _ h; cases h; intro t; rw [relems_cons, if_neg h1, if_pos h2]; simp
        | false => intro _ _ _ h; cases h; intro t; rw [relems_cons, if_neg h1, if_pos h2]; simp
      rw [if_neg h2]
      by_cases h3 : r = 0x5D
      · rw [if_pos h3]; intro _ _ _ h; cases h; intro t; rw [relems_cons, if_neg h1, if_neg h2, if_pos h3]
      rw [if_neg h3]
      cases st with
      | true => intro _ _ _ h; cases h; intro t; rw [relems_cons, if_neg h1, if_neg h2, if_neg h3]; simp
      | false =>
        rw [if_neg (by decide)]
        obtain ⟨c2, e, g1, _⟩ := unread_read hr
        rw [e]
        have := ihv c2
        rw [g1, runes_read hr] at this
        refine nested_on (Q := RElems U) (fun _ _ => relems_nil) (fun t => ?_) this
        rw [relems_cons, if_neg h1, if_neg h2, if_neg h3]; simp
    · rw [parseValue]
      refine drop1_agrees (loop_agrees (Q := fun _ => RValue U) (fun _ _ => rvalue_nil) ?_ _ _ c)
      intro st r c0 c1 hr
      unfold valueBody
      by_cases h1 : isSpace r = true
      · rw [if_pos h1]; intro _ _ _ h; cases h; intro t; rw [rvalue_cons, if_pos h1]
      rw [if_neg h1]
      by_cases h2 : runeKeyword r = true
      · rw [if_pos h2]
        cases hp : parseKeyword U f r c1 with
        | none => intro _ _ _ h; cases h
        | some p =>
          obtain ⟨kw, c2, sg⟩ := p
          obtain ⟨rfl, g1, g2⟩ := keyword_says U _ _ _ _ _ _ hp
          simp only
          cases hg : goodKeyword (U.toLower kw) with
          | true =>
            intro _ _ _ h; cases h; intro t
            rw [rvalue_cons, if_neg h1, if_pos h2, spell, ← g1, hg, g2]; simp
          | false =>
            intro _ _ _ h; cases h; intro t
            rw [rvalue_cons, if_neg h1, if_pos h2, spell, ← g1, hg]; simp
      rw [if_neg h2]
      by_cases h3 : r = 0x22
      · rw [if_pos h3]
        have hs := string_agrees f c1
        cases hp : parseString f c1 with
        | none => intro _ _ _ h; cases h
        | some p =>
          obtain ⟨fld, c2, sg⟩ := p
          have := hs _ _ _ hp
          refine nested_last (Q := fun _ => RValue U) (st := ()) (o := some (c2, sg)) (V := fun t => t = strRest (runes c1.rest)) (fun t => ?_) ?_
          · rw [rvalue_cons, if_neg h1, if_neg h2, if_pos h3]
          · intro _ _ h; cases h; exact this
      rw [if_neg h3]
      by_cases h4 : (U.isDigit r || r == 0x2D) = true
      · rw [if_pos h4]
        have hs := number_agrees U f c1
        cases hp : parseNumber U f c1 with
        | none => intro _ _ _ h; cases h
        | some p =>
          obtain ⟨fld, c2, sg⟩ := p
          have := hs _ _ _ hp
          refine nested_last (Q := fun _ => RValue U) (st := ()) (o := some (c2, sg)) (V := fun t => numRest U {} (runes c1.rest) = some t) (fun t => ?_) ?_
          · rw [rvalue_cons, if_neg h1, if_neg h2, if_neg h3, if_pos h4]
          · intro _ _ h; cases h; exact this
      rw [if_neg h4]
      by_cases h5 : r = 0x5B
      · rw [if_pos h5]
        refine nested_last (Q := fun _ => RValue U) (fun t => ?_) (iha c1)
        rw [rvalue_cons, if_neg h1, if_neg h2, if_neg h3, if_neg h4, if_pos h5]
      rw [if_neg h5]
      by_cases h6 : r = 0x7B
      · rw [if_pos h6]
        refine nested_last (Q := fun _ => RValue U) (fun t => ?_) (iho false c1)
        rw [rvalue_cons, if_neg h1, if_neg h2, if_neg h3, if_neg h4, if_neg h5]; simp [h6]
      · rw [if_neg h6]
        intro _ _ _ h; cases h; intro t
        rw [rvalue_cons, if_neg h1, if_neg h2, if_neg h3, if_neg h4, if_neg h5]; simp [h6]

/-! ### Parse -/

/-- The whole input. -/
inductive RTop (U : Uni) : List Nat → Prop
  | stop : RTop U []
  | space {r : Nat} {s : List Nat} : isSpace r = true → RTop U s → RTop U (r :: s)
  | obj {s t : List Nat} : RMembers U false s t → RTop U (0x7B :: s)

theorem runes_rest_nil {c : Ctr} (h : runes c.rest = []) : readRune c = ({ c with prev := none }, none) := by
  cases hr : readRune c with
  | mk c' o =>
    cases o with
    | none =>
      have := (readRune_none hr).1
      unfold readRune at hr
      rw [this] at hr
      simp only [decodeRune, Prod.mk.injEq, and_true] at hr
      rw [← hr, this]
    | some r => rw [runes_read hr] at h; cases h

theorem peek_nil : ∀ (n : Nat) (c : Ctr), runes c.rest = [] → runes (peek n c).rest = []
  | 0, _, h => h
  | n + 1, c, h => by
    rw [peek, runes_rest_nil h]
    exact h

theorem top_says (U : Uni) (hB : U.isDigit 0x5B = false) (hC : U.isDigit 0x7B = false) (f : Nat) : ∀ (n : Nat) (c c' : Ctr) (sg : Sig),
    drop1 (readLoop n (parseBody (parseObject U f)) () c) = some (c', sg) →
    (sg = .ok ∧ RTop U (runes c.rest)) ∨ (sg = .failed false ∧ ¬ RTop U (runes c.rest)) := by
  intro n
  induction n with
  | zero => intro c c' sg h; cases h
  | succ n ih =>
    intro c c' sg h
    unfold readLoop at h
    cases hr : readRune c with
    | mk c1 o =>
      cases o with
      | none =>
        rw [hr] at h
        cases h
        rw [(runes_end hr).1]
        exact .inl ⟨rfl, .stop⟩
      | some r =>
        rw [hr] at h
        simp only at h
        rw [runes_read hr]
        unfold parseBody at h
        by_cases h1 : isSpace r = true
        · simp only [h1, if_true] at h
          rcases ih c1 c' sg h with ⟨h2, h3⟩ | ⟨h2, h3⟩
          · exact .inl ⟨h2, .space h1 h3⟩
          · refine .inr ⟨h2, fun h => ?_⟩
            cases h with
            | space _ h => exact h3 h
            | obj => revert h1; decide
        simp only [h1] at h
        by_cases h2 : r = 0x7B
        · simp only [h2, if_true] at h
          have ha := (parsers_agree U hB hC f).1 true c1
          cases hp : parseObject U f true c1 with
          | none => rw [hp] at h; cases h
          | some p =>
            obtain ⟨c2, sg2⟩ := p
            have ha := ha _ _ hp
            rw [hp] at h
            cases sg2 with
            | ok =>
              cases h
              subst h2
              exact .inl ⟨rfl, .obj ((ha _).2 rfl)⟩
            | finished => exact ha.elim
            | failed e =>
              cases e with
              | false =>
                cases h
                refine .inr ⟨rfl, fun h => ?_⟩
                cases h with
                | space h3 _ => exact h1 h3
                | obj h3 => exact ha _ h3
              | true =>
                simp only [wrapStatus] at h
                have e := peek_nil 15 c2 ha.1
                cases n with
                | zero => cases h
                | succ n =>
                  simp only [Bool.false_eq_true, if_false, readLoop, runes_rest_nil e] at h
                  cases h
                  subst h2
                  exact .inl ⟨rfl, .obj ((ha.2 _).2 rfl)⟩
        · simp only [h2] at h
          cases h
          refine .inr ⟨rfl, fun h => ?_⟩
          cases h with
          | space h3 _ => exact h1 h3
          | obj => exact h2 rfl

/-- What `Parse` accepts is what the relation accepts; everything else is rejected. -/
theorem parse_says (U : Uni) (hB : U.isDigit 0x5B = false) (hC : U.isDigit 0x7B = false) (src : Bytes) :
    (RTop U (runes src) ∧ ∃ c, parse U src = some (c, .ok)) ∨
    (¬ RTop U (runes src) ∧ ∃ c, parse U src = some (c, .failed false)) := by
  obtain ⟨c, s, n, he, _⟩ := parseWith_ends U (2 * src.length + 4) (new src) (by show 2 * src.length + 2 ≤ _; omega)
  rcases top_says U hB hC _ _ _ _ _ he with ⟨rfl, h⟩ | ⟨rfl, h⟩
  · exact .inl ⟨h, c, he⟩
  · exact .inr ⟨h, c, he⟩

end Verif.Count
