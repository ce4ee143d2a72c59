import Verif.Count.Model

/-
The field counter always comes to an end (C36), and more rounds give the same result.
-/

set_option linter.unusedSimpArgs false

namespace Verif.Count
open Go

/-- Reading `n` runes of `s` leaves `t`. -/
inductive Ate : Bytes → Nat → Bytes → Prop
  | refl (s : Bytes) : Ate s 0 s
  | step {s t : Bytes} {r w n : Nat} : decodeRune s = some (r, w) → Ate (s.drop w) n t → Ate s (n + 1) t

theorem Ate.trans {s t u : Bytes} {n m : Nat} (h : Ate s n t) : Ate t m u → Ate s (n + m) u := by
  induction h with
  | refl s => intro h; rw [Nat.zero_add]; exact h
  | step hd _ ih =>
    intro h'
    have := Ate.step hd (ih h')
    have e : ∀ a : Nat, a + 1 + m = a + m + 1 := by intro a; omega
    rw [e]; exact this

theorem Ate.length {s t : Bytes} {n : Nat} (h : Ate s n t) : t.length + n ≤ s.length := by
  induction h with
  | refl s => simp
  | @step s t r w n hd _ ih =>
    have := decodeRune_width hd
    simp at ih
    omega

theorem readRune_some {c c' : Ctr} {r : Nat} (h : readRune c = (c', some r)) :
    (∃ r0 w, decodeRune c.rest = some (r0, w) ∧ c'.rest = c.rest.drop w ∧ r = if r0 = 0x0A then 0x20 else r0) ∧
    c'.loc = c.loc + 1 ∧ c'.prev = some c.rest ∧ c'.recent.length > 0 ∧ c'.counts = c.counts := by
  unfold readRune at h
  split at h
  · simp at h
  · rename_i r0 w hd
    simp only [Prod.mk.injEq, Option.some.injEq] at h
    obtain ⟨rfl, rfl⟩ := h
    refine ⟨⟨r0, w, hd, rfl, rfl⟩, rfl, rfl, ?_, rfl⟩
    generalize (if r0 = 0x0A then 0x20 else r0) = r1
    by_cases hl : (c.recent ++ [r1]).length > 15
    · simp only [if_pos hl, List.length_drop]; omega
    · simp only [if_neg hl]; simp

theorem readRune_none {c c' : Ctr} (h : readRune c = (c', none)) :
    c.rest = [] ∧ c'.rest = c.rest ∧ c'.loc = c.loc ∧ c'.counts = c.counts := by
  unfold readRune at h
  split at h
  · rename_i hd
    simp only [Prod.mk.injEq, and_true] at h
    subst h
    refine ⟨?_, rfl, rfl, rfl⟩
    cases e : c.rest with
    | nil => rfl
    | cons => rw [e] at hd; cases hd
  · simp at h

theorem readRune_ate {c c' : Ctr} {r : Nat} (h : readRune c = (c', some r)) : Ate c.rest 1 c'.rest := by
  obtain ⟨⟨r0, w, hd, hr, _⟩, _⟩ := readRune_some h
  rw [hr]
  exact .step hd (.refl _)

/-- An unread directly after a read takes it back. -/
theorem unread_read {c c' : Ctr} {r : Nat} (h : readRune c = (c', some r)) :
    ∃ c2, unreadRune c' = (c2, .ok) ∧ c2.rest = c.rest ∧ c2.loc = c.loc ∧ c2.counts = c.counts := by
  obtain ⟨_, h1, h2, h3, h4⟩ := readRune_some h
  unfold unreadRune
  rw [h2]
  simp only [h3, if_true]
  exact ⟨_, rfl, rfl, by simp [h1], h4⟩

/-- From `c` the input was read on to `c'`, `n` runes net, and the location says so. -/
structure Moved (c : Ctr) (n : Nat) (c' : Ctr) : Prop where
  ate : Ate c.rest n c'.rest
  loc : c'.loc = c.loc + n

theorem Moved.refl (c : Ctr) : Moved c 0 c := ⟨.refl _, rfl⟩

theorem Moved.trans {a b c : Ctr} {n m : Nat} (h : Moved a n b) (h' : Moved b m c) : Moved a (n + m) c :=
  ⟨h.ate.trans h'.ate, by rw [h'.loc, h.loc]; omega⟩

theorem Moved.length {a b : Ctr} {n : Nat} (h : Moved a n b) : b.rest.length + n ≤ a.rest.length := h.ate.length

theorem read_moved {c c' : Ctr} {r : Nat} (h : readRune c = (c', some r)) : Moved c 1 c' :=
  ⟨readRune_ate h, (readRune_some h).2.1⟩

/-- A parser comes to an end without `errFinished`, having read on; `strict`: having read
something if it succeeds and there is something. -/
def Ends (strict : Bool) (c : Ctr) (o : Option (Ctr × Sig)) : Prop :=
  ∃ c' s n, o = some (c', s) ∧ s ≠ .finished ∧ Moved c n c' ∧ (strict = true → s = .ok → c.rest ≠ [] → 1 ≤ n)

/-- The same for a loop. -/
def LoopEnds {σ : Type} (strict : Bool) (c : Ctr) (o : Option (σ × Ctr × Sig)) : Prop :=
  ∃ st' c' s n, o = some (st', c', s) ∧ s ≠ .finished ∧ Moved c n c' ∧ (strict = true → s = .ok → c.rest ≠ [] → 1 ≤ n)

/-- A round of a loop, started by reading from `c0`. -/
def RoundEnds {σ : Type} (strict : Bool) (c0 : Ctr) (o : Option (σ × Ctr × Sig)) : Prop :=
  ∃ st' c' s n, o = some (st', c', s) ∧ Moved c0 n c' ∧ (s = .ok → 1 ≤ n) ∧ (strict = true → s = .finished → 1 ≤ n)

theorem loop_ends {σ : Type} {strict : Bool} {fn : σ → Nat → Ctr → Option (σ × Ctr × Sig)} {k : Nat}
    (hb : ∀ st r c0 c1, c0.rest.length ≤ k → readRune c0 = (c1, some r) → RoundEnds strict c0 (fn st r c1)) :
    ∀ (n : Nat) (st : σ) (c : Ctr), c.rest.length ≤ k → c.rest.length < n → LoopEnds strict c (readLoop n fn st c) := by
  intro n
  induction n with
  | zero => intro st c _ h; omega
  | succ n ih =>
    intro st c hk hn
    unfold readLoop
    cases hr : readRune c with
    | mk c1 o =>
      cases o with
      | none =>
        obtain ⟨h1, h2, h3, _⟩ := readRune_none hr
        exact ⟨st, c1, .ok, 0, rfl, by simp, ⟨h2 ▸ .refl _, by omega⟩, fun _ _ h => absurd h1 h⟩
      | some r =>
        obtain ⟨st', c', s, m, he, hm, h1, h2⟩ := hb st r c c1 hk hr
        simp only [he]
        cases s with
        | finished => exact ⟨st', c', .ok, m, rfl, by simp, hm, fun hs _ _ => h2 hs rfl⟩
        | failed e => exact ⟨st', c', .failed e, m, rfl, by simp, hm, fun _ h => by cases h⟩
        | ok =>
          have hl := hm.length
          have h1 := h1 rfl
          obtain ⟨st2, c2, s2, m2, he2, hs2, hm2, h3⟩ := ih st' c' (by omega) (by omega)
          exact ⟨st2, c2, s2, m + m2, he2, hs2, hm.trans hm2, fun _ _ _ => by omega⟩

theorem keyword_ends (U : Uni) (n first : Nat) (c : Ctr) (h : c.rest.length < n) :
    LoopEnds false c (parseKeyword U n first c) := by
  unfold parseKeyword
  refine loop_ends (k := c.rest.length) ?_ n _ c (Nat.le_refl _) h
  intro st r c0 c1 _ hr
  by_cases hl : U.isLetter r = true
  · simp only [if_pos hl]
    exact ⟨_, _, _, 1, rfl, read_moved hr, by simp, by simp⟩
  · simp only [if_neg hl]
    obtain ⟨c2, e, h1, h2, _⟩ := unread_read hr
    rw [e]
    exact ⟨_, _, _, 0, rfl, ⟨h1 ▸ .refl _, h2⟩, by simp, by simp⟩

theorem number_ends (U : Uni) (n : Nat) (c : Ctr) (h : c.rest.length < n) :
    LoopEnds false c (parseNumber U n c) := by
  unfold parseNumber
  refine loop_ends (k := c.rest.length) ?_ n _ c (Nat.le_refl _) h
  intro st r c0 c1 _ hr
  have hm := read_moved hr
  obtain ⟨c2, e, h1, h2, _⟩ := unread_read hr
  unfold numberBody
  simp only [e]
  have key : ∀ (st' : Num) (s : Sig), RoundEnds false c0 (some (st', c1, s)) :=
    fun st' s => ⟨_, _, _, 1, rfl, hm, by simp, by simp⟩
  repeat' split
  all_goals first
    | exact key _ _
    | exact ⟨_, _, _, 0, rfl, ⟨h1 ▸ .refl _, h2⟩, by simp, by simp⟩

theorem string_ends (n : Nat) (c : Ctr) (h : c.rest.length < n) :
    LoopEnds false c (parseString n c) := by
  unfold parseString
  refine loop_ends (k := c.rest.length) ?_ n _ c (Nat.le_refl _) h
  intro st r c0 c1 _ hr
  have hm := read_moved hr
  unfold stringBody
  by_cases hb : r = 0x5C
  · rw [if_pos hb]
    cases hr2 : readRune c1 with
    | mk c2 o =>
      cases o with
      | none =>
        obtain ⟨_, h2, h3, _⟩ := readRune_none hr2
        exact ⟨_, _, _, 1 + 0, rfl, hm.trans ⟨h2 ▸ .refl _, h3⟩, by simp, by simp⟩
      | some e => exact ⟨_, _, _, 1 + 1, rfl, hm.trans (read_moved hr2), by simp, by simp⟩
  · rw [if_neg hb]
    split
    · exact ⟨_, _, _, 1, rfl, hm, by simp, by simp⟩
    · exact ⟨_, _, _, 1, rfl, hm, by simp, by simp⟩

theorem nested_ends {σ : Type} {strict : Bool} {c0 c1 : Ctr} {k : Nat} (st : σ) (fin : Bool) {o : Option (Ctr × Sig)}
    {b : Bool} (h : Ends b c1 o) (hm : Moved c0 k c1) (hk : 1 ≤ k ∨ (k = 0 ∧ b = true ∧ c1.rest ≠ [])) :
    RoundEnds strict c0 (nested st fin o) := by
  obtain ⟨c', s, n, rfl, hs, hm', h1⟩ := h
  refine ⟨st, c', wrap fin s, k + n, rfl, hm.trans hm', ?_, ?_⟩
  · intro e
    rcases hk with hk | ⟨rfl, hb, hne⟩
    · omega
    · have : s = .ok := by
        cases s with
        | ok => rfl
        | finished => exact absurd rfl hs
        | failed _ => cases e
      have := h1 hb this hne
      omega
  · intro _ e
    rcases hk with hk | ⟨rfl, hb, hne⟩
    · omega
    · have : s = .ok := by
        cases s with
        | ok => rfl
        | finished => exact absurd rfl hs
        | failed _ => cases e
      have := h1 hb this hne
      omega

theorem drop1_ends {σ : Type} {strict : Bool} {c : Ctr} {o : Option (σ × Ctr × Sig)} (h : LoopEnds strict c o) :
    Ends strict c (drop1 o) := by
  obtain ⟨st', c', s, n, rfl, h1, h2, h3⟩ := h
  exact ⟨c', s, n, rfl, h1, h2, h3⟩

theorem read_ne_nil {c c' : Ctr} {r : Nat} (h : readRune c = (c', some r)) : c.rest ≠ [] := by
  obtain ⟨⟨r0, w, hd, _⟩, _⟩ := readRune_some h
  intro e
  rw [e] at hd
  cases hd

theorem parsers_end (U : Uni) : ∀ f : Nat,
    (∀ b c, 2 * c.rest.length + 2 ≤ f → Ends false c (parseObject U f b c)) ∧
    (∀ k c, 2 * c.rest.length + 2 ≤ f → Ends false c (parseField U f k c)) ∧
    (∀ c, 2 * c.rest.length + 2 ≤ f → Ends false c (parseArray U f c)) ∧
    (∀ c, 2 * c.rest.length + 1 ≤ f → Ends true c (parseValue U f c)) := by
  intro f
  induction f with
  | zero => exact ⟨fun _ _ h => by omega, fun _ _ h => by omega, fun _ h => by omega, fun _ h => by omega⟩
  | succ f ih =>
    obtain ⟨iho, ihf, iha, ihv⟩ := ih
    refine ⟨fun b c hc => ?_, fun k c hc => ?_, fun c hc => ?_, fun c hc => ?_⟩
    · rw [parseObject]
      refine drop1_ends (loop_ends (k := c.rest.length) ?_ _ _ c (Nat.le_refl _) (by omega))
      intro st r c0 c1 hk hr
      have hm := read_moved hr
      have hl := hm.length
      unfold objectBody
      have key : ∀ (st' : Bool) (s : Sig), RoundEnds false c0 (some (st', c1, s)) :=
        fun st' s => ⟨_, _, _, 1, rfl, hm, by simp, by simp⟩
      by_cases h1 : isSpace r = true
      · rw [if_pos h1]; exact key _ _
      rw [if_neg h1]
      by_cases h2 : r = 0x2C
      · rw [if_pos h2]; split <;> exact key _ _
      rw [if_neg h2]
      by_cases h3 : r = 0x22
      · rw [if_pos h3]
        by_cases h4 : st = true
        · rw [if_pos h4]; exact key _ _
        rw [if_neg h4]
        obtain ⟨fld, c2, s, n, he, hs, hm2, _⟩ := string_ends f c1 (by omega)
        rw [he]
        have hl2 := hm2.length
        cases s with
        | finished => exact absurd rfl hs
        | failed e => exact ⟨_, _, _, 1 + n, rfl, hm.trans hm2, by simp [wrap], by simp [wrap]⟩
        | ok =>
          simp only
          refine nested_ends true false (b := false) ?_ (k := 1 + n) (c1 := if b = true then { c2 with counts := c2.counts.set fld ((c2.counts.get fld).getD 0 + 1) } else c2) ?_ (.inl (by omega))
          · refine ihf _ _ ?_
            split <;> (show 2 * c2.rest.length + 2 ≤ f; omega)
          · have := hm.trans hm2
            split <;> exact ⟨this.ate, this.loc⟩
      rw [if_neg h3]
      split <;> exact key _ _
    · rw [parseField]
      refine drop1_ends (loop_ends (k := c.rest.length) ?_ _ _ c (Nat.le_refl _) (by omega))
      intro st r c0 c1 hk hr
      have hm := read_moved hr
      have hl := hm.length
      unfold fieldBody
      have key : ∀ (st' : Bool) (s : Sig), RoundEnds false c0 (some (st', c1, s)) :=
        fun st' s => ⟨_, _, _, 1, rfl, hm, by simp, by simp⟩
      by_cases h1 : isSpace r = true
      · rw [if_pos h1]; exact key _ _
      rw [if_neg h1]
      by_cases h2 : r = 0x3A
      · rw [if_pos h2]; split <;> exact key _ _
      rw [if_neg h2]
      by_cases h3 : st = true
      · rw [if_pos h3]; exact key _ _
      rw [if_neg h3]
      by_cases h4 : r = 0x7B
      · rw [if_pos h4]
        split
        · refine nested_ends st true (b := false) (k := 1) (c1 := { c1 with counts := c1.counts.del k }) (iho _ _ (by simp only; omega)) ⟨hm.ate, hm.loc⟩ (.inl (by omega))
        · exact nested_ends st true (iho _ _ (by omega)) hm (.inl (by omega))
      rw [if_neg h4]
      by_cases h5 : r = 0x5B
      · rw [if_pos h5]
        exact nested_ends st true (iha _ (by omega)) hm (.inl (by omega))
      rw [if_neg h5]
      obtain ⟨c2, e, g1, g2, _⟩ := unread_read hr
      rw [e]
      simp only
      refine nested_ends st true (ihv c2 (by rw [g1]; omega)) (k := 0) ⟨g1 ▸ .refl _, g2⟩ (.inr ⟨rfl, rfl, ?_⟩)
      rw [g1]; exact read_ne_nil hr
    · rw [parseArray]
      refine drop1_ends (loop_ends (k := c.rest.length) ?_ _ _ c (Nat.le_refl _) (by omega))
      intro st r c0 c1 hk hr
      have hm := read_moved hr
      have hl := hm.length
      unfold arrayBody
      have key : ∀ (st' : Bool) (s : Sig), RoundEnds false c0 (some (st', c1, s)) :=
        fun st' s => ⟨_, _, _, 1, rfl, hm, by simp, by simp⟩
      by_cases h1 : isSpace r = true
      · rw [if_pos h1]; exact key _ _
      rw [if_neg h1]
      by_cases h2 : r = 0x2C
      · rw [if_pos h2]; split <;> exact key _ _
      rw [if_neg h2]
      by_cases h4 : r = 0x5D
      · rw [if_pos h4]; exact key _ _
      rw [if_neg h4]
      by_cases h3 : st = true
      · rw [if_pos h3]; exact key _ _
      rw [if_neg h3]
      obtain ⟨c2, e, g1, g2, _⟩ := unread_read hr
      rw [e]
      simp only
      refine nested_ends true false (ihv c2 (by rw [g1]; omega)) (k := 0) ⟨g1 ▸ .refl _, g2⟩ (.inr ⟨rfl, rfl, ?_⟩)
      rw [g1]; exact read_ne_nil hr
    · rw [parseValue]
      refine drop1_ends (loop_ends (k := c.rest.length) ?_ _ _ c (Nat.le_refl _) (by omega))
      intro st r c0 c1 hk hr
      have hm := read_moved hr
      have hl := hm.length
      unfold valueBody
      have key : ∀ (st' : Unit) (s : Sig), RoundEnds true c0 (some (st', c1, s)) :=
        fun st' s => ⟨_, _, _, 1, rfl, hm, by simp, by simp⟩
      have key2 : ∀ {c2 : Ctr} {n : Nat} (s : Sig), Moved c1 n c2 → RoundEnds true c0 (some ((), c2, s)) :=
        fun s h => ⟨_, _, _, _, rfl, hm.trans h, fun _ => by omega, fun _ _ => by omega⟩
      by_cases h1 : isSpace r = true
      · rw [if_pos h1]; exact key _ _
      rw [if_neg h1]
      by_cases h2 : runeKeyword r = true
      · rw [if_pos h2]
        obtain ⟨kw, c2, s, n, he, hs, hm2, _⟩ := keyword_ends U f r c1 (by omega)
        rw [he]
        cases s with
        | finished => exact absurd rfl hs
        | failed e => exact key2 _ hm2
        | ok => simp only; split <;> exact key2 _ hm2
      rw [if_neg h2]
      by_cases h3 : r = 0x22
      · rw [if_pos h3]
        obtain ⟨kw, c2, s, n, he, hs, hm2, _⟩ := string_ends f c1 (by omega)
        rw [he]
        exact key2 _ hm2
      rw [if_neg h3]
      by_cases h4 : (U.isDigit r || r == 0x2D) = true
      · rw [if_pos h4]
        obtain ⟨kw, c2, s, n, he, hs, hm2, _⟩ := number_ends U f c1 (by omega)
        rw [he]
        exact key2 _ hm2
      rw [if_neg h4]
      by_cases h5 : r = 0x5B
      · rw [if_pos h5]; exact nested_ends () true (iha _ (by omega)) hm (.inl (by omega))
      rw [if_neg h5]
      by_cases h6 : r = 0x7B
      · rw [if_pos h6]; exact nested_ends () true (iho _ _ (by omega)) hm (.inl (by omega))
      rw [if_neg h6]
      exact key _ _

theorem peek_moved (n : Nat) : ∀ c : Ctr, ∃ k, Moved c k (peek n c) := by
  induction n with
  | zero => intro c; exact ⟨0, .refl c⟩
  | succ n ih =>
    intro c
    unfold peek
    cases hr : readRune c with
    | mk c1 o =>
      cases o with
      | none =>
        obtain ⟨_, h2, h3, _⟩ := readRune_none hr
        exact ⟨0, h2 ▸ .refl _, h3⟩
      | some r =>
        obtain ⟨k, hk⟩ := ih c1
        exact ⟨1 + k, (read_moved hr).trans hk⟩

/-- The top level comes to an end too. -/
theorem parseWith_ends (U : Uni) (n : Nat) (c : Ctr) (h : 2 * c.rest.length + 2 ≤ n) :
    Ends false c (parseWith U n c) := by
  unfold parseWith
  refine drop1_ends (loop_ends (k := c.rest.length) ?_ _ _ c (Nat.le_refl _) (by omega))
  intro st r c0 c1 hk hr
  have hm := read_moved hr
  have hl := hm.length
  unfold parseBody
  have key : ∀ (s : Sig), RoundEnds false c0 (some ((), c1, s)) :=
    fun s => ⟨_, _, _, 1, rfl, hm, by simp, by simp⟩
  by_cases h1 : isSpace r = true
  · rw [if_pos h1]; exact key _
  rw [if_neg h1]
  by_cases h2 : r = 0x7B
  · rw [if_pos h2]
    obtain ⟨c2, s, m, he, hs, hm2, _⟩ := (parsers_end U n).1 true c1 (by omega)
    rw [he]
    simp only
    have : ∃ k, Moved c2 k (wrapStatus c2 s).1 := by
      cases s with
      | failed e => exact peek_moved 15 c2
      | _ => exact ⟨0, .refl _⟩
    obtain ⟨k, hk'⟩ := this
    have hm3 := (hm.trans hm2).trans hk'
    generalize wrapStatus c2 s = p at *
    obtain ⟨c3, s3⟩ := p
    cases s3 with
    | failed e => cases e <;> exact ⟨_, _, _, _, rfl, hm3, fun _ => by omega, by simp⟩
    | _ => exact ⟨_, _, _, _, rfl, hm3, fun _ => by omega, by simp⟩
  · rw [if_neg h2]; exact key _

/-! ### More rounds do not change the result -/

/-- `b` knows at least what `a` knows. -/
def Le {α : Type} (a b : Option α) : Prop := ∀ x, a = some x → b = some x

theorem Le.refl {α : Type} (a : Option α) : Le a a := fun _ h => h
theorem Le.none {α : Type} (a : Option α) : Le none a := fun _ h => by cases h

theorem loop_mono {σ : Type} {fn fn' : σ → Nat → Ctr → Option (σ × Ctr × Sig)}
    (h : ∀ st r c, Le (fn st r c) (fn' st r c)) :
    ∀ (n n' : Nat), n ≤ n' → ∀ st c, Le (readLoop n fn st c) (readLoop n' fn' st c) := by
  intro n
  induction n with
  | zero => intro n' _ st c; exact .none _
  | succ n ih =>
    intro n' hn st c
    obtain ⟨m, rfl⟩ : ∃ m, n' = m + 1 := ⟨n' - 1, by omega⟩
    unfold readLoop
    cases readRune c with
    | mk c1 o =>
      cases o with
      | none => exact .refl _
      | some r =>
        simp only
        cases e : fn st r c1 with
        | none => exact .none _
        | some x =>
          rw [h st r c1 x e]
          obtain ⟨st', c', s⟩ := x
          cases s with
          | ok => exact ih m (by omega) st' c'
          | _ => exact .refl _

theorem drop1_mono {σ : Type} {a b : Option (σ × Ctr × Sig)} (h : Le a b) : Le (drop1 a) (drop1 b) := by
  cases a with
  | none => exact .none _
  | some x => rw [h x rfl]; exact .refl _

theorem nested_mono {σ : Type} (st : σ) (fin : Bool) {a b : Option (Ctr × Sig)} (h : Le a b) :
    Le (nested st fin a) (nested st fin b) := by
  cases a with
  | none => exact .none _
  | some x => rw [h x rfl]; exact .refl _

theorem string_mono {n n' : Nat} (h : n ≤ n') (c : Ctr) : Le (parseString n c) (parseString n' c) :=
  loop_mono (fun _ _ _ => .refl _) n n' h _ c

theorem number_mono (U : Uni) {n n' : Nat} (h : n ≤ n') (c : Ctr) : Le (parseNumber U n c) (parseNumber U n' c) :=
  loop_mono (fun _ _ _ => .refl _) n n' h _ c

theorem keyword_mono (U : Uni) {n n' : Nat} (h : n ≤ n') (r : Nat) (c : Ctr) :
    Le (parseKeyword U n r c) (parseKeyword U n' r c) :=
  loop_mono (fun _ _ _ => .refl _) n n' h _ c

theorem object_mono {n n' : Nat} (h : n ≤ n') {pf pf' : Bytes → Parser} (hf : ∀ k c, Le (pf k c) (pf' k c))
    (b st : Bool) (r : Nat) (c : Ctr) : Le (objectBody n pf b st r c) (objectBody n' pf' b st r c) := by
  unfold objectBody
  by_cases h1 : isSpace r = true
  · rw [if_pos h1, if_pos h1]; exact .refl _
  rw [if_neg h1, if_neg h1]
  by_cases h2 : r = 0x2C
  · rw [if_pos h2, if_pos h2]; exact .refl _
  rw [if_neg h2, if_neg h2]
  by_cases h3 : r = 0x22
  · rw [if_pos h3, if_pos h3]
    by_cases h4 : st = true
    · rw [if_pos h4, if_pos h4]; exact .refl _
    rw [if_neg h4, if_neg h4]
    cases e : parseString n c with
    | none => exact .none _
    | some x =>
      rw [string_mono h c x e]
      obtain ⟨fld, c', s⟩ := x
      cases s with
      | ok => exact nested_mono _ _ (hf _ _)
      | _ => exact .refl _
  · rw [if_neg h3, if_neg h3]; exact .refl _

theorem field_mono {po po' : Bool → Parser} {pa pa' pv pv' : Parser} (ho : ∀ b c, Le (po b c) (po' b c))
    (ha : ∀ c, Le (pa c) (pa' c)) (hv : ∀ c, Le (pv c) (pv' c)) (k : Bytes) (st : Bool) (r : Nat) (c : Ctr) :
    Le (fieldBody po pa pv k st r c) (fieldBody po' pa' pv' k st r c) := by
  unfold fieldBody
  by_cases h1 : isSpace r = true
  · rw [if_pos h1, if_pos h1]; exact .refl _
  rw [if_neg h1, if_neg h1]
  by_cases h2 : r = 0x3A
  · rw [if_pos h2, if_pos h2]; exact .refl _
  rw [if_neg h2, if_neg h2]
  by_cases h3 : st = true
  · rw [if_pos h3, if_pos h3]; exact .refl _
  rw [if_neg h3, if_neg h3]
  by_cases h4 : r = 0x7B
  · rw [if_pos h4, if_pos h4]
    split
    · exact nested_mono _ _ (ho _ _)
    · exact nested_mono _ _ (ho _ _)
  rw [if_neg h4, if_neg h4]
  by_cases h5 : r = 0x5B
  · rw [if_pos h5, if_pos h5]; exact nested_mono _ _ (ha _)
  rw [if_neg h5, if_neg h5]
  cases unreadRune c with
  | mk c2 s =>
    cases s with
    | ok => exact nested_mono _ _ (hv _)
    | _ => exact .refl _

theorem array_mono {pv pv' : Parser} (hv : ∀ c, Le (pv c) (pv' c)) (st : Bool) (r : Nat) (c : Ctr) :
    Le (arrayBody pv st r c) (arrayBody pv' st r c) := by
  unfold arrayBody
  by_cases h1 : isSpace r = true
  · rw [if_pos h1, if_pos h1]; exact .refl _
  rw [if_neg h1, if_neg h1]
  by_cases h2 : r = 0x2C
  · rw [if_pos h2, if_pos h2]; exact .refl _
  rw [if_neg h2, if_neg h2]
  by_cases h4 : r = 0x5D
  · rw [if_pos h4, if_pos h4]; exact .refl _
  rw [if_neg h4, if_neg h4]
  by_cases h3 : st = true
  · rw [if_pos h3, if_pos h3]; exact .refl _
  rw [if_neg h3, if_neg h3]
  cases unreadRune c with
  | mk c2 s =>
    cases s with
    | ok => exact nested_mono _ _ (hv _)
    | _ => exact .refl _

theorem value_mono (U : Uni) {n n' : Nat} (h : n ≤ n') {po po' : Bool → Parser} {pa pa' : Parser}
    (ho : ∀ b c, Le (po b c) (po' b c)) (ha : ∀ c, Le (pa c) (pa' c)) (st : Unit) (r : Nat) (c : Ctr) :
    Le (valueBody U n po pa st r c) (valueBody U n' po' pa' st r c) := by
  unfold valueBody
  by_cases h1 : isSpace r = true
  · rw [if_pos h1, if_pos h1]; exact .refl _
  rw [if_neg h1, if_neg h1]
  by_cases h2 : runeKeyword r = true
  · rw [if_pos h2, if_pos h2]
    cases e : parseKeyword U n r c with
    | none => exact .none _
    | some x => rw [keyword_mono U h r c x e]; exact .refl _
  rw [if_neg h2, if_neg h2]
  by_cases h3 : r = 0x22
  · rw [if_pos h3, if_pos h3]
    cases e : parseString n c with
    | none => exact .none _
    | some x => rw [string_mono h c x e]; exact .refl _
  rw [if_neg h3, if_neg h3]
  by_cases h4 : (U.isDigit r || r == 0x2D) = true
  · rw [if_pos h4, if_pos h4]
    cases e : parseNumber U n c with
    | none => exact .none _
    | some x => rw [number_mono U h c x e]; exact .refl _
  rw [if_neg h4, if_neg h4]
  by_cases h5 : r = 0x5B
  · rw [if_pos h5, if_pos h5]; exact nested_mono _ _ (ha _)
  rw [if_neg h5, if_neg h5]
  by_cases h6 : r = 0x7B
  · rw [if_pos h6, if_pos h6]; exact nested_mono _ _ (ho _ _)
  rw [if_neg h6, if_neg h6]
  exact .refl _

theorem parsers_mono (U : Uni) : ∀ n n' : Nat, n ≤ n' →
    (∀ b c, Le (parseObject U n b c) (parseObject U n' b c)) ∧
    (∀ k c, Le (parseField U n k c) (parseField U n' k c)) ∧
    (∀ c, Le (parseArray U n c) (parseArray U n' c)) ∧
    (∀ c, Le (parseValue U n c) (parseValue U n' c)) := by
  intro n
  induction n with
  | zero =>
    intro n' _
    refine ⟨fun b c => ?_, fun k c => ?_, fun c => ?_, fun c => ?_⟩
    · rw [parseObject]; exact .none _
    · rw [parseField]; exact .none _
    · rw [parseArray]; exact .none _
    · rw [parseValue]; exact .none _
  | succ n ih =>
    intro n' hn
    obtain ⟨m, rfl⟩ : ∃ m, n' = m + 1 := ⟨n' - 1, by omega⟩
    obtain ⟨iho, ihf, iha, ihv⟩ := ih m (by omega)
    refine ⟨fun b c => ?_, fun k c => ?_, fun c => ?_, fun c => ?_⟩
    · rw [parseObject, parseObject]
      exact drop1_mono (loop_mono (fun st r c => object_mono (by omega) ihf b st r c) _ _ hn _ _)
    · rw [parseField, parseField]
      exact drop1_mono (loop_mono (fun st r c => field_mono iho iha ihv k st r c) _ _ hn _ _)
    · rw [parseArray, parseArray]
      exact drop1_mono (loop_mono (fun st r c => array_mono ihv st r c) _ _ hn _ _)
    · rw [parseValue, parseValue]
      exact drop1_mono (loop_mono (fun st r c => value_mono U (by omega) iho iha st r c) _ _ hn _ _)

theorem parseWith_mono (U : Uni) {n n' : Nat} (h : n ≤ n') (c : Ctr) : Le (parseWith U n c) (parseWith U n' c) := by
  unfold parseWith
  refine drop1_mono (loop_mono (fun st r c => ?_) _ _ h _ _)
  unfold parseBody
  by_cases h1 : isSpace r = true
  · rw [if_pos h1, if_pos h1]; exact .refl _
  rw [if_neg h1, if_neg h1]
  by_cases h2 : r = 0x7B
  · rw [if_pos h2, if_pos h2]
    cases e : parseObject U n true c with
    | none => exact .none _
    | some x => rw [(parsers_mono U n n' h).1 true c x e]; exact .refl _
  · rw [if_neg h2, if_neg h2]; exact .refl _

end Verif.Count
