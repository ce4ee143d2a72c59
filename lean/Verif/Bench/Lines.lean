import Verif.Bench.Checks

/-
What `verifyLines` reads: the lines of the output, but for an unterminated last line that
fills the buffer exactly.
-/

namespace Verif.Bench
open Go Warning

variable {F : Type}

/-- A text is cut into lines that end in a newline (left out here) and a tail without
newline. -/
inductive Cut : Bytes → List Bytes → Bytes → Prop
  | tail {t : Bytes} : (0x0A : UInt8) ∉ t → Cut t [] t
  | line {l r : Bytes} {ls : List Bytes} {t : Bytes} : (0x0A : UInt8) ∉ l → Cut r ls t →
      Cut (l ++ 0x0A :: r) (l :: ls) t

theorem cut_total : ∀ s : Bytes, ∃ ls t, Cut s ls t
  | [] => ⟨[], [], .tail (by simp)⟩
  | a :: s => by
    obtain ⟨ls, t, h⟩ := cut_total s
    by_cases ha : a = 0x0A
    · subst ha
      exact ⟨[] :: ls, t, .line (l := []) (by simp) h⟩
    · cases h with
      | tail ht => exact ⟨[], a :: s, .tail (by simp [ht, Ne.symm ha])⟩
      | @line l r ls t hl hr =>
        exact ⟨(a :: l) :: ls, t, .line (l := a :: l) (by simp [hl, Ne.symm ha]) hr⟩

/-- A tail that is made of full buffers: each has `size` bytes, or one less if the next
byte is a carriage return. -/
inductive Filled (size : Nat) : Bytes → Prop
  | nil : Filled size []
  | full {c r : Bytes} : c.length = size → c.getLast? ≠ some 0x0D → Filled size r →
      Filled size (c ++ r)
  | held {c r : Bytes} : c.length + 1 = size → Filled size (0x0D :: r) →
      Filled size (c ++ 0x0D :: r)

/-- The checks on one line. -/
def onLine (L : Lib F) (fns : List (Check F)) (line : Bytes) (m : Manager) : Manager × Option Err :=
  match getLogMap L line none m with
  | (lm, m) => match runAll line fns lm m with
    | (_, m, errs) => (m, joinErrs errs)

/-- The checks on lines in turn, up to the first error. -/
def inTurn (L : Lib F) (fns : List (Check F)) : List Bytes → Manager → Manager × Option Err
  | [], m => (m, none)
  | l :: ls, m =>
    match onLine L fns l m with
    | (m, some e) => (m, some e)
    | (m, none) => inTurn L fns ls m

theorem dropCR_append {x y : Bytes} (h : y ≠ [] ∨ x.getLast? ≠ some 0x0D) :
    dropCR (x ++ y) = x ++ dropCR y := by
  unfold dropCR
  by_cases hy : y = []
  · subst hy
    have h : x.getLast? ≠ some 0x0D := by simpa using h
    simp [h]
  · have hl : (x ++ y).getLast? = y.getLast? := by
      rw [List.getLast?_append]
      cases hl : y.getLast? with
      | none => simp at hl; exact absurd hl hy
      | some b => rfl
    by_cases hb : y.getLast? = some (0x0D : UInt8)
    · rw [if_pos hb, if_pos (hl.trans hb), List.dropLast_append_of_ne_nil hy]
    · rw [if_neg hb, if_neg (by rw [hl]; exact hb)]

/-- The result of a round that completes a line. -/
theorem loop_line (L : Lib F) (size : Nat) (fns : List (Check F)) (n : Nat) {input buffer chunk rest : Bytes}
    (m : Manager) (h : readLine size input = some (chunk, false, rest)) :
    linesLoop L size fns (n + 1) input buffer m =
      match onLine L fns (buffer ++ chunk) m with
      | (m, some e) => some (m, some e)
      | (m, none) => linesLoop L size fns n rest [] m := by
  rw [linesLoop, h]
  simp only [onLine]
  cases hg : getLogMap L (buffer ++ chunk) none m with | mk lm m1 =>
  dsimp only
  cases hr : runAll (buffer ++ chunk) fns lm m1 with | mk x y =>
  obtain ⟨m2, errs⟩ := y
  dsimp only
  unfold joinErrs
  by_cases he : errs.length > 0
  · simp [he]
  · simp [he]

theorem loop_prefix (L : Lib F) (size : Nat) (fns : List (Check F)) (n : Nat)
    {input buffer chunk rest : Bytes} (m : Manager) (h : readLine size input = some (chunk, true, rest)) :
    linesLoop L size fns (n + 1) input buffer m = linesLoop L size fns n rest (buffer ++ chunk) m := by
  rw [linesLoop, h]

theorem takeWhile_nl {l r : Bytes} (h : (0x0A : UInt8) ∉ l) :
    (l ++ 0x0A :: r).takeWhile (· != 0x0A) = l ∧ (l ++ 0x0A :: r).dropWhile (· != 0x0A) = 0x0A :: r := by
  induction l with
  | nil => simp
  | cons a l ih =>
    simp only [List.mem_cons, not_or] at h
    have ha : (a != 0x0A) = true := by simpa using Ne.symm h.1
    simp only [List.cons_append, List.takeWhile_cons, List.dropWhile_cons, ha, if_true]
    exact ⟨by rw [(ih h.2).1], (ih h.2).2⟩

/-- Reading in a stretch of at least a buffer without newline. -/
theorem readLine_long {size : Nat} (hs : 2 ≤ size) {l r : Bytes} (hl : (0x0A : UInt8) ∉ l)
    (h : size ≤ l.length) : readLine size (l ++ r) =
      if (l.take size).getLast? = some 0x0D then
        some (l.take (size - 1), true, l.drop (size - 1) ++ r)
      else some (l.take size, true, l.drop size ++ r) := by
  have h0 : l ++ r ≠ [] := by
    intro e; simp at e; rw [e.1] at h; simp at h; omega
  have e1 : (l ++ r).take size = l.take size := by
    rw [List.take_append, Nat.sub_eq_zero_of_le h]; simp
  have e2 : (l ++ r).take (size - 1) = l.take (size - 1) := by
    rw [List.take_append, Nat.sub_eq_zero_of_le (Nat.le_trans (Nat.sub_le _ _) h)]; simp
  have e3 : (l ++ r).drop size = l.drop size ++ r := by
    rw [List.drop_append, Nat.sub_eq_zero_of_le h]; simp
  have e4 : (l ++ r).drop (size - 1) = l.drop (size - 1) ++ r := by
    rw [List.drop_append, Nat.sub_eq_zero_of_le (Nat.le_trans (Nat.sub_le _ _) h)]; simp
  have e5 : (0x0A : UInt8) ∉ l.take size := fun hm => hl (List.mem_of_mem_take hm)
  unfold readLine
  rw [if_neg h0, e1, if_neg e5, e2, e3, e4, if_pos (by simp; omega)]

/-- One terminated line is read in full. -/
theorem loop_terminated (L : Lib F) {size : Nat} (hs : 2 ≤ size) (fns : List (Check F)) (r : Bytes) (m : Manager) :
    ∀ (k : Nat) (l buffer : Bytes) (n : Nat), l.length ≤ k → (0x0A : UInt8) ∉ l →
      (l ++ 0x0A :: r).length < n →
      ∃ n', r.length < n' ∧ linesLoop L size fns n (l ++ 0x0A :: r) buffer m =
        match onLine L fns (buffer ++ dropCR l) m with
        | (m, some e) => some (m, some e)
        | (m, none) => linesLoop L size fns n' r [] m := by
  intro k
  induction k with
  | zero =>
    intro l buffer n hk hl hn
    have : l = [] := by simpa using hk
    subst this
    obtain ⟨n, rfl⟩ : ∃ n', n = n' + 1 := ⟨n - 1, by simp at hn; omega⟩
    refine ⟨n, by simp at hn; omega, ?_⟩
    apply loop_line
    unfold readLine
    have : (0x0A : UInt8) ∈ ([] ++ 0x0A :: r).take size := by
      obtain ⟨s, rfl⟩ : ∃ s, size = s + 1 := ⟨size - 1, by omega⟩
      simp
    rw [if_neg (by simp), if_pos this]
    simp
  | succ k ih =>
    intro l buffer n hk hl hn
    obtain ⟨n, rfl⟩ : ∃ n', n = n' + 1 := ⟨n - 1, by simp at hn; omega⟩
    by_cases hlen : size ≤ l.length
    · have hr := readLine_long hs hl hlen (r := 0x0A :: r)
      by_cases hcr : (l.take size).getLast? = some 0x0D
      · rw [if_pos hcr] at hr
        rw [loop_prefix L size fns n m hr]
        have hne : l.drop (size - 1) ≠ [] := by
          intro e
          have := congrArg List.length e
          simp at this; omega
        obtain ⟨n', h1, h2⟩ := ih (l.drop (size - 1)) (buffer ++ l.take (size - 1)) n
          (by simp; omega) (fun hm => hl (List.mem_of_mem_drop hm)) (by simp at hn ⊢; omega)
        refine ⟨n', h1, ?_⟩
        rw [h2, List.append_assoc, ← dropCR_append (.inl hne), List.take_append_drop]
      · rw [if_neg hcr] at hr
        rw [loop_prefix L size fns n m hr]
        obtain ⟨n', h1, h2⟩ := ih (l.drop size) (buffer ++ l.take size) n
          (by simp; omega) (fun hm => hl (List.mem_of_mem_drop hm)) (by simp at hn ⊢; omega)
        refine ⟨n', h1, ?_⟩
        rw [h2, List.append_assoc, ← dropCR_append (.inr hcr), List.take_append_drop]
    · refine ⟨n, by simp at hn; omega, ?_⟩
      apply loop_line
      unfold readLine
      have : (0x0A : UInt8) ∈ (l ++ 0x0A :: r).take size := by
        rw [List.take_append]
        obtain ⟨s, hs⟩ : ∃ s, size - l.length = s + 1 := ⟨size - l.length - 1, by omega⟩
        rw [hs]; simp
      rw [if_neg (by simp), if_pos this, (takeWhile_nl hl).1, (takeWhile_nl hl).2]
      rfl

theorem filled_short {size : Nat} {t : Bytes} (h0 : t ≠ []) (h : t.length < size) : ¬ Filled size t := by
  intro hf
  cases hf with
  | nil => exact h0 rfl
  | full h1 _ _ => simp at h; omega
  | held h1 _ => simp at h; omega

theorem filled_cr {size : Nat} {t : Bytes} (h : size ≤ t.length) (h0 : 2 ≤ size)
    (hcr : (t.take size).getLast? = some 0x0D) : Filled size t ↔ Filled size (t.drop (size - 1)) := by
  have hg : t[size - 1]? = some 0x0D := by
    rw [List.getLast?_eq_getElem?, List.length_take, Nat.min_eq_left h, List.getElem?_take] at hcr
    rw [if_pos (by omega)] at hcr; exact hcr
  obtain ⟨hlt, hg'⟩ := List.getElem?_eq_some_iff.1 hg
  have hd : t.drop (size - 1) = 0x0D :: t.drop size := by
    have := List.drop_eq_getElem_cons hlt
    rw [hg'] at this
    rw [this]; congr 2; omega
  constructor
  · intro hf
    cases hf with
    | nil => simp at h; omega
    | full h1 h2 _ =>
      rw [List.take_left' h1] at hcr
      exact absurd hcr h2
    | held h1 h2 =>
      rw [List.drop_left' (by omega)]
      exact h2
  · intro hf
    rw [← List.take_append_drop (size - 1) t]
    rw [hd] at hf ⊢
    exact .held (by simp; omega) hf

theorem filled_full {size : Nat} {t : Bytes} (h : size ≤ t.length) (h0 : 2 ≤ size)
    (hcr : (t.take size).getLast? ≠ some 0x0D) : Filled size t ↔ Filled size (t.drop size) := by
  constructor
  · intro hf
    cases hf with
    | nil => simp at h; omega
    | full h1 h2 h3 => rw [List.drop_left' h1]; exact h3
    | @held c r h1 h2 =>
      exfalso; apply hcr
      rw [show c ++ 0x0D :: r = (c ++ [0x0D]) ++ r by simp, List.take_left' (by simp; omega)]
      simp
  · intro hf
    rw [← List.take_append_drop size t]
    exact .full (by simp; omega) hcr hf

open Classical in
/-- The tail is read in full, unless it is made of full buffers. -/
theorem loop_tail (L : Lib F) {size : Nat} (hs : 2 ≤ size) (fns : List (Check F)) (m : Manager) :
    ∀ (k : Nat) (t buffer : Bytes) (n : Nat), t.length ≤ k → (0x0A : UInt8) ∉ t → t.length < n →
      linesLoop L size fns n t buffer m =
        if Filled size t then some (m, none) else some (onLine L fns (buffer ++ t) m) := by
  intro k
  induction k with
  | zero =>
    intro t buffer n hk ht hn
    have : t = [] := by simpa using hk
    subst this
    obtain ⟨n, rfl⟩ : ∃ n', n = n' + 1 := ⟨n - 1, by omega⟩
    rw [if_pos .nil]
    simp [linesLoop, readLine]
  | succ k ih =>
    intro t buffer n hk ht hn
    obtain ⟨n, rfl⟩ : ∃ n', n = n' + 1 := ⟨n - 1, by omega⟩
    by_cases hlen : size ≤ t.length
    · have hr := readLine_long hs ht hlen (r := [])
      rw [List.append_nil] at hr
      by_cases hcr : (t.take size).getLast? = some 0x0D
      · rw [if_pos hcr, List.append_nil] at hr
        rw [loop_prefix L size fns n m hr, ih _ _ _ (by simp; omega)
          (fun hm => ht (List.mem_of_mem_drop hm)) (by simp; omega), List.append_assoc,
          List.take_append_drop]
        simp only [filled_cr hlen hs hcr]
      · rw [if_neg hcr, List.append_nil] at hr
        rw [loop_prefix L size fns n m hr, ih _ _ _ (by simp; omega)
          (fun hm => ht (List.mem_of_mem_drop hm)) (by simp; omega), List.append_assoc,
          List.take_append_drop]
        simp only [filled_full hlen hs hcr]
    · by_cases h0 : t = []
      · subst h0
        rw [if_pos .nil]
        simp [linesLoop, readLine]
      · rw [if_neg (filled_short h0 (by omega))]
        have : readLine size t = some (t, false, []) := by
          unfold readLine
          rw [if_neg h0, if_neg (fun hm => ht (List.mem_of_mem_take hm)), if_neg hlen]
        obtain ⟨n, rfl⟩ : ∃ n', n = n' + 1 := ⟨n - 1, by
          have := List.length_pos_iff.2 h0; omega⟩
        rw [loop_line L size fns _ m this]
        cases onLine L fns (buffer ++ t) m with | mk m1 e =>
        cases e with
        | some e => rfl
        | none => simp [linesLoop, readLine]

open Classical in
/-- The lines handed to the checks. -/
noncomputable def linesRead (size : Nat) (ls : List Bytes) (t : Bytes) : List Bytes :=
  ls.map dropCR ++ (if Filled size t then [] else [t])

theorem linesLoop_eq (L : Lib F) {size : Nat} (hs : 2 ≤ size) (fns : List (Check F)) {s : Bytes}
    {ls : List Bytes} {t : Bytes} (h : Cut s ls t) : ∀ (n : Nat) (m : Manager), s.length < n →
    linesLoop L size fns n s [] m = some (inTurn L fns (linesRead size ls t) m) := by
  induction h with
  | tail ht =>
    intro n m hn
    rw [loop_tail L hs fns m _ _ [] n (Nat.le_refl _) ht hn]
    unfold linesRead
    split
    · simp [inTurn]
    · simp only [List.map_nil, List.nil_append, inTurn]
      cases onLine L fns _ m with | mk m1 e => cases e <;> rfl
  | line hl _ ih =>
    intro n m hn
    obtain ⟨n', h1, h2⟩ := loop_terminated L hs fns _ m _ _ [] n (Nat.le_refl _) hl hn
    rw [h2]
    simp only [linesRead, List.map_cons, List.cons_append, inTurn, List.nil_append]
    cases onLine L fns _ m with | mk m1 e =>
    cases e with
    | some e => rfl
    | none => exact ih n' m1 h1

end Verif.Bench
