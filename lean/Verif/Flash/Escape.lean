import Verif.Spec.JsonParse

set_option linter.unusedSimpArgs false

/-
Model of `(*composer).addEscaped` of the flash handler,
/repo/handlers/flash/composer.go lines 159-271, and its characterisation on
every byte string.
-/

namespace Verif.Flash

/-- Local variables of `addEscaped` that change in the loop
(handlers/flash/composer.go:175-178): `out` is what has been appended to
`c.buffer` so far, `begin` the start of the run not yet appended, `uniByte` the
collected bytes of a multi-byte sequence and `uniMore` how many are missing. -/
structure EscSt where
  out : Bytes
  begin : Nat
  uniByte : Bytes
  uniMore : Nat
deriving Repr, DecidableEq

/-- The Go slice expression `s[i:j]`. -/
def slice (s : Bytes) (i j : Nat) : Bytes := (s.drop i).take (j - i)

/-- `if index > begin { c.buffer = append(c.buffer, s[begin:index]...) }`
(handlers/flash/composer.go:195-197 and its repetitions). -/
def flushRun (s : Bytes) (index : Nat) (st : EscSt) : Bytes :=
  if index > st.begin then st.out ++ slice s st.begin index else st.out

/-- `hexDigit[i]` (handlers/flash/composer.go:159): digits `0-9`, then `A-F`. -/
def hexDigit (n : UInt8) : UInt8 := if n < 10 then 0x30 + n else 0x37 + n

/-- One iteration of the loop (handlers/flash/composer.go:179-266). -/
def escStep (s : Bytes) (st : EscSt) (index : Nat) (b : UInt8) : EscSt :=
  -- 180-191: collecting the bytes of a multi-byte sequence
  if st.uniMore > 0 then
    let uniByte := st.uniByte ++ [b]
    let uniMore := st.uniMore - 1
    if uniMore < 1 then
      { out := st.out ++ uniByte, begin := index + 1, uniByte := [], uniMore := uniMore }
    else { st with uniByte := uniByte, uniMore := uniMore }
  -- 194-199: `\\`, `/`, `"`
  else if b = 0x5C ∨ b = 0x2F ∨ b = 0x22 then
    { st with out := flushRun s index st ++ [0x5C, b], begin := index + 1 }
  -- 200-229: `\b`, `\f`, `\n`, `\r`, `\t`
  else if b = 0x08 then
    { st with out := flushRun s index st ++ [0x5C, 0x62], begin := index + 1 }
  else if b = 0x0C then
    { st with out := flushRun s index st ++ [0x5C, 0x66], begin := index + 1 }
  else if b = 0x0A then
    { st with out := flushRun s index st ++ [0x5C, 0x6E], begin := index + 1 }
  else if b = 0x0D then
    { st with out := flushRun s index st ++ [0x5C, 0x72], begin := index + 1 }
  else if b = 0x09 then
    { st with out := flushRun s index st ++ [0x5C, 0x74], begin := index + 1 }
  -- 231-232: printable ASCII
  else if b ≥ 32 ∧ b < 127 then st
  -- 233-253: lead bytes of two, three and four byte sequences
  else if b &&& 0xE0 = 0xC0 then
    { st with out := flushRun s index st, uniByte := st.uniByte ++ [b], uniMore := 1 }
  else if b &&& 0xF0 = 0xE0 then
    { st with out := flushRun s index st, uniByte := st.uniByte ++ [b], uniMore := 2 }
  else if b &&& 0xF8 = 0xF0 then
    { st with out := flushRun s index st, uniByte := st.uniByte ++ [b], uniMore := 3 }
  -- 254-262: other control characters
  else if b < 128 then
    { st with
      out := flushRun s index st ++ b!"\\u00" ++
        [hexDigit (b >>> 4)] ++ [hexDigit (b &&& 0xF)],
      begin := index + 1 }
  -- 263-265: anything else is left in the run
  else st

/-- The loop `for index, b = range s` (handlers/flash/composer.go:179): `rest`
are the bytes still to be visited, the first of them at position `index`. -/
def escLoop (s : Bytes) : Nat → Bytes → EscSt → EscSt
  | _, [], st => st
  | index, b :: rest, st => escLoop s (index + 1) rest (escStep s st index b)

/-- `addEscaped` (handlers/flash/composer.go:174-271): the bytes it appends to
the buffer. After the loop `index` is the last index visited, 0 if there was
none. -/
def addEscaped (s : Bytes) : Bytes :=
  let st := escLoop s 0 s { out := [], begin := 0, uniByte := [], uniMore := 0 }
  let index := s.length - 1
  -- 268-270
  if index ≥ st.begin ∧ index < s.length then st.out ++ slice s st.begin (index + 1) else st.out

/-! ### Characterisation without indices

`escAll run s` is what is appended from a point where `run` is the pending run
(bytes since `begin`) and `s` the unread input. -/

/-- Escape of a single byte, if it is escaped. -/
def escOf (b : UInt8) : Option Bytes :=
  if b = 0x5C ∨ b = 0x2F ∨ b = 0x22 then some [0x5C, b]
  else if b = 0x08 then some [0x5C, 0x62]
  else if b = 0x0C then some [0x5C, 0x66]
  else if b = 0x0A then some [0x5C, 0x6E]
  else if b = 0x0D then some [0x5C, 0x72]
  else if b = 0x09 then some [0x5C, 0x74]
  else if b < 32 ∨ b = 127 then
    some [0x5C, 0x75, 0x30, 0x30, hexDigit (b >>> 4), hexDigit (b &&& 0xF)]
  else none

/-- How many bytes a lead byte announces (0: not a lead byte). -/
def leadMore (b : UInt8) : Nat :=
  if 0xC0 ≤ b ∧ b < 0xE0 then 1
  else if 0xE0 ≤ b ∧ b < 0xF0 then 2
  else if 0xF0 ≤ b ∧ b < 0xF8 then 3
  else 0

/-- Index-free description of the bytes appended by `addEscaped`. -/
def escAll (run : Bytes) : Bytes → Bytes
  | [] => run
  | b :: s =>
    match escOf b with
    | some e => run ++ e ++ escAll [] s
    | none =>
      if leadMore b = 0 then escAll (run ++ [b]) s
      else if leadMore b ≤ s.length then
        run ++ b :: s.take (leadMore b) ++ escAll [] (s.drop (leadMore b))
      else run ++ run ++ b :: s
  termination_by s => s.length

set_option maxRecDepth 100000 in
theorem mask2 (b : UInt8) : (b &&& 0xE0 = 0xC0) ↔ (0xC0 ≤ b ∧ b < 0xE0) := by
  revert b; apply forall_byte; decide +kernel
set_option maxRecDepth 100000 in
theorem mask3 (b : UInt8) : (b &&& 0xF0 = 0xE0) ↔ (0xE0 ≤ b ∧ b < 0xF0) := by
  revert b; apply forall_byte; decide +kernel
set_option maxRecDepth 100000 in
theorem mask4 (b : UInt8) : (b &&& 0xF8 = 0xF0) ↔ (0xF0 ≤ b ∧ b < 0xF8) := by
  revert b; apply forall_byte; decide +kernel

set_option maxRecDepth 100000 in
theorem escOf_lead (b : UInt8) : leadMore b ≠ 0 → escOf b = none := by
  revert b; apply forall_byte; decide +kernel

/-- Outside a multi-byte sequence the loop body does one of three things. -/
theorem escStep_idle (s : Bytes) (st : EscSt) (index : Nat) (b : UInt8) (h : st.uniMore = 0)
    (hu : st.uniByte = []) :
    escStep s st index b =
      match escOf b with
      | some e => { st with out := flushRun s index st ++ e, begin := index + 1 }
      | none =>
        if leadMore b = 0 then st
        else { st with out := flushRun s index st, uniByte := [b], uniMore := leadMore b } := by
  unfold escStep escOf
  simp only [h, Nat.lt_irrefl, if_false, gt_iff_lt, mask2, mask3, mask4, hu, List.nil_append]
  by_cases h1 : b = 0x5C ∨ b = 0x2F ∨ b = 0x22
  · simp [h1]
  by_cases h2 : b = 0x08
  · subst h2; rfl
  by_cases h3 : b = 0x0C
  · subst h3; rfl
  by_cases h4 : b = 0x0A
  · subst h4; rfl
  by_cases h5 : b = 0x0D
  · subst h5; rfl
  by_cases h6 : b = 0x09
  · subst h6; rfl
  simp only [h1, h2, h3, h4, h5, h6, if_false]
  unfold leadMore
  by_cases h7 : b ≥ 32 ∧ b < 127
  · have e1 : ¬ (b < 32 ∨ b = 127) := by grind
    have e2 : ¬ (0xC0 ≤ b ∧ b < 0xE0) := by grind
    have e3 : ¬ (0xE0 ≤ b ∧ b < 0xF0) := by grind
    have e4 : ¬ (0xF0 ≤ b ∧ b < 0xF8) := by grind
    simp [h7, e1, e2, e3, e4]
  by_cases h8 : 0xC0 ≤ b ∧ b < 0xE0
  · have e1 : ¬ (b < 32 ∨ b = 127) := by grind
    simp only [h7, h8, e1, if_false, if_true]; simp
  by_cases h9 : 0xE0 ≤ b ∧ b < 0xF0
  · have e1 : ¬ (b < 32 ∨ b = 127) := by grind
    simp only [h7, h8, h9, e1, if_false, if_true]; simp
  by_cases h10 : 0xF0 ≤ b ∧ b < 0xF8
  · have e1 : ¬ (b < 32 ∨ b = 127) := by grind
    simp only [h7, h8, h9, h10, e1, if_false, if_true]; simp
  by_cases h11 : b < 128
  · have e1 : b < 32 ∨ b = 127 := by grind
    simp only [h7, h8, h9, h10, h11, e1, if_false, if_true]; simp
  · have e1 : ¬ (b < 32 ∨ b = 127) := by grind
    simp only [h7, h8, h9, h10, h11, e1, if_false, if_true]

/-- Collecting a complete multi-byte sequence. -/
theorem escLoop_collect (s : Bytes) (m : Nat) :
    ∀ (xs rest : Bytes) (index : Nat) (st : EscSt), st.uniMore = m + 1 → xs.length = m + 1 →
    escLoop s index (xs ++ rest) st =
      escLoop s (index + m + 1) rest
        { out := st.out ++ (st.uniByte ++ xs), begin := index + m + 1, uniByte := [],
          uniMore := 0 } := by
  induction m with
  | zero =>
    intro xs rest index st hm hx
    match xs, hx with
    | [x], _ => simp [escLoop, escStep, hm]
  | succ m ih =>
    intro xs rest index st hm hx
    match xs, hx with
    | x :: xs, hx =>
      simp only [List.cons_append, escLoop]
      rw [ih xs rest (index + 1) _ (by simp [escStep, hm]) (by simpa using hx)]
      simp only [escStep, hm]
      simp
      congr 1 <;> grind

/-- Input that ends inside a multi-byte sequence. -/
theorem escLoop_truncated (s : Bytes) :
    ∀ (rest : Bytes) (index : Nat) (st : EscSt), rest.length < st.uniMore →
    (escLoop s index rest st).out = st.out ∧ (escLoop s index rest st).begin = st.begin := by
  intro rest
  induction rest with
  | nil => intro index st _; simp [escLoop]
  | cons b rest ih =>
    intro index st h
    simp only [List.length_cons] at h
    simp only [escLoop]
    have hs : escStep s st index b =
        { st with uniByte := st.uniByte ++ [b], uniMore := st.uniMore - 1 } := by
      have h1 : st.uniMore > 0 := by omega
      have h2 : ¬ (st.uniMore - 1 < 1) := by omega
      simp [escStep, h1, h2]
    rw [hs]
    have := ih (index + 1) { st with uniByte := st.uniByte ++ [b], uniMore := st.uniMore - 1 }
      (by simp; omega)
    simpa using this

/-- The append after the loop (handlers/flash/composer.go:268-270). -/
theorem finish_eq (s : Bytes) (st : EscSt) :
    (if s.length - 1 ≥ st.begin ∧ s.length - 1 < s.length then
      st.out ++ slice s st.begin (s.length - 1 + 1) else st.out) = st.out ++ s.drop st.begin := by
  split
  · rename_i hc
    have : s.length - 1 + 1 = s.length := by omega
    rw [this, slice, ← List.length_drop, List.take_length]
  · rename_i hc
    have : s.length ≤ st.begin := by omega
    simp [List.drop_eq_nil_of_le this]

theorem flushRun_eq (s : Bytes) (index : Nat) (st : EscSt) :
    flushRun s index st = st.out ++ slice s st.begin index := by
  unfold flushRun
  split
  · rfl
  · rename_i h
    have : index - st.begin = 0 := by omega
    simp [slice, this]

theorem slice_self (s : Bytes) (i : Nat) : slice s i i = [] := by simp [slice]

theorem slice_snoc {s pre : Bytes} {b : UInt8} {rest : Bytes} {i : Nat} (hs : s = pre ++ b :: rest)
    (hi : i ≤ pre.length) : slice s i (pre.length + 1) = slice s i pre.length ++ [b] := by
  subst hs
  unfold slice
  have h : (pre ++ b :: rest).drop i = pre.drop i ++ b :: rest := List.drop_append_of_le_length hi
  rw [h]
  have hl : (pre.drop i).length = pre.length - i := by simp
  have e1 : (pre.drop i ++ b :: rest).take (pre.length + 1 - i) = pre.drop i ++ [b] := by
    have : pre.length + 1 - i = (pre.drop i).length + 1 := by omega
    rw [this, List.take_length_add_append]
    simp
  have e2 : (pre.drop i ++ b :: rest).take (pre.length - i) = pre.drop i := by
    rw [← hl, List.take_left']
    rfl
  rw [e1, e2]

theorem drop_eq_slice {s pre rest : Bytes} {i : Nat} (hs : s = pre ++ rest) (hi : i ≤ pre.length) :
    s.drop i = slice s i pre.length ++ rest := by
  subst hs
  rw [slice, List.drop_append_of_le_length hi]
  have hl : (pre.drop i).length = pre.length - i := by simp
  rw [← hl, List.take_left' rfl]

/-- Loop invariant: from an idle state the loop and the final append produce `escAll`. -/
theorem escLoop_idle (s : Bytes) (n : Nat) : ∀ (rest pre : Bytes) (st : EscSt),
    rest.length ≤ n → s = pre ++ rest → st.uniMore = 0 → st.uniByte = [] → st.begin ≤ pre.length →
    (escLoop s pre.length rest st).begin ≤ s.length ∧
    (escLoop s pre.length rest st).out ++ s.drop (escLoop s pre.length rest st).begin =
      st.out ++ escAll (slice s st.begin pre.length) rest := by
  induction n with
  | zero =>
    intro rest pre st hn hs h0 hu hb
    match rest, hn with
    | [], _ =>
      simp only [escLoop, escAll]
      simp at hs
      subst hs
      refine ⟨hb, ?_⟩
      rw [slice, ← List.length_drop, List.take_length]
  | succ n ih =>
    intro rest pre st hn hs h0 hu hb
    match rest with
    | [] =>
      simp only [escLoop, escAll]
      simp at hs
      subst hs
      refine ⟨hb, ?_⟩
      rw [slice, ← List.length_drop, List.take_length]
    | b :: rest =>
      simp only [List.length_cons, Nat.add_le_add_iff_right] at hn
      have hs' : s = (pre ++ [b]) ++ rest := by simp [hs]
      have hlen : (pre ++ [b]).length = pre.length + 1 := by simp
      simp only [escLoop]
      rw [escStep_idle s st pre.length b h0 hu, escAll]
      cases he : escOf b with
      | some e =>
        simp only
        have key := ih rest (pre ++ [b])
          { st with out := flushRun s pre.length st ++ e, begin := pre.length + 1 } hn hs' h0 hu
          (by simp)
        rw [hlen] at key
        refine ⟨key.1, ?_⟩
        rw [key.2]
        simp [flushRun_eq, slice_self]
      | none =>
        simp only
        by_cases hl : leadMore b = 0
        · simp only [hl, if_true]
          have key := ih rest (pre ++ [b]) st hn hs' h0 hu (by simp; omega)
          rw [hlen] at key
          refine ⟨key.1, ?_⟩
          rw [key.2, slice_snoc hs hb]
        · simp only [hl, if_false]
          obtain ⟨m, hm⟩ := Nat.exists_eq_succ_of_ne_zero hl
          by_cases hle : leadMore b ≤ rest.length
          · simp only [hle, if_true]
            have hsplit : rest = rest.take (m + 1) ++ rest.drop (m + 1) := by simp
            have hc := escLoop_collect s m (rest.take (m + 1)) (rest.drop (m + 1)) (pre.length + 1)
              { st with out := flushRun s pre.length st, uniByte := [b], uniMore := leadMore b }
              hm (by simp; omega)
            rw [← hsplit] at hc
            rw [hc]
            have key := ih (rest.drop (m + 1)) (pre ++ b :: rest.take (m + 1))
              { out := flushRun s pre.length st ++ ([b] ++ rest.take (m + 1)),
                begin := pre.length + 1 + m + 1, uniByte := [], uniMore := 0 }
              (by simp; omega) (by simp [hs]) rfl rfl (by simp; omega)
            have hlen2 : (pre ++ b :: rest.take (m + 1)).length = pre.length + 1 + m + 1 := by
              simp; omega
            rw [hlen2] at key
            refine ⟨key.1, ?_⟩
            rw [key.2, hm]
            simp [flushRun_eq, slice_self]
          · simp only [hle, if_false]
            have ht := escLoop_truncated s rest (pre.length + 1)
              { st with out := flushRun s pre.length st, uniByte := [b], uniMore := leadMore b }
              (by simp; omega)
            simp only at ht
            rw [ht.1, ht.2]
            have hb' : st.begin ≤ s.length := by rw [hs]; simp; omega
            refine ⟨hb', ?_⟩
            rw [drop_eq_slice hs hb, flushRun_eq]
            simp

/-- On every byte string `addEscaped` appends exactly `escAll [] s`. -/
theorem addEscaped_eq (s : Bytes) : addEscaped s = escAll [] s := by
  have key := escLoop_idle s s.length s [] { out := [], begin := 0, uniByte := [], uniMore := 0 }
    (Nat.le_refl _) rfl rfl rfl (Nat.le_refl _)
  simp only [List.length_nil] at key
  unfold addEscaped
  simp only
  rw [finish_eq s _, key.2]
  simp [slice]

end Verif.Flash
