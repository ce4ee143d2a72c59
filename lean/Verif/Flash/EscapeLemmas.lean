import Verif.Flash.Escape

set_option linter.unusedSimpArgs false

/-
Lemmas about the flash escaper: round trip on valid UTF-8 and confinement on
arbitrary bytes.
-/

namespace Verif.Flash
open Json

set_option maxRecDepth 100000 in
theorem escOf_decode (b : UInt8) : ∀ e, escOf b = some e → decodeBody e = some [b] := by
  have h : ∀ b : UInt8, (escOf b).all (fun e => decodeBody e == some [b]) = true := by
    apply forall_byte; decide +kernel
  intro e he
  have := h b
  rw [he] at this
  simpa using this

set_option maxRecDepth 100000 in
theorem escOf_none (b : UInt8) : escOf b = none →
    0x20 ≤ b ∧ b ≠ 0x22 ∧ b ≠ 0x5C ∧ (b < 0x80 → leadMore b = 0) := by
  revert b; apply forall_byte; decide +kernel

theorem escAll_char {c : Bytes} (hc : Utf8.Char1 c) :
    (∃ c', Body c' c ∧ ∀ run s, escAll run (c ++ s) = run ++ c' ++ escAll [] s) ∨
      (Body c c ∧ ∀ run s, escAll run (c ++ s) = escAll (run ++ c) s) := by
  cases hc with
  | @one a ha =>
    cases he : escOf a with
    | some e =>
      refine .inl ⟨e, body_of_decodeBody (escOf_decode a e he), fun run s => ?_⟩
      simp only [List.cons_append, List.nil_append]
      rw [escAll]; simp [he]
    | none =>
      obtain ⟨h1, h2, h3, h4⟩ := escOf_none a he
      refine .inr ⟨?_, fun run s => ?_⟩
      · exact Body.chr (c := [a]) (b := []) (s := []) (.one ha) (by simp [h1, h2, h3]) .nil
      · simp only [List.cons_append, List.nil_append]
        rw [escAll]; simp [he, h4 ha]
  | @two a b ha hb =>
    have hl : leadMore a = 1 := by
      simp only [Utf8.lead2, Bool.and_eq_true, decide_eq_true_eq] at ha
      unfold leadMore; grind
    have he := escOf_lead a (by omega)
    refine .inl ⟨[a, b], ?_, fun run s => ?_⟩
    · refine Body.chr (c := [a, b]) (b := []) (s := []) (.two ha hb) ?_ .nil
      simp [Utf8.cont, Utf8.lead2] at *; grind
    · simp only [List.cons_append, List.nil_append]
      rw [escAll, he]; simp [hl]
  | @three a b c ha hc =>
    have hl : leadMore a = 2 := by
      simp only [Utf8.lead3, Bool.and_eq_true, decide_eq_true_eq] at ha
      unfold leadMore; grind
    have he := escOf_lead a (by omega)
    refine .inl ⟨[a, b, c], ?_, fun run s => ?_⟩
    · refine Body.chr (c := [a, b, c]) (b := []) (s := []) (.three ha hc) ?_ .nil
      simp [Utf8.cont, Utf8.lead3] at *; grind
    · simp only [List.cons_append, List.nil_append]
      rw [escAll, he]; simp [hl]
  | @four a b c d ha hc hd =>
    have hl : leadMore a = 3 := by
      simp only [Utf8.lead4, Bool.and_eq_true, decide_eq_true_eq] at ha
      unfold leadMore; grind
    have he := escOf_lead a (by omega)
    refine .inl ⟨[a, b, c, d], ?_, fun run s => ?_⟩
    · refine Body.chr (c := [a, b, c, d]) (b := []) (s := []) (.four ha hc hd) ?_ .nil
      simp [Utf8.cont, Utf8.lead4] at *; grind (splits := 30)
    · simp only [List.cons_append, List.nil_append]
      rw [escAll, he]; simp [hl]

theorem escAll_valid {s : Bytes} (hs : Utf8.Valid s) :
    ∀ run, Body run run → Body (escAll run s) (run ++ s) := by
  induction hs with
  | nil => intro run hr; simpa [escAll] using hr
  | @cons c s hc _ ih =>
    intro run hr
    rcases escAll_char hc with ⟨c', hb, h⟩ | ⟨hb, h⟩
    · rw [h]
      have := (hr.append hb).append (ih [] .nil)
      simpa using this
    · rw [h]
      simpa using ih (run ++ c) (hr.append hb)

/-- The escaped form of valid UTF-8 is a legal JSON string body denoting the original. -/
theorem addEscaped_body {s : Bytes} (hs : Utf8.Valid s) : Body (addEscaped s) s := by
  rw [addEscaped_eq]
  simpa using escAll_valid hs [] .nil

/-! ### Confinement on arbitrary bytes -/

/-- The bytes of `s` that the escaper copies without looking at them, because an
earlier lead byte announced them. -/
def swallowed : Bytes → Bytes
  | [] => []
  | b :: s => s.take (leadMore b) ++ swallowed (s.drop (leadMore b))
  termination_by s => s.length
  decreasing_by simp; omega

/-- The literal for `s` is closed by the quote written after it, whatever follows. -/
def Closed (s : Bytes) : Prop :=
  ∀ r, lexString (addEscaped s ++ 0x22 :: r) = some (addEscaped s, r)

theorem lexString_none_or {c : Bytes} (h : ∀ a ∈ c, a ≠ 0x5C) (hq : (0x22 : UInt8) ∈ c) (r : Bytes) :
    ∃ b t, lexString (c ++ r) = some (b, t) ∧ b.length < c.length := by
  induction c with
  | nil => simp at hq
  | cons a c ih =>
    by_cases ha : a = 0x22
    · subst ha
      refine ⟨[], c ++ r, ?_, by simp⟩
      simp [lexString_quote]
    · have hq' : (0x22 : UInt8) ∈ c := by
        rcases List.mem_cons.1 hq with h | h
        · exact absurd h.symm ha
        · exact h
      obtain ⟨b, t, e, hl⟩ := ih (fun x hx => h x (by simp [hx])) hq'
      refine ⟨a :: b, t, ?_, by simp; omega⟩
      rw [List.cons_append, lexString_plain ha (h a (by simp)), e]; rfl

set_option maxRecDepth 100000 in
theorem escOf_lex (b : UInt8) (e : Bytes) (he : escOf b = some e) (r : Bytes) :
    lexString (e ++ r) = (lexString r).map fun (x, t) => (e ++ x, t) := by
  have h : ∀ b : UInt8, (escOf b).all (fun e => match e with
      | 0x5C :: _ :: t => t.all (fun a => a != 0x22 && a != 0x5C)
      | _ => false) = true := by
    apply forall_byte; decide +kernel
  have hb := h b
  rw [he] at hb
  simp only [Option.all_some] at hb
  split at hb
  · rename_i c t
    simp only [List.all_eq_true, Bool.and_eq_true, bne_iff_ne, ne_eq] at hb
    simp only [List.cons_append]
    rw [lexString_esc, lexString_plains (fun a ha => hb a ha)]
    cases lexString r <;> simp
  · simp at hb

theorem escAll_closed (n : Nat) : ∀ (s run : Bytes), s.length ≤ n →
    (∀ a ∈ run, a ≠ 0x22 ∧ a ≠ 0x5C) → (∀ a ∈ swallowed s, a ≠ 0x22 ∧ a ≠ 0x5C) →
    ∀ r, lexString (escAll run s ++ 0x22 :: r) = some (escAll run s, r) := by
  induction n with
  | zero =>
    intro s run hn hr _ r
    match s, hn with
    | [], _ => rw [escAll, lexString_plains hr, lexString_quote]; simp
  | succ n ih =>
    intro s run hn hr hs r
    match s with
    | [] => rw [escAll, lexString_plains hr, lexString_quote]; simp
    | b :: s =>
      simp only [List.length_cons, Nat.add_le_add_iff_right] at hn
      rw [escAll]
      rw [swallowed] at hs
      cases he : escOf b with
      | some e =>
        have hl : leadMore b = 0 := by
          by_cases h : leadMore b = 0
          · exact h
          · simp [escOf_lead b h] at he
        simp only [hl, List.take_zero, List.nil_append, List.drop_zero] at hs
        simp only [List.append_assoc]
        rw [lexString_plains hr, escOf_lex b e he, ih s [] hn (by simp) hs]
        simp
      | none =>
        obtain ⟨h1, h2, h3, _⟩ := escOf_none b he
        simp only
        split
        · rename_i hl
          simp only [hl, List.take_zero, List.nil_append, List.drop_zero] at hs
          apply ih s (run ++ [b]) hn _ hs
          intro a ha
          rcases List.mem_append.1 ha with h | h
          · exact hr a h
          · simp at h; subst h; exact ⟨h2, h3⟩
        · split
          · rename_i hl hle
            have h4 : ∀ a ∈ b :: s.take (leadMore b), a ≠ 0x22 ∧ a ≠ 0x5C := by
              intro a ha
              rcases List.mem_cons.1 ha with h | h
              · subst h; exact ⟨h2, h3⟩
              · exact hs a (by simp [h])
            have h5 := ih (s.drop (leadMore b)) [] (by simp; omega) (by simp)
              (fun a ha => hs a (by simp [ha])) r
            have e2 := lexString_plains h4 (escAll [] (s.drop (leadMore b)) ++ 0x22 :: r)
            simp only [List.append_assoc] at *
            rw [lexString_plains hr, e2, h5]
            simp
          · rename_i hl hle
            have h4 : ∀ a ∈ run ++ run ++ b :: s, a ≠ 0x22 ∧ a ≠ 0x5C := by
              intro a ha
              simp only [List.mem_append, List.mem_cons] at ha
              rcases ha with (h | h) | h | h
              · exact hr a h
              · exact hr a h
              · subst h; exact ⟨h2, h3⟩
              · apply hs a
                rw [List.take_of_length_le (by omega)]
                simp [h]
            rw [lexString_plains h4, lexString_quote]; simp

theorem escAll_open (n : Nat) : ∀ (s run : Bytes), s.length ≤ n →
    (∀ a ∈ run, a ≠ 0x22 ∧ a ≠ 0x5C) → (0x5C : UInt8) ∉ swallowed s →
    (0x22 : UInt8) ∈ swallowed s →
    ∀ r, ∃ b t, lexString (escAll run s ++ r) = some (b, t) ∧ b.length < (escAll run s).length := by
  induction n with
  | zero =>
    intro s run hn _ _ hq
    match s, hn with
    | [], _ => simp [swallowed] at hq
  | succ n ih =>
    intro s run hn hr hb hq r
    match s with
    | [] => simp [swallowed] at hq
    | b :: s =>
      simp only [List.length_cons, Nat.add_le_add_iff_right] at hn
      rw [escAll]
      rw [swallowed] at hb hq
      cases he : escOf b with
      | some e =>
        have hl : leadMore b = 0 := by
          by_cases h : leadMore b = 0
          · exact h
          · simp [escOf_lead b h] at he
        simp only [hl, List.take_zero, List.nil_append, List.drop_zero] at hb hq
        obtain ⟨x, t, e1, e2⟩ := ih s [] hn (by simp) hb hq r
        refine ⟨run ++ (e ++ x), t, ?_, by simp; omega⟩
        simp only [List.append_assoc]
        rw [lexString_plains hr, escOf_lex b e he, e1]
        simp
      | none =>
        obtain ⟨h1, h2, h3, _⟩ := escOf_none b he
        simp only
        split
        · rename_i hl
          simp only [hl, List.take_zero, List.nil_append, List.drop_zero] at hb hq
          apply ih s (run ++ [b]) hn _ hb hq
          intro a ha
          rcases List.mem_append.1 ha with h | h
          · exact hr a h
          · simp at h; subst h; exact ⟨h2, h3⟩
        · split
          · rename_i hl hle
            by_cases hq1 : (0x22 : UInt8) ∈ s.take (leadMore b)
            · obtain ⟨x, t, e1, e2⟩ := lexString_none_or (c := run ++ b :: s.take (leadMore b))
                (by
                  intro a ha
                  simp only [List.mem_append, List.mem_cons] at ha
                  rcases ha with h | h | h
                  · exact (hr a h).2
                  · subst h; exact h3
                  · rintro rfl; exact hb (by simp [h]))
                (by simp [hq1]) (escAll [] (s.drop (leadMore b)) ++ r)
              refine ⟨x, t, ?_, by simp at *; omega⟩
              rw [← e1]; simp
            · have h4 : ∀ a ∈ run ++ b :: s.take (leadMore b), a ≠ 0x22 ∧ a ≠ 0x5C := by
                intro a ha
                simp only [List.mem_append, List.mem_cons] at ha
                rcases ha with h | h | h
                · exact hr a h
                · subst h; exact ⟨h2, h3⟩
                · refine ⟨?_, ?_⟩ <;> rintro rfl
                  · exact hq1 h
                  · exact hb (by simp [h])
              have hq2 : (0x22 : UInt8) ∈ swallowed (s.drop (leadMore b)) := by
                rcases List.mem_append.1 hq with h | h
                · exact absurd h hq1
                · exact h
              obtain ⟨x, t, e1, e2⟩ := ih (s.drop (leadMore b)) [] (by simp; omega) (by simp)
                (fun h => hb (by simp [h])) hq2 r
              refine ⟨(run ++ b :: s.take (leadMore b)) ++ x, t, ?_, by simp at *; omega⟩
              have e3 := lexString_plains h4 (escAll [] (s.drop (leadMore b)) ++ r)
              simp only [List.append_assoc] at *
              rw [e3, e1]; simp
          · rename_i hl hle
            have e0 : s.take (leadMore b) = s := List.take_of_length_le (by omega)
            have e1 : s.drop (leadMore b) = [] := List.drop_eq_nil_of_le (by omega)
            rw [e0, e1] at hb hq
            apply lexString_none_or
            · intro a ha
              simp only [List.mem_append, List.mem_cons] at ha
              rcases ha with (h | h) | h | h
              · exact (hr a h).2
              · exact (hr a h).2
              · subst h; exact h3
              · rintro rfl; exact hb (by simp [h])
            · simp [swallowed] at hq; simp [hq]

/-- Valid text before a complete multi-byte group is escaped independently of it. -/
theorem escAll_valid_append {p : Bytes} (hp : Utf8.Valid p) {l : UInt8} {t : Bytes}
    (h0 : leadMore l ≠ 0) (hl : leadMore l ≤ t.length) :
    ∀ run, escAll run (p ++ l :: t) =
      escAll run p ++ (l :: t.take (leadMore l) ++ escAll [] (t.drop (leadMore l))) := by
  induction hp with
  | nil =>
    intro run
    rw [List.nil_append, escAll, escAll, escOf_lead l h0]
    simp [h0, hl]
  | @cons c s hc _ ih =>
    intro run
    rcases escAll_char hc with ⟨c', hb, h⟩ | ⟨hb, h⟩
    · rw [List.append_assoc, h, h, ih]; simp
    · rw [List.append_assoc, h, h, ih]

/-- A prefix whose body is legal is read over unchanged. -/
theorem _root_.Verif.Json.Body.lex_append {b s : Bytes} (h : Body b s) (r : Bytes) :
    lexString (b ++ r) = (lexString r).map fun (x, t) => (b ++ x, t) := by
  induction h with
  | nil => cases h : lexString r <;> simp [h]
  | esc _ _ ih =>
    simp only [List.cons_append]; rw [lexString_esc, ih]
    cases lexString r <;> simp
  | @uni h1 h2 h3 h4 n b s hn _ ih =>
    simp only [List.cons_append]; rw [lexString_esc]
    have := lexString_plains (hex4_plain hn) (b ++ r)
    simp only [List.cons_append, List.nil_append] at this
    rw [this, ih]
    cases lexString r <;> simp
  | chr _ hp _ ih =>
    rw [List.append_assoc, lexString_plains (fun a ha => (hp a ha).2), ih]
    cases lexString r <;> simp

end Verif.Flash
