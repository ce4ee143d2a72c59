import Verif.Data.WarnParser

/-
How the patterns of the warning parser treat the lines of a report.
-/

set_option linter.unusedSimpArgs false

namespace Verif.Data
open Go

/-! ### Patterns that do not match -/

theorem find_lead {c a : UInt8} {p t : Bytes} {r : Re} (hs : isS a = false) (h : a ≠ c) :
    (Re.cat (.star isS) (.cat (.lit (c :: p)) r)).find (a :: t) = none := by
  unfold Re.find
  rw [run_cat, run_nospace (by rintro b t' e; cases e; exact hs)]
  simp only [Re.run]
  have : stripPrefix (c :: p) (a :: t) = none := by
    unfold stripPrefix
    rw [if_neg (Ne.symm h)]
  rw [this]

theorem find_lit {c a : UInt8} {p t : Bytes} {r : Re} (h : a ≠ c) :
    (Re.cat (.lit (c :: p)) r).find (a :: t) = none := by
  unfold Re.find
  simp only [Re.run]
  have : stripPrefix (c :: p) (a :: t) = none := by
    unfold stripPrefix
    rw [if_neg (Ne.symm h)]
  rw [this]

theorem find_log {a : UInt8} {t : Bytes} (hs : isS a = false) (h : a ≠ 0x7B) : ptnLogLine.find (a :: t) = none := by
  unfold ptnLogLine Re.find seq seq
  rw [run_cat, run_nospace (by rintro b t' e; cases e; exact hs)]
  simp only [Re.run]
  have : stripPrefix b!"{" (a :: t) = none := by
    unfold stripPrefix
    rw [if_neg (Ne.symm h)]
  rw [this]

theorem find_digit {a : UInt8} {t : Bytes} (hs : isS a = false) (h : isD a = false) : ptnWarning.find (a :: t) = none := by
  unfold ptnWarning Re.find seq seq
  rw [run_cat, run_nospace (by rintro b t' e; cases e; exact hs), run_cat]
  simp [Re.run, h]

/-- A word: no white space. -/
def Word (w : Bytes) : Prop := ∀ a ∈ w, isNS a = true

/-- What may follow a function name on its line. -/
def Tail (r : Bytes) : Prop := r = [] ∨ ∃ t, r = 0x3A :: t

/-- A literal followed by white space is not found in a word. -/
theorem word_then_space {w F r t : Bytes} {a : UInt8} (hF : Word F) (hr : Tail r)
    (hw : ∀ b ∈ w, b ≠ 0x3A) (e : F ++ r = w ++ a :: t) (ha : isS a = true) : False := by
  have colon : ∀ {x : Bytes}, r = a :: x → False := by
    intro x hx
    rcases hr with rfl | ⟨t', rfl⟩
    · cases hx
    · cases hx; revert ha; decide
  rcases List.append_eq_append_iff.1 e with ⟨c, h1, h2⟩ | ⟨c, h1, h2⟩
  · cases c with
    | nil => exact colon (x := t) (by simpa using h2)
    | cons b c =>
      rcases hr with rfl | ⟨t', rfl⟩
      · cases h2
      · rw [List.cons_append] at h2
        injection h2 with hb _
        exact hw b (by rw [h1]; simp) hb.symm
  · cases c with
    | nil => exact colon (x := t) (by simpa using h2.symm)
    | cons b c =>
      rw [List.cons_append] at h2
      injection h2 with hb _
      subst hb
      have := hF a (by rw [h1]; simp)
      unfold isNS at this
      rw [ha] at this; cases this

/-- A literal followed by white space only is not found in a word unless it is the word. -/
theorem word_then_end {w F r t : Bytes} (hF : Word F) (hr : Tail r) (hw : ∀ b ∈ w, b ≠ 0x3A)
    (e : F ++ r = w ++ t) (ht : ∀ a ∈ t, isS a = true) : F = w ∧ r = [] := by
  cases t with
  | nil =>
    rw [List.append_nil] at e
    rcases hr with rfl | ⟨t', rfl⟩
    · exact ⟨by simpa using e, rfl⟩
    · exact absurd rfl (hw 0x3A (by rw [← e]; simp))
  | cons a t => exact (word_then_space hF hr hw e (ht a (by simp))).elim

theorem lang_seq_star {p : UInt8 → Bool} {r : Re} {s u : Bytes} (h : Lang (.cat (.star p) r) s u) :
    ∃ v t, s = v ++ t ∧ (∀ a ∈ v, p a = true) ∧ Lang r t u := by
  cases h with
  | cat h1 h2 =>
    obtain ⟨v, rfl, hv⟩ := lang_star h1
    exact ⟨v, _, rfl, hv, h2⟩

theorem word_head {F r : Bytes} (hF : Word F) (h0 : F ≠ []) {v t : Bytes} (hv : ∀ a ∈ v, isS a = true)
    (e : F ++ r = v ++ t) : v = [] := by
  cases v with
  | nil => rfl
  | cons a v =>
    cases F with
    | nil => exact absurd rfl h0
    | cons b F =>
      rw [List.cons_append, List.cons_append] at e
      injection e with hb _
      subst hb
      have h1 := hF b (by simp)
      have h2 := hv b (by simp)
      unfold isNS at h1
      rw [h2] at h1; cases h1

/-- A pattern of white space, a literal and white space. -/
theorem find_word_space {w F r : Bytes} {q : Re} (hF : Word F) (h0 : F ≠ []) (hr : Tail r) (hw : ∀ b ∈ w, b ≠ 0x3A) :
    (Re.cat (.star isS) (.cat (.lit w) (.cat (.one isS) q))).find (F ++ r) = none := by
  rw [Re.find_none]
  intro u h
  obtain ⟨v, t, e, hv, h⟩ := lang_seq_star h
  have := word_head hF h0 hv e
  subst this
  rw [List.nil_append] at e
  cases h with
  | cat h1 h2 =>
    cases h1
    cases h2 with
    | cat h3 _ =>
      cases h3 with
      | one ha => exact word_then_space hF hr hw e ha

theorem find_word_end {w F r : Bytes} (hF : Word F) (h0 : F ≠ []) (hr : Tail r) (hw : ∀ b ∈ w, b ≠ 0x3A)
    (hn : ¬ (F = w ∧ r = [])) :
    (Re.cat (.star isS) (.cat (.lit w) (.cat (.star isS) .eot))).find (F ++ r) = none := by
  rw [Re.find_none]
  intro u h
  obtain ⟨v, t, e, hv, h⟩ := lang_seq_star h
  have := word_head hF h0 hv e
  subst this
  rw [List.nil_append] at e
  cases h with
  | cat h1 h2 =>
    cases h1
    obtain ⟨v', t', rfl, hv', h2⟩ := lang_seq_star h2
    cases h2
    rw [List.append_nil] at e
    exact hn (word_then_end hF hr hw e hv')

/-- The pattern of warnings on a line that starts with a function name. -/
theorem find_warning_word {F r : Bytes} (hF : Word F) (h0 : F ≠ []) (hr : Tail r) : ptnWarning.find (F ++ r) = none := by
  rw [Re.find_none]
  intro u h
  obtain ⟨v, t, e, hv, h⟩ := lang_seq_star h
  have := word_head hF h0 hv e
  subst this
  rw [List.nil_append] at e
  cases h with
  | cat h1 h2 =>
    cases h1 with
    | @one _ d t' hd =>
      obtain ⟨ds, t'', e2, hds, h2⟩ := lang_seq_star h2
      cases h2 with
      | cat h3 _ =>
        cases h3 with
        | @one _ a t3 ha =>
          refine word_then_space (w := d :: ds) hF hr ?_ (by rw [e, e2]; rfl) ha
          intro b hb
          have hb' : isD b = true := by
            rcases List.mem_cons.1 hb with rfl | hb
            · exact hd
            · exact hds b hb
          rintro rfl
          revert hb'; decide

theorem lang_eot {s t : Bytes} (h : Lang .eot s t) : s = [] := by
  cases h; rfl

/-- The pattern of levels on a line of two words. -/
theorem find_level_two {s : Bytes} {v w : Bytes} {a b : UInt8} (e : s = v ++ a :: w) (ha : isS a = true) (hb : b ∈ w)
    (hb' : isS b = false) (h0 : ∀ c t, s = c :: t → isS c = false) : ptnLevel.find s = none := by
  rw [Re.find_none]
  intro u h
  obtain ⟨v1, t, e1, hv1, h⟩ := lang_seq_star h
  have : v1 = [] := by
    cases v1 with
    | nil => rfl
    | cons c v1 =>
      have := h0 c (v1 ++ t) (by rw [e1]; rfl)
      rw [hv1 c (by simp)] at this; cases this
  subst this
  rw [List.nil_append] at e1
  cases h with
  | cat h1 h2 =>
    cases h1 with
    | cap h1 =>
      cases h1 with
      | cat h1 h1' =>
        cases h1 with
        | @one _ c t' hc =>
          obtain ⟨x, hx, hx'⟩ := lang_star h1'
          obtain ⟨y, t3, e3, hy, h2⟩ := lang_seq_star h2
          have := lang_eot h2
          subst this
          rw [List.append_nil] at e3
          -- s = (c :: x) ++ y with c :: x a word and y white space
          have es : s = (c :: x) ++ y := by rw [e1, hx, e3]; rfl
          rw [e] at es
          rcases List.append_eq_append_iff.1 es with ⟨q, h1, h2⟩ | ⟨q, h1, h2⟩
          · cases q with
            | nil =>
              have : b ∈ y := by
                have : a :: w = y := by simpa using h2
                rw [← this]; simp [hb]
              rw [hy b this] at hb'; cases hb'
            | cons z q =>
              rw [List.cons_append] at h2
              injection h2 with hz _
              subst hz
              have hm : a ∈ c :: x := by rw [h1]; simp
              have : isNS a = true := by
                rcases List.mem_cons.1 hm with rfl | hm
                · exact hc
                · exact hx' a hm
              unfold isNS at this
              rw [ha] at this; cases this
          · have : b ∈ y := by rw [h2]; simp [hb]
            rw [hy b this] at hb'; cases hb'

/-! ### Patterns that match -/

theorem stripPrefix_nil (p : Bytes) (a : UInt8) : stripPrefix (a :: p) [] = none := rfl

/-- The line with the name of the handler. -/
theorem find_warningsFor {N : Bytes} (hN : ∀ a ∈ N, isDot a = true) (h0 : ∀ a t, N = a :: t → isS a = false) :
    ∃ m, ptnWarningsFor.find (b!"Warnings for " ++ N ++ b!":") = some m ∧ Caps.text m 1 = N := by
  refine ⟨[(1, N)], ?_, by simp [Caps.text, Map.get_cons]⟩
  unfold ptnWarningsFor Re.find
  simp only [seq]
  rw [List.append_assoc, run_cat, run_nospace (by rintro b t' e; cases e; decide), run_cat]
  rw [show b!"Warnings for " ++ (N ++ b!":") = b!"Warnings" ++ (0x20 :: (b!"for" ++ (0x20 :: (N ++ b!":")))) from rfl,
    run_lit, run_cat, run_one _ (by decide), run_cat, run_nospace (by rintro b t' e; cases e; decide), run_cat, run_lit, run_cat,
    run_one _ (by decide), run_cat, run_nospace ?_, run_cat, run_cap]
  · refine run_star_last hN ?_ ?_
    · intro a t' e t'' ht
      cases e
      cases ht
      simp [Re.run, stripPrefix]
    · rw [take_diff, run_cat, show Map.set ([] : Caps) 1 N = [(1, N)] from rfl]
      show (Re.lit b!":").run _ (b!":" ++ []) _ = _
      rw [run_lit]
      exact run_end (u := []) (by simp)
  · intro b t' e
    cases N with
    | nil => cases e; decide
    | cons c N => cases e; exact h0 b N rfl

/-- A text that can stand alone on a line: neither starts nor ends with white space. -/
structure Trim (s : Bytes) : Prop where
  first : ∀ a t, s = a :: t → isS a = false
  last : ∀ a t, s = t ++ [a] → isS a = false
  dots : ∀ a ∈ s, isDot a = true

theorem Trim.suffix_has {s v w : Bytes} (h : Trim s) (e : s = v ++ w) (hw : w ≠ []) : ∃ a ∈ w, isS a = false := by
  obtain ⟨w', a, rfl⟩ : ∃ w' a, w = w' ++ [a] := ⟨w.dropLast, w.getLast hw, (List.dropLast_concat_getLast hw).symm⟩
  exact ⟨a, by simp, h.last a (v ++ w') (by rw [e, List.append_assoc])⟩

/-- A lazy group at the end of a line takes the whole trimmed text. -/
theorem run_tail {i : Nat} {s : Bytes} (hs : ∀ v w, s = v ++ w → w ≠ [] → ∃ a ∈ w, isS a = false)
    (hd : ∀ a ∈ s, isDot a = true) (m : Caps) :
    (Re.cat (.cap i (.lazy isDot)) (.cat (.star isS) .eot)).run (fun _ m => some m) s m = some (m.set i s) := by
  rw [run_cat, run_cap]
  have := run_lazy (p := isDot) (u := s) (t := []) (m := m) (r := m.set i s)
    (k := fun t m => (Re.cat (.star isS) .eot).run (fun _ m => some m) t
      (m.set i (s.take (s.length - t.length)))) hd ?_ ?_
  · rw [List.append_nil] at this; exact this
  · intro v w e hw
    obtain ⟨a, ha, ha'⟩ := hs v w e hw
    rw [List.append_nil]
    exact run_end_none ha ha'
  · simp only [List.length_nil, Nat.sub_zero, List.take_length]
    exact run_end (u := []) (by simp)

/-- The line of a warning. -/
theorem find_warning {d : UInt8} {ds W S : Bytes} (hd : isD d = true) (hds : ∀ a ∈ ds, isD a = true)
    (hW : ∀ a ∈ W, isDot a = true) (hS : Trim S) (hb : ∀ a ∈ S, a ≠ 0x5D) {sp : Bytes}
    (hsp : ∀ a ∈ sp, isS a = true) :
    ∃ m, ptnWarning.find (d :: ds ++ b!" [" ++ W ++ b!"]" ++ sp ++ S) = some m ∧ Caps.text m 1 = W ∧ Caps.text m 2 = S := by
  refine ⟨[(1, W), (2, S)], ?_, by simp [Caps.text, Map.get_cons], by simp [Caps.text, Map.get_cons]⟩
  unfold ptnWarning Re.find
  simp only [seq]
  have hd' : isS d = false := by
    revert hd
    have := forall_byte (P := fun d => isD d = true → isS d = false) (by decide +kernel)
    exact this d
  simp only [List.append_assoc, List.cons_append]
  rw [run_cat, run_nospace (by rintro b t' e; cases e; exact hd'), run_cat, run_one _ hd, run_cat]
  refine run_star hds (by rintro a t' e; cases e; decide) ?_
  rw [run_cat]
  show (Re.one isS).run _ (0x20 :: (b!"[" ++ (W ++ (b!"]" ++ (sp ++ S))))) [] = _
  rw [run_one _ (by decide), run_cat, run_nospace (by rintro b t' e; cases e; decide), run_cat, run_lit, run_cat, run_cap]
  refine run_star_last hW ?_ ?_
  · intro a t' e t'' ht
    have e : a :: t' = 0x5D :: (sp ++ S) := e.symm
    cases e
    obtain ⟨u, hu, _⟩ := lang_star ht
    rw [run_cat]
    cases t'' with
    | nil => simp [Re.run, stripPrefix]
    | cons c t'' =>
      have hc : c ≠ 0x5D := by
        have : c ∈ sp ++ S := by rw [hu]; simp
        rcases List.mem_append.1 this with h | h
        · intro e; subst e
          have := hsp _ h
          revert this; decide
        · exact hb c h
      simp [Re.run, stripPrefix, Ne.symm hc]
  · rw [take_diff, run_cat, run_lit, run_cat]
    refine run_star hsp (fun a t' e => hS.first a t' e) ?_
    rw [show Map.set ([] : Caps) 1 W = [(1, W)] from rfl]
    exact run_tail (fun v w e hw => hS.suffix_has e hw) hS.dots _

/-- The line of an instance without text. -/
theorem find_instance {F : Bytes} (hF : Word F) (h0 : F ≠ []) :
    ∃ m, ptnInstance.find F = some m ∧ Caps.text m 1 = F ∧ Caps.text m 2 = [] := by
  refine ⟨[(1, F)], ?_, by simp [Caps.text, Map.get_cons], by simp [Caps.text, Map.get_cons, Map.get_nil]⟩
  obtain ⟨a, F, rfl⟩ := List.exists_cons_of_ne_nil h0
  have ha : isNS a = true := hF a (by simp)
  have ha' : isS a = false := by simpa [isNS] using ha
  unfold ptnInstance Re.find
  simp only [seq]
  rw [run_cat, run_nospace (by rintro b t' e; cases e; exact ha'), run_cat, run_cap, run_cat, run_one _ ha]
  have := run_star (p := isNS) (u := F) (t := []) (m := ([] : Caps)) (r := [(1, a :: F)])
    (k := fun t m => (Re.cat (.opt (.cat (.lit b!":") (.cat (.star isS) (.cap 2 (.lazy isDot))))) (.cat (.star isS) .eot)).run
      (fun _ m => some m) t (m.set 1 ((a :: F).take ((a :: F).length - t.length))))
    (fun b hb => hF b (by simp [hb])) (by simp) ?_
  · rw [List.append_nil] at this
    exact this
  · simp [Re.run, starRun, stripPrefix, Map.set]

/-- The line of an instance with text. -/
theorem find_instance_text {F T : Bytes} (hF : Word F) (h0 : F ≠ []) (hT : Trim T) (hT0 : T ≠ []) :
    ∃ m, ptnInstance.find (F ++ b!": " ++ T) = some m ∧ Caps.text m 1 = F ∧ Caps.text m 2 = T := by
  refine ⟨[(1, F), (2, T)], ?_, by simp [Caps.text, Map.get_cons], by simp [Caps.text, Map.get_cons]⟩
  obtain ⟨a, F, rfl⟩ := List.exists_cons_of_ne_nil h0
  have ha : isNS a = true := hF a (by simp)
  have ha' : isS a = false := by simpa [isNS] using ha
  unfold ptnInstance Re.find
  simp only [seq]
  rw [show a :: F ++ b!": " ++ T = a :: (F ++ (b!": " ++ T)) by simp]
  rw [run_cat, run_nospace (by rintro b t' e; cases e; exact ha'), run_cat, run_cap, run_cat, run_one _ ha]
  refine run_star_last (fun b hb => hF b (by simp [hb])) ?_ ?_
  · intro b t' e t'' ht
    have e : b :: t' = 0x3A :: (0x20 :: T) := e.symm
    cases e
    have : t'' = 0x20 :: T := by
      cases ht with
      | star0 => rfl
      | star1 h _ => exact absurd h (by decide)
    subst this
    obtain ⟨x, hx, hx'⟩ := hT.suffix_has (v := []) (w := T) rfl hT0
    have e := fun m => run_end_none (m := m) (u := 0x20 :: T) (List.mem_cons_of_mem _ hx) hx'
    rw [run_cat]
    unfold Re.run
    simp only [e]
    simp [Re.run, stripPrefix]
  · have : (a :: (F ++ (b!": " ++ T))).take ((a :: (F ++ (b!": " ++ T))).length - (b!": " ++ T).length) = a :: F := by
      rw [show a :: (F ++ (b!": " ++ T)) = (a :: F) ++ (b!": " ++ T) from rfl, take_diff]
    rw [this, run_cat]
    unfold Re.run
    have key : Re.run (.cat (.lit b!":") (.cat (.star isS) (.cap 2 (.lazy isDot))))
        (fun t m => (Re.cat (.star isS) .eot).run (fun _ m => some m) t m) (b!": " ++ T) [(1, a :: F)] = some [(1, a :: F), (2, T)] := by
      rw [run_cat, show (b!": " ++ T : Bytes) = b!":" ++ (b!" " ++ T) from rfl, run_lit, run_cat]
      refine run_star (by decide) (fun a t' e => hT.first a t' e) ?_
      exact run_tail (fun v w e hw => hT.suffix_has e hw) hT.dots [(1, a :: F)]
    rw [show Map.set ([] : Caps) 1 (a :: F) = [(1, a :: F)] from rfl]
    simp only [key]

/-- A line that goes on with a text. -/
theorem find_extra {l : Bytes} (hl : ∀ v w, l = v ++ w → w ≠ [] → ∃ a ∈ w, isS a = false) (hd : ∀ a ∈ l, isDot a = true) :
    ∃ m, ptnExtra.find (0x2B :: l) = some m ∧ Caps.text m 1 = l := by
  refine ⟨[(1, l)], ?_, by simp [Caps.text, Map.get_cons]⟩
  unfold ptnExtra Re.find
  simp only [seq]
  rw [run_cat, run_nospace (by rintro b t' e; cases e; decide), run_cat, show (0x2B :: l : Bytes) = b!"+" ++ l from rfl, run_lit]
  exact run_tail hl hd []

/-- A log line. -/
theorem find_logLine (l : Bytes) : (ptnLogLine.find (0x7B :: l)).isSome = true := by
  unfold ptnLogLine Re.find
  simp only [seq]
  rw [run_cat, run_nospace (by rintro b t' e; cases e; decide), show (0x7B :: l : Bytes) = b!"{" ++ l from rfl, run_lit]
  rfl

end Verif.Data
