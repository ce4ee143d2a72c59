import Verif.Data.WarnLines
import Verif.Warning.Show
import Verif.Spec.Numeral
import Verif.Props.WarnText

/-
What the warning parser does on each line of a report.
-/

set_option linter.unusedSimpArgs false

namespace Verif.Data
open Go Slog Letters Verif.Warning

/-- The prefix of the lines of a report: blanks, or a number sign and blanks. -/
def Pre (p : Bytes) : Prop := (∀ a ∈ p, a = 0x20) ∨ ∃ q, p = 0x23 :: q ∧ ∀ a ∈ q, a = 0x20

/-! ### Trimming -/

theorem dropWhile_blank {q X : Bytes} (hq : ∀ a ∈ q, a = 0x20) (hX : ∀ a t, X = a :: t → a ≠ 0x20) :
    (q ++ X).dropWhile (· == 0x20) = X := by
  induction q with
  | nil =>
    cases X with
    | nil => rfl
    | cons a X =>
      have := hX a X rfl
      rw [List.nil_append, List.dropWhile_cons, if_neg (by simpa using this)]
  | cons b q ih =>
    have : b = 0x20 := hq b (by simp)
    subst this
    rw [List.cons_append, List.dropWhile_cons, if_pos (by decide)]
    exact ih fun a ha => hq a (by simp [ha])

/-- A line of a report without prefix, indentation and blanks at the end. -/
theorem trimLine_line {p sp X tr : Bytes} (hp : Pre p) (hsp : ∀ a ∈ sp, a = 0x20) (htr : ∀ a ∈ tr, a = 0x20)
    (hf : ∀ a t, X = a :: t → a ≠ 0x20) (hl : ∀ a t, X = t ++ [a] → a ≠ 0x20) (h0 : X ≠ [])
    (hh : sp ≠ [] ∨ ∀ a t, X = a :: t → a ≠ 0x23) : trimLine (p ++ sp ++ X ++ tr) = X := by
  have hend : ((X ++ tr).reverse.dropWhile (· == 0x20)).reverse = X := by
    rw [List.reverse_append, dropWhile_blank (by simpa using htr), List.reverse_reverse]
    intro a t e
    refine hl a t.reverse ?_
    rw [← List.reverse_reverse X, e, List.reverse_cons]
  have hf' : ∀ a t, X ++ tr = a :: t → a ≠ 0x20 := by
    intro a t e
    cases X with
    | nil => exact absurd rfl h0
    | cons b X => cases e; exact hf _ X rfl
  unfold trimLine
  have : ∃ q, (∀ a ∈ q, a = 0x20) ∧ (stripPrefix [0x23] (p ++ sp ++ X ++ tr)).getD (p ++ sp ++ X ++ tr) = q ++ (X ++ tr) := by
    rcases hp with hp | ⟨q, rfl, hq⟩
    · refine ⟨p ++ sp, ?_, ?_⟩
      · intro a ha
        rcases List.mem_append.1 ha with h | h
        · exact hp a h
        · exact hsp a h
      · have hn : stripPrefix [0x23] (p ++ sp ++ X ++ tr) = none := by
          cases h : p ++ sp with
          | nil =>
            rcases hh with hh | hh
            · simp only [List.append_eq_nil_iff] at h; exact absurd h.2 hh
            · cases X with
              | nil => exact absurd rfl h0
              | cons b X =>
                have := hh b X rfl
                simp only [List.nil_append, List.cons_append, stripPrefix]
                rw [if_neg (Ne.symm this)]
          | cons b q =>
            have : b = 0x20 := by
              have hb : b ∈ p ++ sp := by rw [h]; simp
              rcases List.mem_append.1 hb with h | h
              · exact hp b h
              · exact hsp b h
            subst this
            rfl
        rw [hn]
        simp
    · refine ⟨q ++ sp, ?_, ?_⟩
      · intro a ha
        rcases List.mem_append.1 ha with h | h
        · exact hq a h
        · exact hsp a h
      · simp [stripPrefix]
  obtain ⟨q, hq, e⟩ := this
  simp only [e]
  rw [dropWhile_blank hq hf', hend]

theorem trimLine_pre {p : Bytes} (hp : Pre p) : trimLine p = [] := by
  unfold trimLine
  have : ∃ q, (∀ a ∈ q, a = 0x20) ∧ (stripPrefix [0x23] p).getD p = q := by
    rcases hp with hp | ⟨q, rfl, hq⟩
    · refine ⟨p, hp, ?_⟩
      cases p with
      | nil => rfl
      | cons b q =>
        have : b = 0x20 := hp b (by simp)
        subst this; rfl
    · exact ⟨q, hq, by simp [stripPrefix]⟩
  obtain ⟨q, hq, e⟩ := this
  simp only [e]
  have := dropWhile_blank (X := []) hq (by intro a t e; cases e)
  rw [List.append_nil] at this
  rw [this]; rfl

/-! ### Levels -/

/-- The library lower-cases as Go's. -/
def LowersLib (L : Replace.Lib) : Prop := ∃ low, Lowers L low

theorem not_level {L : Replace.Lib} (hL : LowersLib L) {a : UInt8} {t : Bytes}
    (ha : a = 0x7B ∨ a = 0x2B) : parseLevel L (a :: t) = none := by
  obtain ⟨low, hL⟩ := hL
  cases h : parseLevel L (a :: t) with
  | none => rfl
  | some l =>
    obtain ⟨s, hs, hr⟩ := (Verif.Props.WarnText.C32_parse_any_text hL _ _).1 h
    exfalso
    rcases ha with rfl | rfl <;> cases hs <;> (cases hr with | letter h1 _ => revert h1; decide)

theorem level_word {L : Replace.Lib} (hL : LowersLib L) (l : Nat) (h : l ∈ levelOrder) :
    parseLevel L (levelText l) = some l := by
  obtain ⟨low, hL⟩ := hL
  have reads : ∀ s t : Bytes, s.length = t.length → (∀ i, (h1 : i < s.length) → (h2 : i < t.length) → SameLetter s[i] t[i]) → ReadsAs s t := by
    intro s
    induction s with
    | nil =>
      intro t h _
      cases t with
      | nil => exact .nil
      | cons => cases h
    | cons a s ih =>
      intro t h hi
      cases t with
      | nil => cases h
      | cons b t =>
        refine .letter (hi 0 (by simp) (by simp)) (ih t (by simpa using h) fun i h1 h2 => ?_)
        have := hi (i + 1) (by simpa using h1) (by simpa using h2)
        simpa using this
  have : l = 4 ∨ l = 3 ∨ l = 2 ∨ l = 1 := by simpa [levelOrder] using h
  rcases this with rfl | rfl | rfl | rfl
  · exact (Verif.Props.WarnText.C32_parse_any_text hL _ _).2 ⟨_, .required, reads _ _ (by decide) (by decide)⟩
  · exact (Verif.Props.WarnText.C32_parse_any_text hL _ _).2 ⟨_, .implied, reads _ _ (by decide) (by decide)⟩
  · exact (Verif.Props.WarnText.C32_parse_any_text hL _ _).2 ⟨_, .suggested, reads _ _ (by decide) (by decide)⟩
  · exact (Verif.Props.WarnText.C32_parse_any_text hL _ _).2 ⟨_, .administrative, reads _ _ (by decide) (by decide)⟩


/-- A line starts and ends with something. -/
structure Solid (X : Bytes) : Prop where
  first : ∀ a t, X = a :: t → isS a = false
  last : ∀ a t, X = t ++ [a] → isS a = false

theorem find_level_word {F : Bytes} (hF : Word F) (h0 : F ≠ []) :
    ∃ m, ptnLevel.find F = some m ∧ Caps.text m 1 = F := by
  refine ⟨[(1, F)], ?_, by simp [Caps.text, Map.get_cons]⟩
  obtain ⟨a, F, rfl⟩ := List.exists_cons_of_ne_nil h0
  have ha : isNS a = true := hF a (by simp)
  have ha' : isS a = false := by simpa [isNS] using ha
  unfold ptnLevel Re.find
  simp only [seq]
  rw [run_cat, run_nospace (by rintro b t' e; cases e; exact ha'), run_cat, run_cap, run_cat, run_one _ ha]
  have := run_star (p := isNS) (u := F) (t := []) (m := []) (r := [(1, a :: F)])
    (k := fun t m => (Re.cat (.star isS) .eot).run (fun _ m => some m) t
      (m.set 1 (List.take ((a :: F).length - t.length) (a :: F)))) (fun b hb => hF b (by simp [hb])) (by simp) ?_
  · rw [List.append_nil] at this; exact this
  · rw [run_end (by simp)]
    simp [Map.set]

/-- What the test for levels gives on a line. -/
theorem level_test {X : Bytes} (hX : Solid X) (h0 : X ≠ []) (L : Replace.Lib) :
    ((ptnLevel.find X).bind fun m => parseLevel L (Caps.text m 1)) = none ∨
    Word X ∧ ((ptnLevel.find X).bind fun m => parseLevel L (Caps.text m 1)) = parseLevel L X := by
  by_cases hW : Word X
  · obtain ⟨m, hm, e⟩ := find_level_word hW h0
    refine .inr ⟨hW, ?_⟩
    rw [hm, ← e]; simp
  · left
    unfold Word at hW
    obtain ⟨a, ha, hs⟩ : ∃ a, a ∈ X ∧ ¬ isNS a = true := by
      exact Classical.byContradiction fun hn => hW fun a ha => Classical.byContradiction fun h => hn ⟨a, ha, h⟩
    have hs : isS a = true := by simpa [isNS] using hs
    obtain ⟨v, w, rfl⟩ := List.append_of_mem ha
    have hw : w ≠ [] := by
      rintro rfl
      have := hX.last a v rfl
      rw [hs] at this; cases this
    have hb := hX.last (w.getLast hw) (v ++ a :: w.dropLast) (by
      rw [List.append_assoc, List.cons_append, List.dropLast_concat_getLast])
    rw [find_level_two rfl hs (List.getLast_mem hw) hb hX.first]
    rfl

/-! ### Steps -/

section
variable {E : Env} {source : Bytes} {lookup : Map Bytes Bytes} {st : PState} {p : Bytes}

/-- C38: the line before a report says nothing. -/
theorem top_blank (hp : Pre p) : bodyTop E source lookup p st = .inl (.next st) := by
  unfold bodyTop
  simp only [trimLine_pre hp]
  rfl

theorem top_for (hp : Pre p) {N : Bytes} (hN : ∀ a ∈ N, isDot a = true) (h0 : ∀ a t, N = a :: t → isS a = false) :
    bodyTop E source lookup (p ++ b!"Warnings for " ++ N ++ b!":") st = .inl (.next (onWarningsFor E lookup N st)) := by
  have ht : trimLine (p ++ b!"Warnings for " ++ N ++ b!":") = b!"Warnings for " ++ N ++ b!":" := by
    have := trimLine_line (p := p) (sp := []) (X := b!"Warnings for " ++ N ++ b!":") (tr := []) hp (by simp) (by simp)
      (by intro a t e; cases e; decide)
      (by intro a t e; have := List.append_inj_right' e rfl; cases this; decide) (by simp)
      (.inr (by intro a t e; cases e; decide))
    simpa using this
  unfold bodyTop
  simp only [ht]
  obtain ⟨m, hm, e⟩ := find_warningsFor hN h0
  rw [if_neg (by simp), hm]
  simp only [e]

/-- The lines that go on to the rest of the body. -/
theorem top_rest {X raw : Bytes} (ht : trimLine raw = X) (h0 : X ≠ []) (h1 : ptnWarningsFor.find X = none)
    (h2 : ptnByWarning.find X = none) (h3 : ptnSummaryStart.find X = none) :
    bodyTop E source lookup raw st = .inl (bodyRest E source X st) := by
  unfold bodyTop
  simp only [ht]
  rw [if_neg (by simpa using h0), h1, h2]
  simp only [h3]
  rfl

/-- Lines that start with something else. -/
theorem top_start {a : UInt8} {t raw : Bytes} (ht : trimLine raw = a :: t) (hs : isS a = false) (h1 : a ≠ 0x57)
    (h2 : a ≠ 0x48) (h3 : a ≠ 0x3A) : bodyTop E source lookup raw st = .inl (bodyRest E source (a :: t) st) :=
  top_rest ht (by simp) (find_lead hs h1) (find_lead hs h2) (find_lit h3)

theorem top_none (hp : Pre p) (hh : st.handler ≠ []) : bodyTop E source lookup (p ++ b!"  None") st =
    .inl (.next { st with w := { st.w with byHandler := st.w.byHandler.set st.handler {} } }) := by
  have ht : trimLine (p ++ b!"  None") = b!"None" := by
    have := trimLine_line (p := p) (sp := b!"  ") (X := b!"None") (tr := []) hp (by simp) (by simp)
      (by intro a t e; cases e; decide)
      (by intro a t e; have := congrArg List.getLast? e; simp at this; subst this; decide) (by simp) (.inl (by simp))
    simpa using this
  rw [top_start ht (by decide) (by decide) (by decide) (by decide)]
  unfold bodyRest
  rw [if_neg hh, if_pos (by decide)]

theorem top_level (hL : LowersLib E.lib) (hp : Pre p) (hh : st.handler ≠ []) {l : Nat} (hl : l ∈ levelOrder) :
    bodyTop E source lookup (p ++ b!"  " ++ levelText l) st =
    .inl (.next { saveInstance E st with level := l, dWarning := none }) := by
  have hword := level_word hL l hl
  have : l = 4 ∨ l = 3 ∨ l = 2 ∨ l = 1 := by simpa [levelOrder] using hl
  have hX : Solid (levelText l) ∧ levelText l ≠ [] ∧ (ptnWarningsFor.find (levelText l) = none) ∧
      ptnByWarning.find (levelText l) = none ∧ ptnSummaryStart.find (levelText l) = none ∧
      ptnNone.find (levelText l) = none ∧ Word (levelText l) := by
    have hw : Word (levelText l) := by
      unfold Word
      rcases this with rfl | rfl | rfl | rfl <;> decide
    refine ⟨⟨fun a t e => ?_, fun a t e => ?_⟩, ?_, ?_, ?_, ?_, ?_, hw⟩
    · have := hw a (by rw [e]; simp); simpa [isNS] using this
    · have := hw a (by rw [e]; simp); simpa [isNS] using this
    all_goals (rcases this with rfl | rfl | rfl | rfl <;> decide)
  obtain ⟨hs, h0, h1, h2, h3, h4, hw⟩ := hX
  have ht : trimLine (p ++ b!"  " ++ levelText l) = levelText l := by
    have := trimLine_line (p := p) (sp := b!"  ") (X := levelText l) (tr := []) hp (by simp) (by simp)
      (by intro a t e h; have := hs.first a t e; subst h; revert this; decide)
      (by intro a t e h; have := hs.last a t e; subst h; revert this; decide) h0 (.inl (by simp))
    simpa using this
  rw [top_rest ht h0 h1 h2 h3]
  unfold bodyRest
  rw [if_neg hh, h4]
  obtain ⟨m, hm, e⟩ := find_level_word hw h0
  rw [hm, Option.bind_some, e, hword]
  rfl

/-- The digits of a count. -/
theorem count_digits (n : Nat) : ∃ d ds k, pad4 n = List.replicate k 0x20 ++ (d :: ds) ∧ isD d = true ∧ (∀ a ∈ ds, isD a = true) := by
  have h := decNat_digits n
  have hr : decNat n ≠ [] := by rw [decNat]; split <;> simp
  unfold pad4
  generalize decNat n = x at *
  cases x with
  | nil => exact absurd rfl hr
  | cons d ds =>
    have h' : ∀ a ∈ d :: ds, isD a = true := by
      intro a ha
      have := List.all_eq_true.1 h a ha
      simpa [Json.isDigit, isD] using this
    exact ⟨d, ds, _, rfl, h' d (by simp), fun a ha => h' a (by simp [ha])⟩

theorem digit_not_space (d : UInt8) : isD d = true → isS d = false ∧ d ≠ 0x57 ∧ d ≠ 0x48 ∧ d ≠ 0x3A ∧ d ≠ 0x4E := by
  have := forall_byte (P := fun d => isD d = true → isS d = false ∧ d ≠ 0x57 ∧ d ≠ 0x48 ∧ d ≠ 0x3A ∧ d ≠ 0x4E) (by decide +kernel)
  exact this d

theorem not_blank_of {a : UInt8} (h : isS a = false) : a ≠ 0x20 := by
  rintro rfl; revert h; decide

theorem top_warn (hp : Pre p) (hh : st.handler ≠ []) {c : Nat} {W S : Bytes} (hW : ∀ a ∈ W, isDot a = true) (hS : Trim S)
    (hb : ∀ a ∈ S, a ≠ 0x5D) : bodyTop E source lookup (p ++ b!"  " ++ pad4 c ++ b!" [" ++ W ++ b!"] " ++ S) st =
    .inl (.next (
      let q := saveInstance E st
      let r := q.w.findHandler q.handler q.level W
      { q with w := r.1.change r.2 fun x => { x with summary := S }, dWarning := some r.2, inst := none })) := by
  obtain ⟨d, ds, k, e, hd, hds⟩ := count_digits c
  obtain ⟨hds', hdW, hdH, hdC, hdN⟩ := digit_not_space d hd
  -- the line without blanks at the end
  obtain ⟨sp, tr, X, hX, hsp, htr, eX, hlast⟩ : ∃ sp tr X : Bytes, X = d :: ds ++ b!" [" ++ W ++ b!"]" ++ sp ++ S ∧
      (∀ a ∈ sp, isS a = true) ∧ (∀ a ∈ tr, a = 0x20) ∧ p ++ b!"  " ++ pad4 c ++ b!" [" ++ W ++ b!"] " ++ S =
        p ++ (b!"  " ++ List.replicate k 0x20) ++ X ++ tr ∧ ∀ a t, X = t ++ [a] → isS a = false := by
    cases hS0 : S with
    | nil =>
      refine ⟨[], b!" ", _, rfl, by simp, by simp, ?_, ?_⟩
      · rw [e]; simp
      · intro a t e
        rw [List.append_nil, List.append_nil] at e
        have := List.append_inj_right' e rfl; cases this; decide
    | cons s S' =>
      refine ⟨b!" ", [], _, rfl, by simp; decide, by simp, ?_, ?_⟩
      · rw [e]; simp
      · intro a t e
        have hne : (s :: S') ≠ [] := by simp
        rw [← List.dropLast_concat_getLast hne, ← List.append_assoc] at e
        have := List.append_inj_right' e rfl
        have h2 := hS.last ((s :: S').getLast hne) (s :: S').dropLast (by rw [hS0]; exact (List.dropLast_concat_getLast hne).symm)
        cases this
        exact h2
  have hfirst : ∀ a t, X = a :: t → isS a = false := by
    intro a t e
    rw [hX] at e; cases e; exact hds'
  have ht : trimLine (p ++ b!"  " ++ pad4 c ++ b!" [" ++ W ++ b!"] " ++ S) = X := by
    rw [eX]
    refine trimLine_line hp ?_ htr (fun a t e => not_blank_of (hfirst a t e)) (fun a t e => not_blank_of (hlast a t e)) ?_ (.inl (by simp))
    · intro a ha
      rcases List.mem_append.1 ha with h | h
      · simpa using h
      · exact List.eq_of_mem_replicate h
    · rw [hX]; simp
  have hXc : X = d :: (ds ++ b!" [" ++ W ++ b!"]" ++ sp ++ S) := by rw [hX]; simp
  rw [top_start (by rw [ht]; exact hXc) hds' hdW hdH hdC]
  rw [← hXc]
  obtain ⟨m, hm, e1, e2⟩ := find_warning hd hds hW hS hb hsp
  rw [← hX] at hm
  unfold bodyRest
  rw [if_neg hh, show ptnNone.find X = none by rw [hXc]; exact find_lead hds' hdN]
  have hlv : ptnLevel.find X = none :=
    find_level_two (v := d :: ds) (a := 0x20) (w := b!"[" ++ W ++ b!"]" ++ sp ++ S) (b := 0x5B) (by rw [hX]; simp) (by decide)
      (by simp) (by decide) hfirst
  rw [hlv]
  simp only [Option.bind_none, hm, e1, e2]
  rfl

/-- What is asked of a function name; `text` is what follows it. -/
structure FnName (L : Replace.Lib) (F text : Bytes) : Prop where
  word : Word F
  ne : F ≠ []
  start : ∀ a t, F = a :: t → a ≠ 0x7B ∧ a ≠ 0x2B ∧ a ≠ 0x3A
  alone : text = [] → F ≠ b!"None" ∧ parseLevel L F = none

theorem rest_inst {F T X : Bytes} (hF : FnName E.lib F T) (hT : Trim T)
    (hX : X = if T = [] then F else F ++ b!": " ++ T) (hh : st.handler ≠ []) :
    bodyRest E source X st = .next (onInstance E source F T st) ∧ ptnWarningsFor.find X = none ∧
      ptnByWarning.find X = none ∧ ptnSummaryStart.find X = none ∧ Solid X ∧ X ≠ [] := by
  obtain ⟨r, hr, eX⟩ : ∃ r, Tail r ∧ X = F ++ r := by
    by_cases hT0 : T = []
    · exact ⟨[], .inl rfl, by rw [hX, if_pos hT0]; simp⟩
    · exact ⟨b!": " ++ T, .inr ⟨_, rfl⟩, by rw [hX, if_neg hT0]; simp⟩
  obtain ⟨a, F', rfl⟩ := List.exists_cons_of_ne_nil hF.ne
  have ha : isNS a = true := hF.word a (by simp)
  have ha' : isS a = false := by simpa [isNS] using ha
  obtain ⟨s1, s2, s3⟩ := hF.start a F' rfl
  have hsol : Solid X := by
    refine ⟨fun b t e => ?_, fun b t e => ?_⟩
    · rw [eX] at e; cases e; exact ha'
    · by_cases hT0 : T = []
      · rw [hX, if_pos hT0] at e
        have := hF.word b (by rw [e]; simp)
        simpa [isNS] using this
      · rw [hX, if_neg hT0] at e
        have hd := (List.dropLast_concat_getLast hT0).symm
        rw [hd, ← List.append_assoc] at e
        have := List.append_inj_right' e rfl
        have h2 := hT.last _ _ hd
        cases this
        exact h2
  have hinst : ∃ m, ptnInstance.find X = some m ∧ Caps.text m 1 = a :: F' ∧ Caps.text m 2 = T := by
    by_cases hT0 : T = []
    · rw [hX, if_pos hT0, hT0]; exact find_instance hF.word hF.ne
    · rw [hX, if_neg hT0]; exact find_instance_text hF.word hF.ne hT hT0
  refine ⟨?_, ?_, ?_, ?_, hsol, by rw [eX]; simp⟩
  · unfold bodyRest
    rw [if_neg hh]
    have hnone : ptnNone.find X = none := by
      rw [eX]
      refine find_word_end hF.word hF.ne hr (by decide) ?_
      rintro ⟨e, e'⟩
      by_cases hT0 : T = []
      · exact (hF.alone hT0).1 e
      · rw [hX, if_neg hT0, e', List.append_nil] at eX
        have := congrArg List.length eX
        simp at this
    rw [hnone]
    have hlev : ((ptnLevel.find X).bind fun m => parseLevel E.lib (Caps.text m 1)) = none := by
      rcases level_test hsol (by rw [eX]; simp) E.lib with h | ⟨h, h'⟩
      · exact h
      · rw [h']
        by_cases hT0 : T = []
        · rw [hX, if_pos hT0]; exact (hF.alone hT0).2
        · exfalso
          have : isNS 0x20 = true := h 0x20 (by rw [hX, if_neg hT0]; simp)
          revert this; decide
    rw [hlev]
    have hwarn : ptnWarning.find X = none := by rw [eX]; exact find_warning_word hF.word hF.ne hr
    rw [hwarn]
    have hlog : ptnLogLine.find X = none := by rw [eX]; exact find_log ha' s1
    rw [hlog]
    have hex : ptnExtra.find X = none := by rw [eX]; exact find_lead ha' s2
    simp only [hex]
    obtain ⟨m, hm, e1, e2⟩ := hinst
    rw [hm]
    simp only [e1, e2]
    rfl
  · rw [eX]; exact find_word_space hF.word hF.ne hr (by decide)
  · rw [eX]; exact find_word_space hF.word hF.ne hr (by decide)
  · rw [eX]; exact find_lit s3

theorem top_inst (hp : Pre p) (hh : st.handler ≠ []) {F T : Bytes} (hF : FnName E.lib F T) (hT : Trim T) :
    bodyTop E source lookup (p ++ b!"         " ++ if T = [] then F else F ++ b!": " ++ T) st =
    .inl (.next (onInstance E source F T st)) := by
  obtain ⟨h1, h2, h3, h4, h5, h6⟩ := rest_inst (source := source) (st := st) hF hT rfl hh
  generalize (if T = [] then F else F ++ b!": " ++ T) = X at *
  have ht : trimLine (p ++ b!"         " ++ X) = X := by
    have := trimLine_line (p := p) (sp := b!"         ") (X := X) (tr := []) hp (by simp) (by simp)
      (fun a t e => not_blank_of (h5.first a t e)) (fun a t e => not_blank_of (h5.last a t e)) h6 (.inl (by simp))
    simpa using this
  rw [top_rest ht h6 h2 h3 h4, h1]

theorem top_extra (hL : LowersLib E.lib) (hp : Pre p) (hh : st.handler ≠ []) {l : Bytes} (hd : ∀ a ∈ l, isDot a = true)
    (hl : ∀ a t, l = t ++ [a] → isS a = false) :
    bodyTop E source lookup (p ++ b!"           +" ++ l) st =
    .inl (.next { st with inst := st.inst.map fun i => { i with extra := i.extra ++ [0x0A] ++ l } }) := by
  have hsol : Solid (0x2B :: l) := by
    refine ⟨fun a t e => by cases e; decide, fun a t e => ?_⟩
    by_cases h : l = []
    · subst h
      cases t with
      | nil => cases e; decide
      | cons b t => simp at e
    · rw [← List.dropLast_concat_getLast h, ← List.cons_append] at e
      have := List.append_inj_right' e rfl
      have h2 := hl _ _ (List.dropLast_concat_getLast h).symm
      cases this
      exact h2
  have ht : trimLine (p ++ b!"           +" ++ l) = 0x2B :: l := by
    have := trimLine_line (p := p) (sp := b!"           ") (X := 0x2B :: l) (tr := []) hp (by simp) (by simp)
      (fun a t e => not_blank_of (hsol.first a t e)) (fun a t e => not_blank_of (hsol.last a t e)) (by simp) (.inl (by simp))
    simpa using this
  rw [top_start ht (by decide) (by decide) (by decide) (by decide)]
  unfold bodyRest
  rw [if_neg hh, show ptnNone.find (0x2B :: l) = none from find_lead (by decide) (by decide)]
  have hlev : ((ptnLevel.find (0x2B :: l)).bind fun m => parseLevel E.lib (Caps.text m 1)) = none := by
    rcases level_test hsol (by simp) E.lib with h | ⟨h, h'⟩
    · exact h
    · rw [h']; exact not_level hL (.inr rfl)
  rw [hlev]
  rw [find_digit (by decide) (by decide), find_log (by decide) (by decide)]
  obtain ⟨m, hm, e⟩ := find_extra (l := l) (fun v w e hw => by
    refine ⟨w.getLast hw, List.getLast_mem hw, hl _ (v ++ w.dropLast) ?_⟩
    rw [e, List.append_assoc, List.dropLast_concat_getLast]) hd
  rw [hm]
  simp only [e]
  rfl

theorem top_record (hL : LowersLib E.lib) (hp : Pre p) (hh : st.handler ≠ []) {l : Bytes} {i : DInst} (hi : st.inst = some i)
    (hl : ∀ a t, l = t ++ [a] → isS a = false) :
    bodyTop E source lookup (p ++ b!"           " ++ (0x7B :: l)) st =
    .inl (.next { st with inst := some { i with line := 0x7B :: l, log := (E.indent (0x7B :: l)).getD i.log } }) := by
  have hsol : Solid (0x7B :: l) := by
    refine ⟨fun a t e => by cases e; decide, fun a t e => ?_⟩
    by_cases h : l = []
    · subst h
      cases t with
      | nil => cases e; decide
      | cons b t => simp at e
    · rw [← List.dropLast_concat_getLast h, ← List.cons_append] at e
      have := List.append_inj_right' e rfl
      have h2 := hl _ _ (List.dropLast_concat_getLast h).symm
      cases this
      exact h2
  have ht : trimLine (p ++ b!"           " ++ (0x7B :: l)) = 0x7B :: l := by
    have := trimLine_line (p := p) (sp := b!"           ") (X := 0x7B :: l) (tr := []) hp (by simp) (by simp)
      (fun a t e => not_blank_of (hsol.first a t e)) (fun a t e => not_blank_of (hsol.last a t e)) (by simp) (.inl (by simp))
    simpa using this
  rw [top_start ht (by decide) (by decide) (by decide) (by decide)]
  unfold bodyRest
  rw [if_neg hh, show ptnNone.find (0x7B :: l) = none from find_lead (by decide) (by decide)]
  have hlev : ((ptnLevel.find (0x7B :: l)).bind fun m => parseLevel E.lib (Caps.text m 1)) = none := by
    rcases level_test hsol (by simp) E.lib with h | ⟨h, h'⟩
    · exact h
    · rw [h']; exact not_level hL (.inl rfl)
  rw [hlev, find_digit (by decide) (by decide), hi]
  simp only [find_logLine]
  rfl

theorem top_by (hp : Pre p) : bodyTop E source lookup (p ++ b!" Handlers by warning:") st = .inl (.stop st) := by
  have ht : trimLine (p ++ b!" Handlers by warning:") = b!"Handlers by warning:" := by
    have := trimLine_line (p := p) (sp := b!" ") (X := b!"Handlers by warning:") (tr := []) hp (by simp) (by simp)
      (by intro a t e; cases e; decide)
      (by intro a t e; have := congrArg List.getLast? e; simp at this; subst this; decide) (by simp) (.inl (by simp))
    simpa using this
  unfold bodyTop
  simp only [ht]
  rw [if_neg (by decide), show ptnWarningsFor.find b!"Handlers by warning:" = none by decide]
  simp only
  rw [if_pos (by decide)]

end

end Verif.Data
