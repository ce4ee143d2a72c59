import Verif.Data.WarnReport

/-
The warning parser on what is printed before the reports.
-/

set_option linter.unusedSimpArgs false

namespace Verif.Data
open Go Slog Letters Lines Verif.Warning

/-- A line without the headings of reports and of the list of handlers by warning: they
may be preceded by number signs and white space only. -/
def Quiet (l : Bytes) : Prop := ∀ u v, l = u ++ v → (∀ a ∈ u, a = 0x23 ∨ isS a = true) →
  ¬ b!"Warnings" <+: v ∧ ¬ b!"Handlers" <+: v

theorem trim_parts (l : Bytes) : ∃ u v, l = u ++ trimLine l ++ v ∧ ∀ a ∈ u, a = 0x23 ∨ isS a = true := by
  have blanks : ∀ s : Bytes, ∃ u, s = u ++ s.dropWhile (· == 0x20) ∧ ∀ a ∈ u, a = 0x20 := by
    intro s
    refine ⟨s.takeWhile (· == 0x20), List.takeWhile_append_dropWhile.symm, fun a ha => ?_⟩
    induction s with
    | nil => cases ha
    | cons b s ih =>
      rw [List.takeWhile_cons] at ha
      split at ha
      · rename_i hb
        rcases List.mem_cons.1 ha with rfl | ha
        · simpa using hb
        · exact ih ha
      · cases ha
  rw [show trimLine l = (((((stripPrefix [0x23] l).getD l).dropWhile (· == 0x20)).reverse.dropWhile (· == 0x20)).reverse) from rfl]
  obtain ⟨r, hr, hrl⟩ : ∃ r, l = r ++ (stripPrefix [0x23] l).getD l ∧ ∀ a ∈ r, a = 0x23 := by
    cases h : stripPrefix [0x23] l with
    | none => exact ⟨[], rfl, by simp⟩
    | some t => exact ⟨[0x23], stripPrefix_iff.1 h, by simp⟩
  generalize (stripPrefix [0x23] l).getD l = s at *
  obtain ⟨u, hu, hub⟩ := blanks s
  generalize s.dropWhile (· == 0x20) = s1 at *
  obtain ⟨v, hv, _⟩ := blanks s1.reverse
  generalize s1.reverse.dropWhile (· == 0x20) = s2 at *
  refine ⟨r ++ u, v.reverse, ?_, fun a ha => ?_⟩
  · have : s1 = s2.reverse ++ v.reverse := by
      rw [← List.reverse_append, ← hv, List.reverse_reverse]
    have hl : l = r ++ (u ++ (s2.reverse ++ v.reverse)) := by rw [← this, ← hu]; exact hr
    simpa using hl
  · rcases List.mem_append.1 ha with ha | ha
    · exact .inl (hrl a ha)
    · right; rw [hub a ha]; decide

theorem quiet_find {l : Bytes} (h : Quiet l) : ptnWarningsFor.find (trimLine l) = none ∧ ptnByWarning.find (trimLine l) = none := by
  obtain ⟨u, w, e, hu⟩ := trim_parts l
  have key : ∀ {p : Bytes} {r : Re} {x : Bytes}, Lang (.cat (.star isS) (.cat (.lit p) r)) (trimLine l) x →
      ∃ u v, l = u ++ v ∧ (∀ a ∈ u, a = 0x23 ∨ isS a = true) ∧ p <+: v := by
    intro p r x hx
    obtain ⟨v, t, e1, hv, hx⟩ := lang_seq_star hx
    cases hx with
    | cat h1 _ =>
      cases h1
      rename_i t _
      refine ⟨u ++ v, p ++ t ++ w, by rw [e, e1]; simp, fun a ha => ?_, ⟨t ++ w, by simp⟩⟩
      rcases List.mem_append.1 ha with ha | ha
      · exact hu a ha
      · exact .inr (hv a ha)
  constructor
  · rw [Re.find_none]
    intro x hx
    obtain ⟨u, v, e, hu, hp⟩ := key hx
    exact (h u v e hu).1 hp
  · rw [Re.find_none]
    intro x hx
    obtain ⟨u, v, e, hu, hp⟩ := key hx
    exact (h u v e hu).2 hp

/-- The end of a summary, for what is known of the handlers
(internal/data/warnings_parser.go:131-139). -/
def endData (lookup : Map Bytes Bytes) (q : Summ) (D : Map Bytes HData) : Map Bytes HData :=
  match lookup.get q.name with
  | none => D
  | some h => D.set h { (D.get h).getD {} with summary := joinWith [0x0A] q.lines, links := q.links }

/-- What a line before the reports does (internal/data/warnings_parser.go:117-143): the
summary being read, and what is known of the handlers. -/
def before (lookup : Map Bytes Bytes) (s : Option Summ × Map Bytes HData) (l : Bytes) : Option Summ × Map Bytes HData :=
  match s.1 with
  | none =>
    match ptnSummaryStart.find (trimLine l) with
    | some m => (some { start := trimLine l, name := Caps.text m 1 }, s.2)
    | none => (none, s.2)
  | some q =>
    match ptnSummaryLine.find l with
    | some m => (some { q with lines := q.lines ++ [Caps.text m 1] }, s.2)
    | none =>
      match ptnSummaryLink.find l with
      | some m => (some { q with links := q.links.set (Caps.text m 1) (Caps.text m 2) }, s.2)
      | none => (none, endData lookup q s.2)

/-- Other data about the handlers. -/
def PState.withData (st : PState) (D : Map Bytes HData) : PState := { st with w := { st.w with handlerData := D } }

theorem endSummary_data (lookup : Map Bytes Bytes) (q : Summ) (w : Warns) :
    endSummary lookup q w = { w with handlerData := endData lookup q w.handlerData } := by
  unfold endSummary endData
  cases lookup.get q.name <;> rfl

theorem rest_quiet {E : Env} {source line : Bytes} {st : PState} (h : st.handler = []) : bodyRest E source line st = .next st := by
  unfold bodyRest; rw [if_pos h]

/-- Lines before the reports change what is known of the handlers, and nothing else. -/
theorem loop_before {E : Env} {source : Bytes} {lookup : Map Bytes Bytes} (rest : List Bytes) : ∀ (ls : List Bytes) (q : Option Summ) (st : PState),
    st.handler = [] → (∀ l ∈ ls, Quiet l) →
    parseLoop E source lookup q (ls ++ rest) st =
      parseLoop E source lookup (ls.foldl (before lookup) (q, st.w.handlerData)).1 rest
        (st.withData (ls.foldl (before lookup) (q, st.w.handlerData)).2)
  | [], q, st, _, _ => rfl
  | l :: ls, q, st, hh, hl => by
    rw [List.foldl_cons, List.cons_append]
    obtain ⟨s, hs⟩ : ∃ s, s = before lookup (q, st.w.handlerData) l := ⟨_, rfl⟩
    have step : parseLoop E source lookup q (l :: (ls ++ rest)) st = parseLoop E source lookup s.1 (ls ++ rest) (st.withData s.2) := by
      rw [hs]
      unfold before
      cases q with
      | none =>
        obtain ⟨h1, h2⟩ := quiet_find (hl l (by simp))
        rw [parseLoop]
        simp only [bodyTop]
        by_cases h0 : trimLine l = []
        · have hn : ptnSummaryStart.find [] = none := by decide
          rw [h0, hn]
          simp only [List.length_nil, if_true]
          rfl
        · rw [if_neg (by simpa using h0), h1, h2]
          simp only [Option.isSome_none, Bool.false_eq_true, if_false]
          cases ptnSummaryStart.find (trimLine l) with
          | none => simp only [rest_quiet hh]; rfl
          | some m => rfl
      | some q =>
        rw [parseLoop]
        simp only [bodySumm]
        cases ptnSummaryLine.find l with
        | some m => rfl
        | none =>
          simp only
          cases ptnSummaryLink.find l with
          | some m => rfl
          | none =>
            simp only
            rw [rest_quiet (by exact hh), endSummary_data]
            rfl
    rw [step, loop_before rest ls s.1 (st.withData s.2) hh fun x hx => hl x (by simp [hx]), ← hs]
    rfl

theorem pre_find {p q : Bytes} (hp : Pre p) {r : Re} : (Re.cat (.lit (0x3A :: q)) r).find p = none := by
  cases p with
  | nil => rfl
  | cons a p =>
    refine find_lit ?_
    rcases hp with h | ⟨t, h, _⟩
    · rw [h a (by simp)]; decide
    · cases h; decide

/-- A summary that was not ended is ended by the first line of the reports. -/
theorem loop_settle {E : Env} {source : Bytes} {lookup : Map Bytes Bytes} {st : PState} (hh : st.handler = []) (q : Option Summ)
    {ls : List Bytes} (hl : ∀ l t, ls = l :: t → Pre l) :
    ∃ D, parseLoop E source lookup q ls st = parseLoop E source lookup none ls (st.withData D) ∧ (q = none → D = st.w.handlerData) := by
  cases q with
  | none => exact ⟨_, rfl, fun _ => rfl⟩
  | some q =>
    cases ls with
    | nil =>
      refine ⟨st.w.handlerData, ?_, fun h => by cases h⟩
      simp only [parseLoop, rest_quiet hh]
      rfl
    | cons l ls =>
      have hp := hl l ls rfl
      refine ⟨endData lookup q st.w.handlerData, ?_, fun h => by cases h⟩
      rw [loop_next (top_blank hp), parseLoop]
      simp only [bodySumm]
      rw [show ptnSummaryLine.find l = none from pre_find hp, show ptnSummaryLink.find l = none from pre_find hp]
      simp only
      rw [rest_quiet (by exact hh), endSummary_data]
      rfl

end Verif.Data
