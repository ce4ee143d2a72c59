import Verif.Tools.Summary
import Verif.Data.HandlerData
import Verif.Data.SummLines
import Verif.Props.Setup

/-
C65: what creators say about their handlers reaches the server.
-/

set_option linter.unusedSimpArgs false

namespace Verif.Props.Summary
open Go Letters Lines Verif.Warning Verif.Data Verif.Tools Verif.Props.WarnReport Verif.Props.Setup

variable {F W O H L : Type}

/-! ### Specification -/

/-- A text without the white space around it. -/
def strip (l : Bytes) : Bytes := ((l.dropWhile isS).reverse.dropWhile isS).reverse

/-- Lines one after the other, with newlines between them. -/
def Joined : List Bytes → Bytes → Prop
  | [], s => s = []
  | [l], s => s = l
  | l :: ls, s => ∃ t, s = l ++ 0x0A :: t ∧ Joined ls t

/-- A line that does not start a summary: only number signs and white space may come
before the start. -/
def NoStart (l : Bytes) : Prop := ∀ u v, l = u ++ v → (∀ a ∈ u, a = 0x23 ∨ isS a = true) → ¬ b!":[" <+: v

/-- Lines of an output among which are those the suites of the creators print. -/
inductive Suites (order : Map Bytes Bytes → List (Bytes × Bytes)) : List (Creator W O H L) → List Bytes → Prop
  | done : Suites order [] []
  | other {l : Bytes} {cs : List (Creator W O H L)} {ls : List Bytes} : NoStart l → OneLine l → Quiet l → l.length < 65536 →
      Suites order cs ls → Suites order cs (l :: ls)
  | suite {c : Creator W O H L} {cs : List (Creator W O H L)} {ls : List Bytes} : Suites order cs ls →
      Suites order (c :: cs) (splitLines (c.setupSuite order) ++ ls)

/-- A creator whose name, summary and links can be read back. -/
structure OkCreator (order : Map Bytes Bytes → List (Bytes × Bytes)) (c : Creator W O H L) : Prop where
  name : Trim c.name
  named : c.name ≠ []
  /-- No line of the summary is blank. -/
  lines : ∀ ls, (∀ l ∈ ls, OneLine l) → Joined ls c.summary → ls ≠ [] → ∀ l ∈ ls, strip l ≠ []
  links : ∀ p ∈ c.links, Trim p.1 ∧ p.1 ≠ [] ∧ NoArrow p.1 ∧ Trim p.2 ∧ p.2 ≠ []
  /-- It is a map. -/
  keys : c.links.keys.Nodup
  short : ∀ l ∈ splitLines (c.setupSuite order), l.length < 65536

/-- The last creator to say something about the handler with a tag. -/
def told (lookup : Map Bytes Bytes) (h : Bytes) : List (Creator W O H L) → Option (Creator W O H L)
  | [] => none
  | c :: cs =>
    match told lookup h cs with
    | some d => some d
    | none => if c.summary ≠ [] ∧ lookup.get c.name = some h then some c else none

/-- The name the last report for a tag is about. -/
def reportedName (lookup : Map Bytes Bytes) (h : Bytes) : List Run → Option Bytes
  | [] => none
  | r :: rs =>
    match reportedName lookup h rs with
    | some n => some n
    | none => if tagOf lookup r.name = h then some r.name else none

/-- A link is noted. -/
def setLink (m : Map Bytes Bytes) (p : Bytes × Bytes) : Map Bytes Bytes := m.set p.1 p.2

/-! ### Lines of a suite -/

theorem strip_parts (l : Bytes) : ∃ sp tr, l = sp ++ strip l ++ tr ∧ (∀ a ∈ sp, isS a = true) ∧ (∀ a ∈ tr, isS a = true) := by
  have mem : ∀ (s : Bytes), ∀ a ∈ s.takeWhile isS, isS a = true := by
    intro s a ha
    induction s with
    | nil => cases ha
    | cons b s ih =>
      rw [List.takeWhile_cons] at ha
      split at ha
      · rcases List.mem_cons.1 ha with rfl | ha
        · assumption
        · exact ih ha
      · cases ha
  refine ⟨l.takeWhile isS, ((l.dropWhile isS).reverse.takeWhile isS).reverse, ?_, mem l, fun a ha => mem _ a (by simpa using ha)⟩
  have h : ((l.dropWhile isS).reverse.dropWhile isS).reverse ++ ((l.dropWhile isS).reverse.takeWhile isS).reverse = l.dropWhile isS := by
    rw [← List.reverse_append, List.takeWhile_append_dropWhile, List.reverse_reverse]
  unfold strip
  rw [List.append_assoc, h, List.takeWhile_append_dropWhile]

theorem dropWhile_head (s : Bytes) {a : UInt8} {t : Bytes} (h : s.dropWhile isS = a :: t) : isS a = false := by
  induction s with
  | nil => cases h
  | cons b s ih =>
    rw [List.dropWhile_cons] at h
    split at h
    · exact ih h
    · rename_i hb
      cases h
      simpa using hb

theorem strip_trim {l : Bytes} (h : OneLine l) : Trim (strip l) := by
  obtain ⟨sp, tr, e, _, _⟩ := strip_parts l
  refine ⟨?_, ?_, ?_⟩
  · intro a t ha
    -- the first one is the first after the white space
    unfold strip at ha
    have h1 : l.dropWhile isS = (a :: t) ++ ((l.dropWhile isS).reverse.takeWhile isS).reverse := by
      rw [← ha, ← List.reverse_append, List.takeWhile_append_dropWhile, List.reverse_reverse]
    exact dropWhile_head l (by rw [h1]; rfl)
  · intro a t ha
    unfold strip at ha
    have h1 := congrArg List.reverse ha
    rw [List.reverse_reverse, List.reverse_append] at h1
    exact dropWhile_head _ h1
  · intro a ha
    have := h a (by rw [e]; simp [ha])
    unfold isDot
    simpa using this

/-- Text that has no white space around it stays as it is. -/
theorem strip_of {l : Bytes} (h : Trim l) : strip l = l := by
  obtain ⟨sp, tr, e, hsp, htr⟩ := strip_parts l
  have h1 : sp = [] := by
    cases sp with
    | nil => rfl
    | cons a sp =>
      have := h.first a _ (by rw [e]; rfl)
      rw [hsp a (by simp)] at this; cases this
  have h2 : tr = [] := by
    rcases List.eq_nil_or_concat tr with h2 | ⟨t, a, rfl⟩
    · exact h2
    · have := h.last a (sp ++ strip l ++ t) (by rw [List.concat_eq_append, ← List.append_assoc] at e; exact e)
      rw [htr a (by simp)] at this; cases this
  subst h1 h2
  simpa using e.symm

theorem splitNL_spec : ∀ s : Bytes, (∀ l ∈ splitNL s, OneLine l) ∧ Joined (splitNL s) s ∧ splitNL s ≠ []
  | [] => ⟨by simp [splitNL, OneLine], rfl, by simp [splitNL]⟩
  | a :: s => by
    obtain ⟨h1, h2, h3⟩ := splitNL_spec s
    rw [splitNL]
    split
    · rename_i ha
      subst ha
      refine ⟨?_, ?_, by simp⟩
      · intro l hl
        rcases List.mem_cons.1 hl with rfl | hl
        · intro b hb; cases hb
        · exact h1 l hl
      · obtain ⟨x, xs, e⟩ := List.exists_cons_of_ne_nil h3
        rw [e] at h2 ⊢
        exact ⟨s, rfl, h2⟩
    · rename_i ha
      obtain ⟨x, xs, e⟩ := List.exists_cons_of_ne_nil h3
      rw [e] at h1 h2 ⊢
      refine ⟨?_, ?_, by simp⟩
      · intro l hl
        rcases List.mem_cons.1 hl with rfl | hl
        · intro b hb
          rcases List.mem_cons.1 hb with rfl | hb
          · exact ha
          · exact h1 x (by simp) b hb
        · exact h1 l (by simp [hl])
      · cases xs with
        | nil => cases (show s = x from h2); rfl
        | cons y ys =>
          obtain ⟨t, rfl, ht⟩ := h2
          exact ⟨t, rfl, ht⟩

theorem joined_join : ∀ ls : List Bytes, Joined ls (joinWith [0x0A] ls)
  | [] => rfl
  | [l] => rfl
  | l :: m :: ls => ⟨joinWith [0x0A] (m :: ls), by simp [joinWith], joined_join (m :: ls)⟩

/-- The lines of a suite. -/
def suiteLines (order : Map Bytes Bytes → List (Bytes × Bytes)) (c : Creator W O H L) : List Bytes :=
  (b!":[ " ++ c.name) :: ((splitNL c.summary).map (b!":: " ++ ·) ++
    (order c.links).map (fun p => b!":> " ++ p.1 ++ b!" --> " ++ p.2) ++ [b!":]"])

theorem unlines_map {α : Type} (f : α → Bytes) (l : List α) (s : List Bytes) : unlines (l.map f ++ s) = (l.map fun x => f x ++ b!"\n").flatten ++ unlines s := by
  induction l with
  | nil => rfl
  | cons a l ih => simp [unlines, ih]

theorem suite_text {order : Map Bytes Bytes → List (Bytes × Bytes)} {c : Creator W O H L} (h : c.summary ≠ []) :
    c.setupSuite order = unlines (suiteLines order c) := by
  unfold Creator.setupSuite suiteLines Creator.hasSummary
  rw [if_pos (by simpa using h), unlines, List.append_assoc (List.map _ _), unlines_map, unlines_map]
  simp [unlines]

theorem splitLines_all : ∀ {ls : List Bytes}, (∀ l ∈ ls, OneLine l) → splitLines (unlines ls) = ls
  | [], _ => rfl
  | l :: ls, h => by
    rw [unlines, splitLines_line (h l (by simp)), splitLines_all fun x hx => h x (by simp [hx])]

theorem one_of_dots {l : Bytes} (h : Trim l) : OneLine l := trim_one h

theorem suite_one {order : Map Bytes Bytes → List (Bytes × Bytes)} (ho : ∀ m, (order m).Perm m) {c : Creator W O H L} (hc : OkCreator order c) :
    ∀ l ∈ suiteLines order c, OneLine l := by
  intro l hl
  unfold suiteLines at hl
  rcases List.mem_cons.1 hl with rfl | hl
  · exact one_append (by simp [OneLine]) (trim_one hc.name)
  · simp only [List.mem_append, List.mem_map, List.mem_singleton] at hl
    rcases hl with (⟨x, hx, rfl⟩ | ⟨p, hp, rfl⟩) | rfl
    · exact one_append (by simp [OneLine]) ((splitNL_spec _).1 x hx)
    · obtain ⟨h1, _, _, h2, _⟩ := hc.links p ((ho _).mem_iff.1 hp)
      exact one_append (one_append (one_append (by simp [OneLine]) (trim_one h1)) (by simp [OneLine])) (trim_one h2)
    · simp [OneLine]

theorem suite_lines {order : Map Bytes Bytes → List (Bytes × Bytes)} (ho : ∀ m, (order m).Perm m) {c : Creator W O H L} (hc : OkCreator order c)
    (h : c.summary ≠ []) : splitLines (c.setupSuite order) = suiteLines order c := by
  rw [suite_text h, splitLines_all (suite_one ho hc)]

/-- Lines of a suite are not headings. -/
theorem suite_quiet {order : Map Bytes Bytes → List (Bytes × Bytes)} {c : Creator W O H L} : ∀ l ∈ suiteLines order c, Quiet l := by
  have key : ∀ t : Bytes, Quiet (0x3A :: t) := by
    intro t u v e hu
    cases u with
    | nil =>
      cases (show v = 0x3A :: t from e.symm)
      exact ⟨fun h => by simp at h, fun h => by simp at h⟩
    | cons a u =>
      cases e
      rcases hu 0x3A (by simp) with h | h
      · cases h
      · exact absurd h (by decide)
  intro l hl
  unfold suiteLines at hl
  rcases List.mem_cons.1 hl with rfl | hl
  · exact key _
  · simp only [List.mem_append, List.mem_map, List.mem_singleton] at hl
    rcases hl with (⟨x, hx, rfl⟩ | ⟨p, hp, rfl⟩) | rfl <;> exact key _

/-! ### Reading the lines of a suite -/

theorem dropCR_solid {l : Bytes} (h : ∀ a ∈ l.getLast?, isS a = false) : dropCR l = l := by
  refine dropCR_of fun e => ?_
  have := h _ e
  revert this; decide

theorem trim_last {p l : Bytes} (h : Trim l) (h0 : l ≠ []) : ∀ a ∈ (p ++ l).getLast?, isS a = false := by
  intro a ha
  obtain ⟨t, b, rfl⟩ : ∃ t b, l = t ++ [b] := ⟨l.dropLast, l.getLast h0, (List.dropLast_concat_getLast h0).symm⟩
  rw [← List.append_assoc, List.getLast?_append] at ha
  simp at ha
  subst ha
  exact h.last b t rfl

theorem before_start {lookup : Map Bytes Bytes} {D : Map Bytes HData} {N : Bytes} (h : Trim N) (h0 : N ≠ []) :
    before lookup (none, D) (dropCR (b!":[ " ++ N)) = (some { start := b!":[ " ++ N, name := N }, D) := by
  rw [dropCR_solid (trim_last h h0)]
  have ht : trimLine (b!":[ " ++ N) = b!":[ " ++ N := by
    have := trimLine_line (p := []) (sp := []) (tr := []) (X := b!":[ " ++ N) (.inl (by simp)) (by simp) (by simp)
      (by intro a t e; cases e; decide)
      (by
        intro a t e ha
        have := trim_last (p := b!":[ ") h h0 a (by rw [e]; simp)
        rw [ha] at this; revert this; decide)
      (by simp) (.inr (by intro a t e; cases e; decide))
    simpa using this
  have hf : ptnSummaryStart.find (b!":[ " ++ N) = some [(1, N)] := by
    have := find_marked (p := b!":[") (sp := b!" ") (X := N) (tr := []) (by simp; decide) h h0 (by simp)
    rw [List.append_nil] at this
    exact this
  unfold Data.before
  simp only
  rw [ht, hf]
  rfl

theorem line_dropCR {sp X tr : Bytes} (hX : Trim X) (h0 : X ≠ []) (htr : ∀ a ∈ tr, isS a = true) :
    ∃ tr', (∀ a ∈ tr', isS a = true) ∧ dropCR (b!":: " ++ (sp ++ X ++ tr)) = b!"::" ++ ((0x20 :: sp) ++ (X ++ tr')) := by
  rcases List.eq_nil_or_concat tr with rfl | ⟨t, a, rfl⟩
  · refine ⟨[], by simp, ?_⟩
    rw [List.append_nil, ← List.append_assoc, dropCR_solid (trim_last hX h0)]
    simp
  · rw [List.concat_eq_append, show b!":: " ++ (sp ++ X ++ (t ++ [a])) = (b!":: " ++ sp ++ X ++ t) ++ [a] by simp]
    by_cases ha : a = 0x0D
    · subst ha
      refine ⟨t, fun b hb => htr b (by simp [hb]), ?_⟩
      rw [dropCR_cr]
      simp
    · refine ⟨t ++ [a], by simpa using htr, ?_⟩
      rw [dropCR_of (by unfold NoCR; rw [List.getLast?_append]; simpa using ha)]
      simp

theorem before_line {lookup : Map Bytes Bytes} {D : Map Bytes HData} {q : Summ} {l : Bytes} (h : OneLine l) (h0 : strip l ≠ []) :
    before lookup (some q, D) (dropCR (b!":: " ++ l)) = (some { q with lines := q.lines ++ [strip l] }, D) := by
  obtain ⟨sp, tr, e, hsp, htr⟩ := strip_parts l
  have hX := strip_trim h
  obtain ⟨tr', htr', e'⟩ := line_dropCR (sp := sp) hX h0 htr
  rw [← e] at e'
  have hf : ptnSummaryLine.find (dropCR (b!":: " ++ l)) = some [(1, strip l)] := by
    rw [e']
    exact find_marked (by
      intro a ha
      rcases List.mem_cons.1 ha with rfl | ha
      · decide
      · exact hsp a ha) hX h0 htr'
  unfold Data.before
  simp only
  rw [hf]
  rfl

theorem before_link {lookup : Map Bytes Bytes} {D : Map Bytes HData} {q : Summ} {N X : Bytes} (hN : Trim N) (hN0 : N ≠ []) (hA : NoArrow N)
    (hX : Trim X) (hX0 : X ≠ []) :
    before lookup (some q, D) (dropCR (b!":> " ++ N ++ b!" --> " ++ X)) = (some { q with links := q.links.set N X }, D) := by
  rw [dropCR_solid (trim_last hX hX0)]
  have h1 : ptnSummaryLine.find (b!":> " ++ N ++ b!" --> " ++ X) = none := rfl
  unfold Data.before
  simp only
  rw [h1, find_link hN hN0 hA hX hX0]
  rfl

theorem before_end {lookup : Map Bytes Bytes} {D : Map Bytes HData} {q : Summ} :
    before lookup (some q, D) (dropCR b!":]") = (none, endData lookup q D) := rfl

theorem before_lines {lookup : Map Bytes Bytes} {D : Map Bytes HData} : ∀ (ls : List Bytes) (q : Summ), (∀ l ∈ ls, OneLine l ∧ strip l ≠ []) →
    ((ls.map (b!":: " ++ ·)).map dropCR).foldl (before lookup) (some q, D) = (some { q with lines := q.lines ++ ls.map strip }, D)
  | [], q, _ => by simp
  | l :: ls, q, h => by
    rw [List.map_cons, List.map_cons, List.foldl_cons, before_line (h l (by simp)).1 (h l (by simp)).2,
      before_lines ls _ fun x hx => h x (by simp [hx])]
    simp

theorem before_links {lookup : Map Bytes Bytes} {D : Map Bytes HData} : ∀ (ps : List (Bytes × Bytes)) (q : Summ),
    (∀ p ∈ ps, Trim p.1 ∧ p.1 ≠ [] ∧ NoArrow p.1 ∧ Trim p.2 ∧ p.2 ≠ []) →
    ((ps.map fun p => b!":> " ++ p.1 ++ b!" --> " ++ p.2).map dropCR).foldl (before lookup) (some q, D) =
      (some { q with links := ps.foldl setLink q.links }, D)
  | [], q, _ => rfl
  | p :: ps, q, h => by
    obtain ⟨h1, h2, h3, h4, h5⟩ := h p (by simp)
    rw [List.map_cons, List.map_cons, List.foldl_cons, before_link h1 h2 h3 h4 h5, before_links ps _ fun x hx => h x (by simp [hx])]
    rfl

/-- What a suite adds to what is known of the handlers. -/
def addSuite (lookup : Map Bytes Bytes) (order : Map Bytes Bytes → List (Bytes × Bytes)) (D : Map Bytes HData) (c : Creator W O H L) : Map Bytes HData :=
  if c.summary = [] then D
  else endData lookup ⟨b!":[ " ++ c.name, c.name, (splitNL c.summary).map strip, (order c.links).foldl setLink []⟩ D

theorem before_suite {lookup : Map Bytes Bytes} {order : Map Bytes Bytes → List (Bytes × Bytes)} (ho : ∀ m, (order m).Perm m)
    {c : Creator W O H L} (hc : OkCreator order c) (D : Map Bytes HData) :
    ((splitLines (c.setupSuite order)).map dropCR).foldl (before lookup) (none, D) = (none, addSuite lookup order D c) := by
  unfold addSuite
  by_cases h : c.summary = []
  · rw [if_pos h]
    unfold Creator.setupSuite Creator.hasSummary
    rw [if_neg (by simpa using h)]
    rfl
  · rw [if_neg h, suite_lines ho hc h]
    unfold suiteLines
    rw [List.map_cons, List.foldl_cons, before_start hc.name hc.named, List.map_append, List.map_append, List.foldl_append, List.foldl_append]
    obtain ⟨s1, s2, s3⟩ := splitNL_spec c.summary
    rw [before_lines _ _ fun l hl => ⟨s1 l hl, hc.lines _ s1 s2 s3 l hl⟩,
      before_links _ _ fun p hp => hc.links p ((ho _).mem_iff.1 hp)]
    rfl

theorem before_other {lookup : Map Bytes Bytes} {D : Map Bytes HData} {l : Bytes} (h : NoStart l) : before lookup (none, D) (dropCR l) = (none, D) := by
  have : ptnSummaryStart.find (trimLine (dropCR l)) = none := by
    rw [Re.find_none]
    intro x hx
    obtain ⟨u, v, e, hu⟩ := trim_parts (dropCR l)
    obtain ⟨c, hc⟩ : ∃ c, l = dropCR l ++ c := by
      unfold dropCR
      split
      · exact ⟨[0x0D], by rename_i h; obtain ⟨t, rfl⟩ := List.getLast?_eq_some_iff.1 h; simp⟩
      · exact ⟨[], by simp⟩
    unfold ptnSummaryStart at hx
    simp only [seq] at hx
    generalize trimLine (dropCR l) = z at *
    cases hx with
    | cat h1 _ =>
      cases h1
      rename_i t _
      refine h u (b!":[" ++ t ++ v ++ c) ?_ hu ⟨t ++ v ++ c, by simp⟩
      rw [hc, e]; simp
  unfold Data.before
  simp only
  rw [this]

theorem before_suites {lookup : Map Bytes Bytes} {order : Map Bytes Bytes → List (Bytes × Bytes)} (ho : ∀ m, (order m).Perm m)
    {cs : List (Creator W O H L)} {ls : List Bytes} (hs : Suites order cs ls) (hc : ∀ c ∈ cs, OkCreator order c) :
    Quiets ls ∧ ∀ D, beforeAll lookup ls D = (none, cs.foldl (addSuite lookup order) D) := by
  induction hs with
  | done => exact ⟨quiets_nil, fun D => rfl⟩
  | other h1 h2 h3 h4 _ ih =>
    obtain ⟨hq, hd⟩ := ih hc
    refine ⟨⟨?_, ?_, ?_⟩, fun D => ?_⟩
    · intro l hl
      rcases List.mem_cons.1 hl with rfl | hl
      · exact h2
      · exact hq.one l hl
    · intro l hl
      rcases List.mem_cons.1 hl with rfl | hl
      · exact h3
      · exact hq.quiet l hl
    · intro l hl
      rcases List.mem_cons.1 hl with rfl | hl
      · exact h4
      · exact hq.short l hl
    · unfold beforeAll
      rw [List.map_cons, List.foldl_cons, before_other h1]
      exact hd D
  | @suite c cs ls _ ih =>
    obtain ⟨hq, hd⟩ := ih fun x hx => hc x (by simp [hx])
    have hc0 := hc c (by simp)
    have hb := before_suite (lookup := lookup) ho hc0
    have hx : ∀ l ∈ splitLines (c.setupSuite order), OneLine l ∧ Quiet l := by
      by_cases h : c.summary = []
      · unfold Creator.setupSuite Creator.hasSummary
        rw [if_neg (by simpa using h)]
        intro l hl; cases hl
      · rw [suite_lines ho hc0 h]
        exact fun l hl => ⟨suite_one ho hc0 l hl, suite_quiet l hl⟩
    refine ⟨⟨?_, ?_, ?_⟩, fun D => ?_⟩
    · intro l hl
      rcases List.mem_append.1 hl with hl | hl
      · exact (hx l hl).1
      · exact hq.one l hl
    · intro l hl
      rcases List.mem_append.1 hl with hl | hl
      · exact (hx l hl).2
      · exact hq.quiet l hl
    · intro l hl
      rcases List.mem_append.1 hl with hl | hl
      · exact hc0.short l hl
      · exact hq.short l hl
    · have hd := hd (addSuite lookup order D c)
      unfold beforeAll at hd ⊢
      rw [List.map_append, List.foldl_append, hb, hd]
      rfl

/-! ### What is known of a handler -/

theorem links_fold (ps : List (Bytes × Bytes)) : ∀ (m : Map Bytes Bytes) (k : Bytes), (ps.map Prod.fst).Nodup →
    (ps.foldl setLink m).get k = ((Map.get (ps : Map Bytes Bytes) k).or (m.get k)) := by
  induction ps with
  | nil => intro m k _; rfl
  | cons p ps ih =>
    intro m k hn
    rw [List.map_cons, List.nodup_cons] at hn
    rw [List.foldl_cons, ih _ k hn.2, setLink, Map.get_set]
    obtain ⟨a, b⟩ := p
    rw [Map.get_cons]
    by_cases h : a = k
    · subst h
      have : Map.get (ps : Map Bytes Bytes) a = none := by
        rw [← Option.not_isSome_iff_eq_none, ← Map.mem_keys]
        exact hn.1
      simp [this]
    · have h' : ¬ k = a := fun e => h e.symm
      simp [h, h']

theorem links_get {ps m : Map Bytes Bytes} (hp : List.Perm ps m) (hn : m.keys.Nodup) (k : Bytes) :
    (ps.foldl setLink ([] : Map Bytes Bytes)).get k = m.get k := by
  have hn' : (ps.map Prod.fst).Nodup := (hp.map Prod.fst).nodup_iff.2 hn
  rw [links_fold ps [] k hn']
  cases h : m.get k with
  | none =>
    have : Map.get ps k = none := by
      rw [← Option.not_isSome_iff_eq_none, ← Map.mem_keys]
      intro hk
      have : k ∈ m.keys := (hp.map Prod.fst).mem_iff.1 hk
      rw [Map.mem_keys, h] at this
      cases this
    rw [this]; rfl
  | some v =>
    rw [Map.get_of_mem hn' (hp.mem_iff.2 (Map.mem_of_get h))]
    rfl

/-- What a creator has said. -/
def saidBy (order : Map Bytes Bytes → List (Bytes × Bytes)) (c : Creator W O H L) (d : HData) : Prop :=
  d.summary = joinWith [0x0A] ((splitNL c.summary).map strip) ∧ d.links = (order c.links).foldl setLink []

theorem suites_get (lookup : Map Bytes Bytes) (order : Map Bytes Bytes → List (Bytes × Bytes)) (h : Bytes) :
    ∀ (cs : List (Creator W O H L)) (D : Map Bytes HData),
    (∀ c, told lookup h cs = some c → ∃ d, (cs.foldl (addSuite lookup order) D).get h = some d ∧ saidBy order c d ∧ d.name = ((D.get h).getD {}).name) ∧
    (told lookup h cs = none → (cs.foldl (addSuite lookup order) D).get h = D.get h)
  | [], D => ⟨fun c hc => (by cases hc), fun _ => rfl⟩
  | c :: cs, D => by
    obtain ⟨i1, i2⟩ := suites_get lookup order h cs (addSuite lookup order D c)
    have hn : (((addSuite lookup order D c).get h).getD {}).name = ((D.get h).getD {}).name := by
      unfold addSuite endData
      split
      · rfl
      · cases hl : lookup.get c.name with
        | none => rfl
        | some k =>
          simp only [Map.get_set]
          split
          · rename_i e; subst e; rfl
          · rfl
    constructor
    · intro x hx
      rw [told] at hx
      rw [List.foldl_cons]
      cases ht : told lookup h cs with
      | some y =>
        rw [ht] at hx
        cases hx
        obtain ⟨d, h1, h2, h3⟩ := i1 _ ht
        exact ⟨d, h1, h2, h3.trans hn⟩
      | none =>
        rw [ht] at hx
        simp only at hx
        split at hx
        · rename_i hl
          cases hx
          rw [i2 ht]
          unfold addSuite endData
          rw [if_neg hl.1]
          simp only [hl.2, Map.get_set, if_true]
          exact ⟨_, rfl, ⟨rfl, rfl⟩, rfl⟩
        · cases hx
    · intro hx
      rw [told] at hx
      rw [List.foldl_cons]
      cases ht : told lookup h cs with
      | some y => rw [ht] at hx; cases hx
      | none =>
        rw [ht] at hx
        simp only at hx
        split at hx
        · cases hx
        · rename_i hl
          rw [i2 ht]
          unfold addSuite endData
          split
          · rfl
          · rename_i hne
            cases hk : lookup.get c.name with
            | none => rfl
            | some k =>
              simp only [Map.get_set]
              rw [if_neg]
              rintro rfl
              exact hl ⟨hne, hk⟩

theorem named_get (E : Env) (lookup : Map Bytes Bytes) (h : Bytes) : ∀ (rs : List Run) (D : Map Bytes HData),
    (∀ n, reportedName lookup h rs = some n → (rs.foldl (fun D r => named E lookup D r.name) D).get h =
      some { (D.get h).getD {} with name := if (lookup.get n).isSome then n else defaultName E n }) ∧
    (reportedName lookup h rs = none → (rs.foldl (fun D r => named E lookup D r.name) D).get h = D.get h)
  | [], D => ⟨fun c hc => (by cases hc), fun _ => rfl⟩
  | r :: rs, D => by
    obtain ⟨i1, i2⟩ := named_get E lookup h rs (named E lookup D r.name)
    have hg : (named E lookup D r.name).get h = if tagOf lookup r.name = h then
        some { (D.get h).getD {} with name := if (lookup.get r.name).isSome then r.name else defaultName E r.name } else D.get h := by
      unfold named tagOf
      cases lookup.get r.name with
      | none =>
        simp only [Map.get_set, Option.getD_none]
        by_cases e : r.name = h
        · subst e; simp
        · rw [if_neg e, if_neg (fun x => e x.symm)]
      | some k =>
        simp only [Map.get_set, Option.getD_some]
        by_cases e : k = h
        · subst e; simp
        · rw [if_neg e, if_neg (fun x => e x.symm)]
    constructor
    · intro n hn
      rw [reportedName] at hn
      rw [List.foldl_cons]
      cases ht : reportedName lookup h rs with
      | some y =>
        rw [ht] at hn
        cases hn
        rw [i1 _ ht, hg]
        split <;> rfl
      | none =>
        rw [ht] at hn
        simp only at hn
        split at hn
        · rename_i e
          cases hn
          rw [i2 ht, hg, if_pos e]
        · cases hn
    · intro hn
      rw [reportedName] at hn
      rw [List.foldl_cons]
      cases ht : reportedName lookup h rs with
      | some y => rw [ht] at hn; cases hn
      | none =>
        rw [ht] at hn
        simp only at hn
        split at hn
        · cases hn
        · rename_i e
          rw [i2 ht, hg, if_neg e]

theorem reportedName_append (lookup : Map Bytes Bytes) (h : Bytes) (vs : List Run) : ∀ rs : List Run,
    reportedName lookup h (rs ++ vs) = (reportedName lookup h vs).or (reportedName lookup h rs)
  | [] => by cases h : reportedName lookup _ vs <;> simp [reportedName, h]
  | r :: rs => by
    rw [List.cons_append, reportedName, reportedName_append lookup h vs rs]
    cases h1 : reportedName lookup h vs with
    | some n => rfl
    | none =>
      simp only [Option.none_or]
      rw [reportedName]

/-- The name shown for a name in a report. -/
def nice (E : Env) (lookup : Map Bytes Bytes) (n : Bytes) : Bytes := if (lookup.get n).isSome then n else defaultName E n

/-- What is known of a handler in the end. -/
theorem final_get (E : Env) (lookup : Map Bytes Bytes) (order : Map Bytes Bytes → List (Bytes × Bytes)) (rs vs : List Run) (cs : List (Creator W O H L)) (h : Bytes)
    {D : Map Bytes HData} (hD : D = vs.foldl (fun D r => named E lookup D r.name)
      (cs.foldl (addSuite lookup order) (rs.foldl (fun D r => named E lookup D r.name) []))) :
    (∀ c, told lookup h cs = some c → ∃ d, D.get h = some d ∧ saidBy order c d) ∧
    (told lookup h cs = none → ∀ d, D.get h = some d → d.summary = [] ∧ d.links = []) ∧
    (∀ n, reportedName lookup h (rs ++ vs) = some n → ∃ d, D.get h = some d ∧ d.name = nice E lookup n) ∧
    (reportedName lookup h (rs ++ vs) = none → told lookup h cs = none → D.get h = none) ∧
    (reportedName lookup h (rs ++ vs) = none → told lookup h cs ≠ none → ∃ d, D.get h = some d ∧ d.name = []) := by
  obtain ⟨a1, a2⟩ := named_get E lookup h rs []
  generalize rs.foldl (fun D r => named E lookup D r.name) [] = D1 at *
  obtain ⟨b1, b2⟩ := suites_get lookup order h cs D1
  generalize cs.foldl (addSuite lookup order) D1 = D2 at *
  obtain ⟨c1, c2⟩ := named_get E lookup h vs D2
  rw [← hD] at c1 c2
  have hbare : ((D1.get h).getD {}).summary = [] ∧ ((D1.get h).getD {}).links = [] := by
    cases hr : reportedName lookup h rs with
    | some n => rw [a1 n hr]; exact ⟨rfl, rfl⟩
    | none => rw [a2 hr]; exact ⟨rfl, rfl⟩
  have hkeep : ((D.get h).getD {}).summary = ((D2.get h).getD {}).summary ∧ ((D.get h).getD {}).links = ((D2.get h).getD {}).links := by
    cases hr : reportedName lookup h vs with
    | some n => rw [c1 n hr]; exact ⟨rfl, rfl⟩
    | none => rw [c2 hr]; exact ⟨rfl, rfl⟩
  have hsome : ∀ d, D2.get h = some d → ∃ d', D.get h = some d' := by
    intro d hd
    cases hr : reportedName lookup h vs with
    | some n => exact ⟨_, c1 n hr⟩
    | none => exact ⟨d, by rw [c2 hr, hd]⟩
  have hname2 : ((D2.get h).getD {}).name = ((D1.get h).getD {}).name := by
    cases ht : told lookup h cs with
    | some c => obtain ⟨d, e, _, hn⟩ := b1 c ht; rw [e]; exact hn
    | none => rw [b2 ht]
  rw [reportedName_append]
  refine ⟨?_, ?_, ?_, ?_, ?_⟩
  · intro c hc
    obtain ⟨d, e, ⟨s1, s2⟩, _⟩ := b1 c hc
    obtain ⟨d', e'⟩ := hsome d e
    rw [e, e'] at hkeep
    exact ⟨d', e', hkeep.1.trans s1, hkeep.2.trans s2⟩
  · intro hn d hd
    rw [hd, b2 hn, hbare.1, hbare.2] at hkeep
    exact hkeep
  · intro n hn
    cases hr : reportedName lookup h vs with
    | some m =>
      rw [hr] at hn
      cases hn
      exact ⟨_, c1 n hr, rfl⟩
    | none =>
      rw [hr, Option.none_or] at hn
      rw [a1 n hn] at hname2
      cases e2 : D2.get h with
      | none =>
        exfalso
        cases ht : told lookup h cs with
        | some c => obtain ⟨d, e, _⟩ := b1 c ht; rw [e2] at e; cases e
        | none =>
          have := b2 ht
          rw [e2, a1 n hn] at this
          cases this
      | some d =>
        rw [e2] at hname2
        exact ⟨d, by rw [c2 hr, e2], hname2⟩
  · intro hn ht
    cases hr : reportedName lookup h vs with
    | some m => rw [hr] at hn; cases hn
    | none =>
      rw [hr, Option.none_or] at hn
      rw [c2 hr, b2 ht, a2 hn]
      rfl
  · intro hn ht
    cases hr : reportedName lookup h vs with
    | some m => rw [hr] at hn; cases hn
    | none =>
      rw [hr, Option.none_or] at hn
      obtain ⟨c, hc⟩ := Option.ne_none_iff_exists'.1 ht
      obtain ⟨d, e, _, hd⟩ := b1 c hc
      rw [a2 hn] at hd
      exact ⟨d, by rw [c2 hr, e], hd⟩

/-! ### C65 -/

/-- What the server is to know of a handler when a creator has said something about it. -/
structure Shown (w : Warns) (h : Bytes) (c : Creator W O H L) : Prop where
  has : w.hasHandlerSummary h = true
  /-- The lines of the summary, without white space around them. -/
  summary : ∃ ls t, ls ≠ [] ∧ (∀ l ∈ ls, OneLine l) ∧ Joined ls c.summary ∧ Joined (ls.map strip) t ∧ ∀ md, w.handlerSummaryHTML md h = md t
  links : ∀ k, (w.handlerLinks h).get k = c.links.get k
  hasLinks : w.hasHandlerLinks h = c.hasLinks

/-- What the server is to know of a handler when no creator has said something about it. -/
structure Unknown (w : Warns) (h : Bytes) : Prop where
  has : w.hasHandlerSummary h = false
  links : w.handlerLinks h = []
  hasLinks : w.hasHandlerLinks h = false

theorem joined_ne {l : Bytes} {ls : List Bytes} {t : Bytes} (h : Joined (l :: ls) t) (hl : l ≠ []) : t ≠ [] := by
  cases ls with
  | nil => rw [show t = l from h]; exact hl
  | cons m ls =>
    obtain ⟨x, rfl, _⟩ := h
    simp

theorem empty_iff {m : Map Bytes Bytes} : m.length > 0 ↔ ∃ k v, m.get k = some v := by
  cases m with
  | nil => simp [Map.get_nil]
  | cons p m =>
    obtain ⟨k, v⟩ := p
    simp only [List.length_cons, gt_iff_lt, Nat.zero_lt_succ, true_iff]
    exact ⟨k, v, by rw [Map.get_cons, if_pos rfl]⟩

/-- C65: after a benchmark run and a verification run, the server knows for every tag the summary and the links of the
last creator whose name belongs to the tag, and nothing if there is none; it shows the name of the last report for the tag. -/
theorem C65_partial {E : Env} (hL : LowersLib E.lib) {fl : Floats F} {S : Sorter} {pick names : List Bytes → List Bytes} (hp : ∀ l, (pick l).Perm l)
    {bench verify : Bytes} {b : Bench F} {rs vs : List Run} (hg : Given E fl S pick bench verify b (b.handlerLookup names).2 rs vs)
    {order : Map Bytes Bytes → List (Bytes × Bytes)} (ho : ∀ m, (order m).Perm m) {cs : List (Creator W O H L)} (hc : ∀ c ∈ cs, OkCreator order c)
    {ls : List Bytes} (hs : Suites order cs ls) {tail : Bytes} (ht : verify = unlines ls ++ printed S pick vs ++ tail) (ha : After tail) :
    ∃ w, setup E fl names {} {} bench verify = some ((b.handlerLookup names).1, w, false) ∧ ∀ h,
      (∀ c, told (b.handlerLookup names).2 h cs = some c → Shown w h c) ∧
      (told (b.handlerLookup names).2 h cs = none → Unknown w h) ∧
      (∀ n, reportedName (b.handlerLookup names).2 h (rs ++ vs) = some n →
        w.handlerName h = if (b.handlerLookup names).2.get n = some h then n else defaultName E n) ∧
      (reportedName (b.handlerLookup names).2 h (rs ++ vs) = none →
        w.handlerName h = if (told (b.handlerLookup names).2 h cs).isSome then [] else h) := by
  obtain ⟨w, hw, _, _, hd⟩ := setup_reads hL hp hg
  refine ⟨w, hw, fun h => ?_⟩
  obtain ⟨hq, hb⟩ := before_suites (lookup := (b.handlerLookup names).2) ho hs hc
  have hd := hd ls tail ht hq ha (by rw [hb])
  rw [hb] at hd
  generalize (b.handlerLookup names).2 = lookup at *
  obtain ⟨f1, f2, f3, f4, f5⟩ := final_get E lookup order rs vs cs h hd
  have mem : ∀ (cs : List (Creator W O H L)) c, told lookup h cs = some c → c ∈ cs ∧ c.summary ≠ [] := by
    intro cs
    induction cs with
    | nil => intro c hc; cases hc
    | cons x cs ih =>
      intro c hc
      rw [told] at hc
      split at hc
      · rename_i e
        cases hc
        exact ⟨List.mem_cons_of_mem _ (ih c e).1, (ih c e).2⟩
      · split at hc
        · rename_i hx
          cases hc
          exact ⟨by simp, hx.1⟩
        · cases hc
  refine ⟨fun c htold => ?_, fun htold => ?_, fun n hn => ?_, fun hn => ?_⟩
  · obtain ⟨d, e, s1, s2⟩ := f1 c htold
    obtain ⟨hcm, hne⟩ := mem cs c htold
    obtain ⟨n1, n2, n3⟩ := splitNL_spec c.summary
    have hsum : d.summary ≠ [] := by
      rw [s1]
      have hl := (hc c hcm).lines _ n1 n2 n3
      obtain ⟨l, xs, ex⟩ := List.exists_cons_of_ne_nil n3
      rw [ex] at hl ⊢
      exact joined_ne (joined_join _) (hl l (by simp))
    have hlinks : ∀ k, d.links.get k = c.links.get k := by
      intro k
      rw [s2]
      exact links_get (ho _) (hc c hcm).keys k
    refine ⟨?_, ⟨splitNL c.summary, d.summary, n3, n1, n2, by rw [s1]; exact joined_join _, fun md => ?_⟩, fun k => ?_, ?_⟩
    · unfold Warns.hasHandlerSummary; rw [e]; simpa using hsum
    · unfold Warns.handlerSummaryHTML; rw [e]
    · unfold Warns.handlerLinks; rw [e]; exact hlinks k
    · unfold Warns.hasHandlerLinks Creator.hasLinks
      rw [e]
      simp only
      rw [Bool.eq_iff_iff, decide_eq_true_iff, decide_eq_true_iff, empty_iff, empty_iff]
      exact ⟨fun ⟨k, v, hv⟩ => ⟨k, v, by rw [← hlinks]; exact hv⟩, fun ⟨k, v, hv⟩ => ⟨k, v, by rw [hlinks]; exact hv⟩⟩
  · have h2 := f2 htold
    cases e : w.handlerData.get h with
    | none =>
      refine ⟨?_, ?_, ?_⟩
      · unfold Warns.hasHandlerSummary; rw [e]
      · unfold Warns.handlerLinks; rw [e]
      · unfold Warns.hasHandlerLinks; rw [e]
    | some d =>
      obtain ⟨e1, e2⟩ := h2 d e
      refine ⟨?_, ?_, ?_⟩
      · unfold Warns.hasHandlerSummary; rw [e]; simp [e1]
      · unfold Warns.handlerLinks; rw [e]; exact e2
      · unfold Warns.hasHandlerLinks; rw [e]; simp [e2]
  · obtain ⟨d, e, hd⟩ := f3 n hn
    have htag : ∀ (rs : List Run), reportedName lookup h rs = some n → tagOf lookup n = h := by
      intro rs
      induction rs with
      | nil => intro hc; cases hc
      | cons r rs ih =>
        intro hx
        rw [reportedName] at hx
        split at hx
        · rename_i e'
          cases hx
          exact ih e'
        · split at hx
          · rename_i e'
            cases hx
            exact e'
          · cases hx
    have htag := htag _ hn
    unfold Warns.handlerName
    rw [e]
    show d.name = _
    rw [hd]
    unfold nice
    unfold tagOf at htag
    cases hl : lookup.get n with
    | none => simp
    | some k =>
      rw [hl] at htag
      rw [show k = h from htag]
      simp
  · unfold Warns.handlerName
    cases htold : told lookup h cs with
    | none => rw [f4 hn htold]; rfl
    | some c =>
      obtain ⟨d, e, hd⟩ := f5 hn (by rw [htold]; simp)
      rw [e]
      exact hd

/-! ### What does not hold, and examples -/

/-- C65 without restrictions on the summary and the links: the server knows what the creators say, and it shows their names. -/
def C65_statement (fl : Floats F) : Prop := ∀ (E : Env), LowersLib E.lib → ∀ (S : Sorter) (pick names : List Bytes → List Bytes), (∀ l, (pick l).Perm l) →
  ∀ (bench verify : Bytes) (b : Bench F) (rs vs : List Run), Given E fl S pick bench verify b (b.handlerLookup names).2 rs vs →
  ∀ (order : Map Bytes Bytes → List (Bytes × Bytes)), (∀ m, (order m).Perm m) →
  ∀ (cs : List (Creator Unit Unit Unit Unit)) (ls : List Bytes) (tail : Bytes), (∀ c ∈ cs, c.links.keys.Nodup) → Suites order cs ls →
    verify = unlines ls ++ printed S pick vs ++ tail → After tail →
  ∃ w, setup E fl names {} {} bench verify = some ((b.handlerLookup names).1, w, false) ∧
    ∀ h c, told (b.handlerLookup names).2 h cs = some c → Shown w h c ∧ w.handlerName h = c.name

theorem joined_splitNL : ∀ (ls : List Bytes) (s : Bytes), (∀ l ∈ ls, OneLine l) → Joined ls s → ls ≠ [] → splitNL s = ls
  | [], _, _, _, h => absurd rfl h
  | [l], s, h1, h2, _ => by
    rw [show s = l from h2]
    exact splitNL_one (h1 l (by simp))
  | l :: m :: ls, s, h1, h2, _ => by
    obtain ⟨t, rfl, ht⟩ := h2
    rw [splitNL_line (h1 l (by simp)), joined_splitNL (m :: ls) t (fun x hx => h1 x (by simp [hx])) ht (by simp)]

theorem plain_line {a : UInt8} {t : Bytes} (h : a ≠ 0x23 ∧ isS a = false ∧ a ≠ 0x57 ∧ a ≠ 0x48 ∧ a ≠ 0x3A) : Quiet (a :: t) ∧ NoStart (a :: t) := by
  obtain ⟨h1, h2, h3, h4, h5⟩ := h
  have key : ∀ u v : Bytes, a :: t = u ++ v → (∀ x ∈ u, x = 0x23 ∨ isS x = true) → v = a :: t := by
    intro u v e hu
    cases u with
    | nil => exact e.symm
    | cons x u =>
      cases e
      rcases hu a (by simp) with h | h
      · exact absurd h h1
      · rw [h2] at h; cases h
  refine ⟨fun u v e hu => ?_, fun u v e hu => ?_⟩
  · rw [key u v e hu]
    refine ⟨fun h => ?_, fun h => ?_⟩
    · obtain ⟨_, e⟩ := h; cases e; exact h3 rfl
    · obtain ⟨_, e⟩ := h; cases e; exact h4 rfl
  · rw [key u v e hu]
    intro h
    obtain ⟨_, e⟩ := h; cases e; exact h5 rfl

theorem head_given {ls : List Bytes} (hq : Quiets ls) :
    Given someEnv BenchData.terms someSorter id someBench (unlines ls ++ noVerify) (Bench.parse someEnv BenchData.terms {} someBench).1 someLookup [someRun] [noRun] :=
  { no_given with
    verText := ⟨unlines ls, [], by rw [List.append_nil, show printed someSorter id [noRun] = noVerify by decide +kernel], ⟨ls, hq, rfl⟩, .nothing⟩ }

/-- A creator with a summary of two lines and two links. -/
def someCreator : Creator Unit Unit Unit Unit where
  name := b!"phsym/zerolog"
  summary := b!"Wraps the logger\n  `rs/zerolog`. "
  links := [(b!"Repository", b!"https://github.com/phsym/zeroslog"), (b!"--> Logger", b!"https://github.com/rs/zerolog")]

theorem someCreator_ok : OkCreator id someCreator where
  name := trim_of (by decide) (by decide) (by decide)
  named := by decide
  lines := by
    intro ls h1 h2 h3
    have := joined_splitNL ls _ h1 h2 h3
    subst this
    decide
  links := by
    intro p hp
    have hA : ∀ N : Bytes, (N.drop 1).length < 3 ∨ (∀ x ∈ N.drop 1, x ≠ 0x2D) ∨ (∀ x ∈ N.drop 2, x ≠ 0x3E) ∨ N = b!"--> Logger" → NoArrow N := by
      intro N hN u v e
      cases u with
      | nil => rfl
      | cons a u =>
        exfalso
        subst e
        rcases hN with h | h | h | h
        · simp at h; omega
        · exact h 0x2D (by simp) rfl
        · cases u <;> exact h 0x3E (by simp) rfl
        · have h' := congrArg (fun l : Bytes => l.drop 1) h
          match u with
          | [] => cases h'
          | [_] => cases h'
          | [_, _] => cases h'
          | [_, _, _] => cases h'
          | [_, _, _, _] => cases h'
          | [_, _, _, _, _] => cases h'
          | [_, _, _, _, _, _] => cases h'
          | _ :: _ :: _ :: _ :: _ :: _ :: _ :: _ =>
            have := congrArg List.length h'
            simp at this
            omega
    have : p ∈ someCreator.links := hp
    simp only [someCreator, List.mem_cons, List.not_mem_nil, or_false] at this
    rcases this with rfl | rfl
    · exact ⟨trim_of (by decide) (by decide) (by decide), by decide, hA _ (by decide), trim_of (by decide) (by decide) (by decide), by decide⟩
    · exact ⟨trim_of (by decide) (by decide) (by decide), by decide, hA _ (by decide), trim_of (by decide) (by decide) (by decide), by decide⟩
  keys := by decide
  short := by decide +kernel

/-- What the verification run prints before its reports. -/
def someHead (c : Creator Unit Unit Unit Unit) : List Bytes := b!"=== RUN   Test_PhsymZerolog" :: (splitLines (c.setupSuite id) ++ [b!"--- PASS: Test_PhsymZerolog (0.01s)"])

theorem some_suites (c : Creator Unit Unit Unit Unit) : Suites id [c] (someHead c) :=
  .other (plain_line (by decide)).2 (by simp [OneLine]) (plain_line (by decide)).1 (by decide)
    (.suite (.other (plain_line (by decide)).2 (by simp [OneLine]) (plain_line (by decide)).1 (by decide) .done))

/-- The summary and the links of the creator are known, and its name is shown. -/
example : ∃ b w, setup someEnv BenchData.terms id {} {} someBench (unlines (someHead someCreator) ++ noVerify) = some (b, w, false) ∧
    Shown w b!"PhsymZerolog" someCreator ∧ w.handlerName b!"PhsymZerolog" = b!"phsym/zerolog" ∧
    Unknown w b!"Other" ∧ w.handlerName b!"Other" = b!"Other" := by
  have hc : ∀ c ∈ [someCreator], OkCreator id c := by
    intro c hc
    simp only [List.mem_singleton] at hc
    subst hc
    exact someCreator_ok
  have hg := head_given (before_suites (lookup := someLookup) (fun m => .refl m) (some_suites someCreator) hc).1
  rw [← some_lookup] at hg
  obtain ⟨w, hw, hk⟩ := C65_partial (E := someEnv) (pick := id) ⟨_, some_lowers⟩ (fun l => .refl l) hg (fun m => .refl m) hc (some_suites someCreator)
    (tail := []) (by rw [List.append_nil, show printed someSorter id [noRun] = noVerify by decide +kernel]) .nothing
  rw [some_lookup] at hk
  obtain ⟨k1, _, k3, _⟩ := hk b!"PhsymZerolog"
  obtain ⟨_, l2, _, l4⟩ := hk b!"Other"
  exact ⟨_, w, hw, k1 _ (by rfl), k3 b!"phsym/zerolog" (by decide), l2 (by rfl), l4 (by decide)⟩

/-- A creator with a blank line in its summary. -/
def blankCreator : Creator Unit Unit Unit Unit where
  name := b!"phsym/zerolog"
  summary := b!"a\n\nb"
  links := [(b!"r", b!"u")]

theorem blank_quiets : Quiets (someHead blankCreator) := by
  have h : splitLines (blankCreator.setupSuite id) = suiteLines id blankCreator := by decide +kernel
  have hq : ∀ l ∈ suiteLines id blankCreator, Quiet l := suite_quiet
  have h1 : ∀ l ∈ someHead blankCreator, (∀ b ∈ l, b ≠ 0x0A) ∧ l.length < 65536 := by decide +kernel
  refine ⟨fun l hl => (h1 l hl).1, fun l hl => ?_, fun l hl => (h1 l hl).2⟩
  unfold someHead at hl
  rw [h] at hl
  rcases List.mem_cons.1 hl with rfl | hl
  · exact (plain_line (by decide)).1
  · rcases List.mem_append.1 hl with hl | hl
    · exact hq l hl
    · simp only [List.mem_singleton] at hl
      subst hl
      exact (plain_line (by decide)).1

/-- C65 does not hold in full: a blank line in a summary ends it, and the links are lost. -/
theorem C65_blank : ¬ C65_statement BenchData.terms := by
  intro h
  have hg := head_given blank_quiets
  rw [← some_lookup] at hg
  obtain ⟨w, hw, hk⟩ := h someEnv ⟨_, some_lowers⟩ someSorter id id (fun l => .refl l) _ _ _ _ _ hg id (fun m => .refl m) [blankCreator]
    (someHead blankCreator) [] (by decide) (some_suites blankCreator)
    (by rw [List.append_nil, show printed someSorter id [noRun] = noVerify by decide +kernel]) .nothing
  have h1 := (hk b!"PhsymZerolog" blankCreator (by rw [some_lookup]; rfl)).1.hasLinks
  have h2 : (setup someEnv BenchData.terms id {} {} someBench (unlines (someHead blankCreator) ++ noVerify)).map (fun x => x.2.1.hasHandlerLinks b!"PhsymZerolog") = some false := by
    decide +kernel
  rw [hw] at h2
  simp only [Option.map_some, Option.some.injEq] at h2
  rw [h2] at h1
  revert h1
  decide

/-- The comment on `HandlerName`: if there is no full name the tag is returned, so that the name is never empty. -/
def C65_name_statement (fl : Floats F) : Prop := ∀ (E : Env) (names : List Bytes → List Bytes) (bench verify : Bytes) (b : Bench F) (w : Warns),
  setup E fl names {} {} bench verify = some (b, w, false) → ∀ h, h ≠ [] → w.handlerName h ≠ []

/-- It is empty for a handler whose creator has a summary when there is no report for it. -/
theorem C65_unnamed : ¬ C65_name_statement BenchData.terms := by
  intro h
  have h2 : (setup someEnv BenchData.terms id {} {} b!"# Handler[PhsymZerolog]=\"phsym/zerolog\"\n" (unlines (someHead someCreator))).map
      (fun x => (x.2.2, x.2.1.handlerName b!"PhsymZerolog")) = some (false, []) := by
    decide +kernel
  obtain ⟨⟨b, w, e⟩, hw, hx⟩ := Option.map_eq_some_iff.1 h2
  simp only [Prod.mk.injEq] at hx
  obtain ⟨rfl, hx⟩ := hx
  exact h _ _ _ _ _ _ hw b!"PhsymZerolog" (by decide) hx

/-- Links without a summary are not printed at all, whatever they are. -/
theorem C65_links_only (order : Map Bytes Bytes → List (Bytes × Bytes)) (c : Creator W O H L) : c.setupSuite order = [] ↔ c.summary = [] := by
  unfold Creator.setupSuite Creator.hasSummary
  constructor
  · intro h
    split at h
    · simp at h
    · rename_i hn; simpa using hn
  · intro h
    rw [if_neg (by simpa using h)]

example : ({ someCreator with summary := [] }).hasLinks = true ∧ ({ someCreator with summary := [] }).setupSuite id = [] :=
  ⟨by decide, (C65_links_only _ _).2 rfl⟩

end Verif.Props.Summary
