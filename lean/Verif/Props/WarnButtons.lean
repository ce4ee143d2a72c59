import Verif.Server.WarnButtons
import Verif.Props.Setup
import Mathlib.Data.List.Forall2

/-
C93: the buttons of a list of warnings display what they stand beside.
-/

set_option linter.unusedSimpArgs false

namespace Verif.Props.WarnButtons
open Go Verif.Data Verif.Server

/-! ### What is to be -/

/-- What can be displayed: the description of a warning, or the log of an instance, by their names. -/
inductive Item
  | doc (warning : Bytes)
  | log (warning name : Bytes)
deriving DecidableEq

/-- Something other than blanks. -/
def Some (s : Bytes) : Prop := ∃ a ∈ s, a ≠ 0x20

/-- What can be displayed, in the order of the page. -/
def items (ps : List PWarn) : List (Item × Bytes) :=
  ps.flatMap fun p => (p.doc.toList.map fun d => (Item.doc p.warn.name, d)) ++ p.warn.instances.map fun i => (Item.log p.warn.name i.name, i.log)

/-- There is a button: for every description, and for a log that is not blank. -/
def Pressable : Item × Bytes → Prop
  | (.doc _, _) => True
  | (.log _ _, l) => Some l

/-- Buttons work: after any clicks on buttons exactly those rows are displayed whose own button has been
clicked an odd number of times. -/
def Works (ps : List PWarn) : Prop :=
  ∀ ks : List Nat, (∀ k ∈ ks, ∃ x, (items ps)[k]? = some x ∧ Pressable x) →
    ∀ k < (items ps).length, displayed (clicks ps ks) k = true ↔ ks.count k % 2 = 1

/-- C93, in full: buttons work on all pages. -/
def C93_statement : Prop := ∀ ps : List PWarn, Works ps

/-- Names of warnings have no hyphen in them. -/
def Named (ps : List PWarn) : Prop := ∀ p ∈ ps, (0x2D : UInt8) ∉ p.warn.name

/-- No button stands behind another row with the same warning and name. -/
def Apart (ps : List PWarn) : Prop := (items ps).Pairwise fun x y => Pressable y → x.1 ≠ y.1

/-! ### Rows -/

theorem dropWhile_nil {s : Bytes} : s.dropWhile (· == 0x20) = [] ↔ ∀ a ∈ s, a = 0x20 := by
  induction s with
  | nil => simp
  | cons a s ih =>
    by_cases ha : a = 0x20
    · subst ha; simpa using ih
    · rw [List.dropWhile_cons_of_neg (by simpa using ha)]; simp [ha]

theorem trim_nil {s : Bytes} : trimSpaces s = [] ↔ ∀ a ∈ s, a = 0x20 := by
  unfold trimSpaces
  rw [List.reverse_eq_nil_iff, dropWhile_nil]
  constructor
  · intro h
    induction s with
    | nil => simp
    | cons a s ih =>
      by_cases ha : a = 0x20
      · subst ha
        intro b hb
        rcases List.mem_cons.1 hb with rfl | hb
        · rfl
        · exact ih (by simpa using h) b hb
      · rw [List.dropWhile_cons_of_neg (by simpa using ha)] at h
        exact fun b hb => h b (by simpa [or_comm] using hb)
  · intro h a ha
    exact h a ((List.dropWhile_sublist _).mem (List.mem_reverse.1 ha))

theorem hasLog_iff (i : DInst) : hasLog i = true ↔ Some i.log := by
  unfold hasLog Some
  rw [decide_eq_true_eq, List.length_pos_iff, Ne, trim_nil]
  simp

/-- The identifier of an item. -/
def idOf : Item → Bytes
  | .doc w => docId w
  | .log w i => logId w i

theorem items_nil : items [] = [] := rfl
theorem items_cons (p : PWarn) (ps : List PWarn) : items (p :: ps) =
    ((p.doc.toList.map fun d => (Item.doc p.warn.name, d)) ++ p.warn.instances.map fun i => (Item.log p.warn.name i.name, i.log)) ++ items ps := by
  simp [items]

/-- A row belongs to an item. -/
def Fits (r : Row) (x : Item × Bytes) : Prop := r.id = idOf x.1 ∧ (r.button = true ↔ Pressable x)

theorem rows_fit (ps : List PWarn) : List.Forall₂ Fits (rows ps) (items ps) := by
  induction ps with
  | nil => exact .nil
  | cons p ps ih =>
    rw [items_cons]
    have e : rows (p :: ps) = warnRows p ++ rows ps := by simp [rows]
    rw [e]
    refine List.rel_append ?_ ih
    unfold warnRows
    refine List.rel_append ?_ ?_
    · cases p.doc with
      | none => exact .nil
      | some d => exact .cons ⟨rfl, by simp [Pressable]⟩ .nil
    · induction p.warn.instances with
      | nil => exact .nil
      | cons i is ih => exact .cons ⟨rfl, hasLog_iff i⟩ ih

theorem forall₂_get {α β : Type} {R : α → β → Prop} : ∀ {l : List α} {m : List β}, List.Forall₂ R l m → ∀ k : Nat,
    (∀ y, m[k]? = some y → ∃ x, l[k]? = some x ∧ R x y)
  | _, _, .nil, k, y, h => by simp at h
  | _, _, .cons hr hrs, 0, y, h => by simp at h; subst h; exact ⟨_, rfl, hr⟩
  | _, _, .cons hr hrs, k + 1, y, h => by simpa using forall₂_get hrs k y (by simpa using h)

/-! ### Identifiers -/

theorem other_apart (x : Item) : idOf x ∉ otherIds := by
  have key : ∀ s t : Bytes, s ∈ otherIds → t.length = 4 → (t = b!"-doc" ∨ t = b!"-log") → ∀ u, s ≠ u ++ t := by
    intro s t hs _ ht u e
    have h1 : t <:+ s := ⟨u, e.symm⟩
    revert h1
    simp only [otherIds, List.mem_cons, List.not_mem_nil, or_false] at hs
    rcases ht with rfl | rfl <;> rcases hs with rfl | rfl | rfl | rfl | rfl | rfl | rfl <;> decide
  intro h
  cases x with
  | doc w => exact key _ b!"-doc" h rfl (.inl rfl) w rfl
  | log w i => exact key _ b!"-log" h rfl (.inr rfl) (w ++ b!"-" ++ i) rfl

theorem split_hyphen : ∀ {u v s t : Bytes}, (0x2D : UInt8) ∉ u → (0x2D : UInt8) ∉ v → u ++ 0x2D :: s = v ++ 0x2D :: t → u = v ∧ s = t
  | [], [], s, t, _, _, h => by simpa using h
  | [], b :: v, s, t, _, hv, h => by
    simp only [List.nil_append, List.cons_append, List.cons.injEq] at h
    exact absurd (by rw [← h.1]; simp) hv
  | a :: u, [], s, t, hu, _, h => by
    simp only [List.nil_append, List.cons_append, List.cons.injEq] at h
    exact absurd (by rw [h.1]; simp) hu
  | a :: u, b :: v, s, t, hu, hv, h => by
    simp only [List.cons_append, List.cons.injEq] at h
    obtain ⟨h1, h2⟩ := split_hyphen (fun hm => hu (by simp [hm])) (fun hm => hv (by simp [hm])) h.2
    exact ⟨by rw [h.1, h1], h2⟩

/-- The name of the warning of an item. -/
def warnOf : Item → Bytes
  | .doc w => w
  | .log w _ => w

theorem idOf_inj {x y : Item} (hx : (0x2D : UInt8) ∉ warnOf x) (hy : (0x2D : UInt8) ∉ warnOf y) : idOf x = idOf y ↔ x = y := by
  refine ⟨fun h => ?_, fun h => by rw [h]⟩
  have last : ∀ (u v s t : Bytes), u ++ s = v ++ t → s.length = t.length → u = v ∧ s = t := fun u v s t e hl => List.append_inj' e hl
  cases x with
  | doc w =>
    cases y with
    | doc w' => rw [(last w w' _ _ h rfl).1]
    | log w' i => exact absurd (last _ _ b!"-doc" b!"-log" h rfl).2 (by decide)
  | log w i =>
    cases y with
    | doc w' => exact absurd (last _ _ b!"-log" b!"-doc" h rfl).2 (by decide)
    | log w' i' =>
      have h1 := (last _ _ b!"-log" b!"-log" h rfl).1
      rw [List.append_assoc, List.append_assoc] at h1
      obtain ⟨h2, h3⟩ := split_hyphen hx hy h1
      have h4 : w = w' := h2
      have h5 : i = i' := h3
      rw [h4, h5]

theorem named_items {ps : List PWarn} (h : Named ps) : ∀ x ∈ items ps, (0x2D : UInt8) ∉ warnOf x.1 := by
  intro x hx
  simp only [items, List.mem_flatMap, List.mem_append, List.mem_map] at hx
  obtain ⟨p, hp, ⟨d, _, rfl⟩ | ⟨i, _, rfl⟩⟩ := hx <;> exact h p hp

/-! ### Clicks -/

theorem ids_of (ps : List PWarn) : (rows ps).map Row.id = (items ps).map fun x => idOf x.1 := by
  have h := rows_fit ps
  generalize rows ps = l at h
  generalize items ps = m at h
  induction h with
  | nil => rfl
  | cons h _ ih => rw [List.map_cons, List.map_cons, ih, h.1]

theorem element_rows {ids : List Bytes} {id : Bytes} (h : id ∉ otherIds) : elementById (otherIds ++ ids) id = otherIds.length + elementById ids id := by
  unfold elementById
  rw [List.findIdx_append, if_neg]
  · omega
  · intro hlt
    have := List.findIdx_getElem (w := hlt)
    exact h (by rw [← (beq_iff_eq.1 this)]; exact List.getElem_mem _)

theorem click_row {ps : List PWarn} {shown : Nat → Bool} {k : Nat} {x : Item × Bytes} (hk : (items ps)[k]? = some x) (hx : Pressable x) (i : Nat) :
    displayed (click ps shown k) i = if i = elementById ((items ps).map fun x => idOf x.1) (idOf x.1) then !displayed shown i else displayed shown i := by
  obtain ⟨r, hr, e, hb⟩ := forall₂_get (rows_fit ps) k x hk
  unfold click displayed
  rw [hr]
  dsimp only
  rw [if_pos (hb.2 hx), toggleElement, e, ids_of, element_rows (other_apart x.1)]
  dsimp only
  by_cases h : i = elementById ((items ps).map fun x => idOf x.1) (idOf x.1)
  · rw [if_pos h, if_pos (by omega)]
  · rw [if_neg h, if_neg (by omega)]

theorem own_row {ps : List PWarn} (hn : Named ps) (ha : Apart ps) {k : Nat} {x : Item × Bytes} (hk : (items ps)[k]? = some x) (hx : Pressable x) :
    elementById ((items ps).map fun x => idOf x.1) (idOf x.1) = k := by
  obtain ⟨hlt, e⟩ := List.getElem?_eq_some_iff.1 hk
  unfold elementById
  rw [List.findIdx_eq (by simpa using hlt)]
  refine ⟨by simp [e], fun j hj => ?_⟩
  have h1 := List.pairwise_iff_getElem.1 ha j k (by omega) hlt hj (by rw [e]; exact hx)
  simp only [List.getElem_map, beq_eq_false_iff_ne, ne_eq]
  rw [idOf_inj (named_items hn _ (List.getElem_mem _)) (named_items hn x (by rw [← e]; exact List.getElem_mem _))]
  rw [e] at h1
  exact h1

theorem clicks_from {ps : List PWarn} (hn : Named ps) (ha : Apart ps) : ∀ (ks : List Nat) (shown : Nat → Bool),
    (∀ k ∈ ks, ∃ x, (items ps)[k]? = some x ∧ Pressable x) → ∀ i,
    displayed (ks.foldl (click ps) shown) i = (displayed shown i != decide (ks.count i % 2 = 1))
  | [], shown, _, i => by simp
  | k :: ks, shown, h, i => by
    obtain ⟨x, hk, hx⟩ := h k (by simp)
    rw [List.foldl_cons, clicks_from hn ha ks _ (fun k' hk' => h k' (by simp [hk'])) i, click_row hk hx, own_row hn ha hk hx]
    by_cases hik : i = k
    · subst hik
      rw [if_pos rfl, List.count_cons_self]
      rcases Nat.mod_two_eq_zero_or_one (List.count i ks) with h0 | h0
      · rw [show (List.count i ks + 1) % 2 = 1 by omega, h0]; cases displayed shown i <;> rfl
      · rw [show (List.count i ks + 1) % 2 = 0 by omega, h0]; cases displayed shown i <;> rfl
    · rw [if_neg hik, List.count_cons_of_ne (fun e => hik e.symm)]

/-- C93, exactly, where names of warnings have no hyphen: buttons work if and only if no button stands
behind another row with the same warning and name. -/
theorem C93_exact_partial (ps : List PWarn) (hn : Named ps) : Works ps ↔ Apart ps := by
  constructor
  · intro hw
    unfold Apart
    rw [List.pairwise_iff_getElem]
    intro i j hi hj hij hp e
    have hk : (items ps)[j]? = some (items ps)[j] := List.getElem?_eq_getElem hj
    have h1 := (hw [j] (by simpa using ⟨_, _, hk, hp⟩) j hj).2 (by simp)
    rw [clicks, List.foldl_cons, List.foldl_nil, click_row hk hp] at h1
    have h2 : elementById ((items ps).map fun x => idOf x.1) (idOf (items ps)[j].1) ≤ i := by
      refine Nat.le_of_not_lt fun hlt => ?_
      have := List.not_of_lt_findIdx hlt
      simp [e] at this
    rw [if_neg (by omega)] at h1
    exact absurd h1 (by simp [displayed])
  · intro ha ks hks k _
    rw [clicks, clicks_from hn ha ks _ hks k]
    simp [displayed]

/-- On a page on which every warning has one name and in each of them every instance has one name,
buttons work. -/
theorem C93_distinct_partial (ps : List PWarn) (hn : Named ps) (hw : (ps.map fun p => p.warn.name).Nodup)
    (hi : ∀ p ∈ ps, (p.warn.instances.map DInst.name).Nodup) : Works ps := by
  refine (C93_exact_partial ps hn).2 ?_
  clear hn
  induction ps with
  | nil => exact .nil
  | cons p ps ih =>
    rw [List.map_cons, List.nodup_cons] at hw
    have ih := ih hw.2 fun q hq => hi q (by simp [hq])
    unfold Apart at ih ⊢
    rw [items_cons, List.pairwise_append, List.pairwise_append]
    refine ⟨⟨?_, ?_, ?_⟩, ih, ?_⟩
    · cases p.doc <;> simp
    · have h1 := hi p (by simp)
      rw [List.pairwise_map]
      exact (List.pairwise_map.1 h1).imp fun h _ e => h (by simpa using e)
    · intro x hx y hy _ e
      simp only [List.mem_map] at hx hy
      obtain ⟨_, _, rfl⟩ := hx
      obtain ⟨_, _, rfl⟩ := hy
      cases e
    · intro x hx y hy _ e
      have hx' : warnOf x.1 = p.warn.name := by
        simp only [List.mem_append, List.mem_map] at hx
        obtain ⟨_, _, rfl⟩ | ⟨_, _, rfl⟩ := hx <;> rfl
      have hy' : warnOf y.1 ∈ ps.map fun p => p.warn.name := by
        simp only [items, List.mem_flatMap, List.mem_append, List.mem_map] at hy
        obtain ⟨q, hq, ⟨_, _, rfl⟩ | ⟨_, _, rfl⟩⟩ := hy <;> exact List.mem_map.2 ⟨q, hq, rfl⟩
      rw [← e, hx'] at hy'
      exact hw.1 hy'

/-! ### Where it fails -/

/-- A report in which a test adds a warning twice. -/
def report : Bytes :=
  b!"Warnings for a:\n Required\n  2 [Duplicates] Duplicate field(s) found\n   TestCase: first\n    {\"a\": 1}\n   TestCase: second\n    {\"a\": 2}\n"

/-- The warning of that report. -/
def doubled : DWarn := ⟨b!"Duplicates", b!"Duplicate field(s) found", [⟨b!"Case", b!"Verify", b!"Case", b!"first", b!"{\"a\": 1}", b!"{\"a\": 1}"⟩,
  ⟨b!"Case", b!"Verify", b!"Case", b!"second", b!"{\"a\": 2}", b!"{\"a\": 2}"⟩]⟩

theorem parsed {E : Env} {r : Bytes} {x : DWarn} (h1 : (parseWarningData E b!"Verify" [] {} r).map (fun r => r.2) = some false)
    (h2 : (parseWarningData E b!"Verify" [] {} r).map (fun r => r.1.look b!"a" b!"Required" b!"Duplicates") = some (some x)) :
    ∃ w, parseWarningData E b!"Verify" [] {} r = some (w, false) ∧ w.look b!"a" b!"Required" b!"Duplicates" = some x := by
  cases e : parseWarningData E b!"Verify" [] {} r with
  | none => rw [e] at h1; cases h1
  | some r =>
    rw [e] at h1 h2
    simp only [Option.map_some, Option.some.injEq] at h1 h2
    exact ⟨r.1, by rw [← h1], h2⟩

/-- C93 is false: on the page of that report the button of the second log displays the first log. -/
theorem C93_report_fails : ∃ w x, parseWarningData Setup.someEnv b!"Verify" [] {} report = some (w, false) ∧
    w.look b!"a" b!"Required" b!"Duplicates" = some x ∧ ¬ Works [⟨x, none⟩] ∧
    (items [⟨x, none⟩]).map Prod.snd = [b!"{\"a\": 1}", b!"{\"a\": 2}"] ∧
    displayed (clicks [⟨x, none⟩] [1]) 0 = true ∧ displayed (clicks [⟨x, none⟩] [1]) 1 = false := by
  obtain ⟨w, h1, h2⟩ := parsed (E := Setup.someEnv) (r := report) (x := doubled) (by decide +kernel) (by decide +kernel)
  refine ⟨w, _, h1, h2, ?_, rfl, by decide +kernel, by decide +kernel⟩
  intro hw
  have ha := (C93_exact_partial _ (by intro p hp; cases List.mem_singleton.1 hp; decide)).1 hw
  have := List.pairwise_iff_getElem.1 ha 0 1 (by decide) (by decide) (by decide) ⟨0x7B, by decide, by decide⟩
  exact this rfl

/-- C93 is false. -/
theorem C93_fails : ¬ C93_statement := fun h => by
  obtain ⟨w, x, _, _, hn, _⟩ := C93_report_fails
  exact hn (h _)

/-- Where buttons work, a log that is blank is never displayed, although the row has the line that
was logged. -/
theorem C93_unseen {ps : List PWarn} (hw : Works ps) {k : Nat} {r : Row} {i : Item × Bytes} (hr : (rows ps)[k]? = some r)
    (hi : (items ps)[k]? = some i) (hb : ¬ Pressable i) (ks : List Nat) (hks : ∀ k ∈ ks, ∃ x, (items ps)[k]? = some x ∧ Pressable x) :
    r.button = false ∧ displayed (clicks ps ks) k = false := by
  obtain ⟨r', hr', _, hb'⟩ := forall₂_get (rows_fit ps) k i hi
  rw [hr] at hr'
  cases hr'
  refine ⟨by cases e : r.button with | false => rfl | true => exact absurd (hb'.1 e) hb, ?_⟩
  cases e : displayed (clicks ps ks) k with
  | false => rfl
  | true =>
    have h1 := (hw ks hks k (List.getElem?_eq_some_iff.1 hi).1).1 e
    have h2 : k ∈ ks := by
      rw [← List.count_pos_iff]; omega
    obtain ⟨x, hx, hp⟩ := hks k h2
    rw [hi] at hx
    cases hx
    exact absurd hp hb

/-- A report with a log line that is not JSON. -/
def badLine : Bytes :=
  b!"Warnings for a:\n Required\n  1 [Duplicates] Duplicate field(s) found\n   TestCase: first\n    {\"a\": 1,}\n"

/-- The warning of that report. -/
def unreadable : DWarn := ⟨b!"Duplicates", b!"Duplicate field(s) found", [⟨b!"Case", b!"Verify", b!"Case", b!"first", b!"{\"a\": 1,}", []⟩]⟩

/-- The log line of that report is in a row of the page that nothing displays. -/
theorem C93_line_fails : ∃ w x r, parseWarningData { Setup.someEnv with indent := fun _ => none } b!"Verify" [] {} badLine = some (w, false) ∧
    w.look b!"a" b!"Required" b!"Duplicates" = some x ∧ (rows [⟨x, none⟩])[0]? = some r ∧ r.text = b!"{\"a\": 1,}" ∧ r.button = false ∧
    ∀ ks, (∀ k ∈ ks, ∃ i, (items [⟨x, none⟩])[k]? = some i ∧ Pressable i) → displayed (clicks [⟨x, none⟩] ks) 0 = false := by
  obtain ⟨w, h1, h2⟩ := parsed (E := { Setup.someEnv with indent := fun _ => none }) (r := badLine) (x := unreadable) (by decide +kernel) (by decide +kernel)
  have hb : ¬ Pressable (Item.log b!"Duplicates" b!"Case", ([] : Bytes)) := by simp [Pressable, Some]
  have hw : Works [⟨unreadable, none⟩] :=
    C93_distinct_partial _ (by intro p hp; cases List.mem_singleton.1 hp; decide) (by simp) (by intro p hp; cases List.mem_singleton.1 hp; simp [unreadable])
  exact ⟨w, _, _, h1, h2, rfl, rfl, rfl, fun ks hks => (C93_unseen hw (k := 0) rfl rfl hb ks hks).2⟩

/-! ### Cases -/

/-- A page with two warnings, one with a description and two instances. -/
def somePage : List PWarn :=
  [⟨⟨b!"Duplicates", [], [{ name := b!"One", log := b!"{1}" }, { name := b!"Two", log := b!"{2}" }]⟩, some b!"text"⟩,
   ⟨⟨b!"Mismatch", [], [{ name := b!"One", log := b!"{3}" }, { name := b!"Three", line := b!"{" }]⟩, none⟩]

/-- It meets the assumptions. -/
example : Works somePage ∧ (items somePage).length = 5 := by
  refine ⟨C93_distinct_partial somePage ?_ (by decide) ?_, rfl⟩
  · intro p hp
    simp only [somePage, List.mem_cons, List.not_mem_nil, or_false] at hp
    rcases hp with rfl | rfl <;> decide
  · intro p hp
    simp only [somePage, List.mem_cons, List.not_mem_nil, or_false] at hp
    rcases hp with rfl | rfl <;> decide

/-- Clicks on the second log, the description, and the second log again. -/
example : (List.range 5).map (displayed (clicks somePage [2, 0, 2])) = [true, false, false, false, false] := by decide +kernel

/-- With hyphens in the names of warnings the condition is not enough. -/
example : Apart [⟨⟨b!"A", [], [{ name := b!"B-C", log := b!"{" }]⟩, none⟩, ⟨⟨b!"A-B", [], [{ name := b!"C", log := b!"{" }]⟩, none⟩] ∧
    displayed (clicks [⟨⟨b!"A", [], [{ name := b!"B-C", log := b!"{" }]⟩, none⟩, ⟨⟨b!"A-B", [], [{ name := b!"C", log := b!"{" }]⟩, none⟩] [1]) 1 = false := by
  refine ⟨?_, by decide +kernel⟩
  unfold Apart
  simp [items]

end Verif.Props.WarnButtons
