import Verif.Data.WarnBefore
import Verif.Props.WarnManager

/-
C38: reports of the warning manager are read back by the warning parser of the server.
-/

set_option linter.unusedSimpArgs false

namespace Verif.Props.WarnReport
open Go Letters Lines Verif.Warning Verif.Data

/-! ### Specification -/

/-- What a report is about: the handler's name, the prefix of its lines, and what was done
with its manager. -/
structure Run where
  name : Bytes
  pfx : Bytes
  ops : List MOp

/-- The manager at the end. -/
def Run.manager (r : Run) : Manager := Manager.run { name := r.name, showPrefix := r.pfx } r.ops

/-- What is to be reported. -/
def Run.events (r : Run) : List WarnManager.Event := (WarnManager.Log.run {} (r.ops ++ [.get])).events

/-- The additions under a name as the server is to know them. -/
def found (E : Env) (source : Bytes) (i : Instances) : DWarn :=
  { name := i.name, summary := i.summary, instances := i.data.map fun d =>
    { tag := testTag d.function, source := source, name := testName E (testTag d.function), extra := d.text, line := d.record
      log := if d.record = [] then [] else (E.indent d.record).getD [] } }

/-- What may follow the reports: nothing, or the section that lists the handlers by
warning, and anything after its heading. -/
inductive After : Bytes → Prop
  | nothing : After []
  | listing {p rest : Bytes} : Pre p → p.length < 65000 → After (p ++ b!"\n" ++ p ++ b!" Handlers by warning:\n" ++ rest)

/-! ### The lines of a report are lines -/

/-- A line a scanner delivers unchanged. -/
def Clean (l : Bytes) : Prop := OneLine l ∧ NoCR l

theorem clean_append {u v : Bytes} (hu : OneLine u) (hv : Clean v) (h : v ≠ []) : Clean (u ++ v) := by
  refine ⟨fun b hb => ?_, ?_⟩
  · rcases List.mem_append.1 hb with hb | hb
    · exact hu b hb
    · exact hv.1 b hb
  · unfold NoCR
    rw [List.getLast?_append]
    have := hv.2
    unfold NoCR at this
    cases e : v.getLast? with
    | none => rw [List.getLast?_eq_none_iff] at e; exact absurd e h
    | some x => rw [e] at this; simpa using this

theorem one_append {u v : Bytes} (hu : OneLine u) (hv : OneLine v) : OneLine (u ++ v) := by
  intro b hb
  rcases List.mem_append.1 hb with hb | hb
  · exact hu b hb
  · exact hv b hb

theorem pre_one {p : Bytes} (h : Pre p) : OneLine p := by
  rcases h with h | ⟨q, rfl, h⟩
  · intro b hb; rw [h b hb]; decide
  · intro b hb
    rcases List.mem_cons.1 hb with rfl | hb
    · decide
    · rw [h b hb]; decide

theorem pre_clean {p : Bytes} (h : Pre p) : Clean p := by
  refine ⟨pre_one h, fun e => ?_⟩
  have hm := List.mem_of_getLast? e
  rcases h with h | ⟨q, rfl, h⟩
  · have := h _ hm; revert this; decide
  · rcases List.mem_cons.1 hm with h' | h'
    · revert h'; decide
    · have := h _ h'; revert this; decide

theorem clean_solid {l : Bytes} (h1 : OneLine l) (h2 : EndsSolid l) : Clean l := by
  refine ⟨h1, fun e => ?_⟩
  obtain ⟨t, rfl⟩ := List.getLast?_eq_some_iff.1 e
  have := h2 _ _ rfl
  revert this; decide

theorem trim_one {s : Bytes} (h : Trim s) : OneLine s := fun b hb => by
  have := h.dots b hb
  simpa [isDot] using this

theorem word_one {s : Bytes} (h : Word s) : OneLine s := fun b hb e => by
  have := h b hb
  subst e; revert this; decide

theorem word_clean {s : Bytes} (h : Word s) : Clean s := by
  refine clean_solid (word_one h) fun a t e => ?_
  have := h a (by rw [e]; simp)
  simpa [isNS] using this

theorem instLines_clean {L : Replace.Lib} {d : Instance} (hd : OkInst L d) {p : Bytes} (hp : Pre p) :
    ∀ l ∈ instLines p d, Clean l := by
  obtain ⟨T, ls, ht, hT, hT0, hls⟩ := hd.text
  rw [instLines_of ht]
  unfold instLinesOf
  intro l hl
  simp only [List.cons_append, List.mem_cons, List.mem_append, List.mem_map] at hl
  rcases hl with rfl | ⟨x, hx, rfl⟩ | hl
  · by_cases h0 : T = []
    · rw [if_pos h0]
      exact clean_append (one_append (pre_one hp) (by unfold OneLine; decide)) (word_clean hd.fn.word) hd.fn.ne
    · rw [if_neg h0, ← List.append_assoc]
      refine clean_append (one_append (one_append (pre_one hp) (by unfold OneLine; decide)) (one_append (word_one hd.fn.word) (by unfold OneLine; decide)))
        (clean_solid (trim_one hT) hT.last) h0
  · by_cases h0 : x = []
    · subst h0
      rw [List.append_nil]
      exact clean_append (pre_one hp) ⟨by unfold OneLine; decide, by unfold NoCR; decide⟩ (by simp)
    · exact clean_append (one_append (pre_one hp) (by unfold OneLine; decide)) (clean_solid (ht.each x hx) (hls x hx)) h0
  · rcases hd.record with h0 | ⟨r, hr, h1, h2⟩
    · rw [if_pos h0] at hl; cases hl
    · rw [if_neg (by rw [hr]; simp)] at hl
      simp only [List.mem_singleton] at hl
      subst hl
      rw [hr]
      refine clean_append (one_append (pre_one hp) (by unfold OneLine; decide)) ?_ (by simp)
      refine clean_solid ?_ ?_
      · intro b hb
        rcases List.mem_cons.1 hb with rfl | hb
        · decide
        · exact h1 b hb
      · intro a t e
        by_cases h : r = []
        · subst h
          cases t with
          | nil => cases e; decide
          | cons b t => simp at e
        · rw [← List.dropLast_concat_getLast h, ← List.cons_append] at e
          have := List.append_inj_right' e rfl
          have h2 := h2 _ _ (List.dropLast_concat_getLast h).symm
          cases this
          exact h2

theorem warnLines_clean {L : Replace.Lib} {w : Instances} (hw : OkWarn L w) {p : Bytes} (hp : Pre p) :
    ∀ l ∈ warnLines p w, Clean l := by
  unfold warnLines
  intro l hl
  rcases List.mem_cons.1 hl with rfl | hl
  · have hpad : OneLine (pad4 w.count) := by
      obtain ⟨d, ds, k, e, hd, hds⟩ := count_digits w.count
      rw [e]
      have dig : ∀ d : UInt8, isD d = true → d ≠ 0x0A := by rintro d h rfl; revert h; decide
      refine one_append (fun b hb => by rw [List.eq_of_mem_replicate hb]; decide) fun b hb => ?_
      rcases List.mem_cons.1 hb with rfl | hb
      · exact dig _ hd
      · exact dig _ (hds b hb)
    have h1 : OneLine (p ++ b!"  " ++ pad4 w.count ++ b!" [" ++ w.name) :=
      one_append (one_append (one_append (one_append (pre_one hp) (by unfold OneLine; decide)) hpad) (by unfold OneLine; decide)) hw.name
    by_cases h0 : w.summary = []
    · rw [h0, List.append_nil]
      exact clean_append h1 ⟨by unfold OneLine; decide, by unfold NoCR; decide⟩ (by simp)
    · exact clean_append (one_append h1 (by unfold OneLine; decide)) (clean_solid (trim_one hw.summary) hw.summary.last) h0
  · obtain ⟨ls, hls, hl⟩ := List.mem_flatten.1 hl
    obtain ⟨d, hd, rfl⟩ := List.mem_map.1 hls
    exact instLines_clean (hw.data d hd) hp l hl

theorem level_clean {l : Nat} (h : l ∈ levelOrder) : Clean (levelText l) ∧ levelText l ≠ [] := by
  have : l = 4 ∨ l = 3 ∨ l = 2 ∨ l = 1 := by simpa [levelOrder] using h
  unfold Clean OneLine NoCR
  rcases this with rfl | rfl | rfl | rfl <;> decide

theorem reportLines_clean {L : Replace.Lib} {S : Sorter} {pick : List Bytes → List Bytes} {m : Manager} (hm : OkManager L S pick m) :
    ∀ l ∈ reportLines S pick m, Clean l := by
  unfold reportLines
  intro l hl
  rcases List.mem_append.1 hl with hl | hl
  · simp only [List.mem_cons, List.not_mem_nil, or_false] at hl
    rcases hl with rfl | rfl
    · exact pre_clean hm.pre
    · exact clean_append (one_append (one_append (pre_one hm.pre) (by unfold OneLine; decide)) hm.name.one)
        ⟨by unfold OneLine; decide, by unfold NoCR; decide⟩ (by simp)
  · by_cases h0 : shown S pick m = []
    · rw [if_pos h0] at hl
      simp only [List.mem_singleton] at hl
      subst hl
      exact clean_append (pre_one hm.pre) ⟨by unfold OneLine; decide, by unfold NoCR; decide⟩ (by simp)
    · rw [if_neg h0] at hl
      obtain ⟨ls, hls, hl⟩ := List.mem_flatten.1 hl
      obtain ⟨lv, hlv, rfl⟩ := List.mem_map.1 hls
      unfold levelLines at hl
      split at hl
      · cases hl
      · rcases List.mem_cons.1 hl with rfl | hl
        · exact clean_append (one_append (pre_one hm.pre) (by unfold OneLine; decide)) (level_clean hlv).1 (level_clean hlv).2
        · obtain ⟨ls, hls, hl⟩ := List.mem_flatten.1 hl
          obtain ⟨w, hw, rfl⟩ := List.mem_map.1 hls
          exact warnLines_clean (hm.warns w (levelList_mem.1 hw).1) hm.pre l hl

theorem splitLines_unlines {ls : List Bytes} (h : ∀ l ∈ ls, Clean l) (s : Bytes) :
    splitLines (unlines ls ++ s) = ls ++ splitLines s := by
  induction ls with
  | nil => rfl
  | cons l ls ih =>
    rw [unlines, List.append_assoc, List.cons_append, splitLines_line (h l (by simp)).1, ih fun x hx => h x (by simp [hx])]
    rfl

theorem scan_unlines {ls : List Bytes} (h : ∀ l ∈ ls, Clean l) (hs : ∀ l ∈ ls, l.length < 65536) (s : Bytes) :
    scanLines (unlines ls ++ s) = ls ++ scanLines s := by
  unfold scanLines
  rw [splitLines_unlines h]
  induction ls with
  | nil => rfl
  | cons l ls ih =>
    rw [List.cons_append, List.takeWhile_cons, if_pos (by simpa using hs l (by simp)), List.map_cons, dropCR_of (h l (by simp)).2,
      ih (fun x hx => h x (by simp [hx])) fun x hx => hs x (by simp [hx])]
    rfl

/-! ### What the reports add -/

theorem addWarns_out (E : Env) (source tag : Bytes) : ∀ (ws : List Instances) (V : Bytes → Bytes → Bytes → Option DWarn) (h lt n : Bytes),
    (∀ w ∈ ws, ¬ (h = tag ∧ lt = levelText w.level ∧ n = w.name)) →
    ws.foldl (addWarn E source tag) V h lt n = V h lt n
  | [], _, _, _, _, _ => rfl
  | w :: ws, V, h, lt, n, hn => by
    rw [List.foldl_cons, addWarns_out E source tag ws _ h lt n fun x hx => hn x (by simp [hx])]
    unfold addWarn
    rw [if_neg (hn w (by simp))]

theorem addWarns_in (E : Env) (source tag : Bytes) : ∀ (ws : List Instances) (V : Bytes → Bytes → Bytes → Option DWarn) (w : Instances),
    ws.Pairwise (fun a b => a.name ≠ b.name) → w ∈ ws →
    ws.foldl (addWarn E source tag) V tag (levelText w.level) w.name = addWarn E source tag V w tag (levelText w.level) w.name
  | [], _, _, _, hm => by cases hm
  | x :: ws, V, w, hp, hm => by
    rw [List.pairwise_cons] at hp
    rw [List.foldl_cons]
    rcases List.mem_cons.1 hm with rfl | hm
    · refine addWarns_out E source tag ws _ _ _ _ ?_
      rintro y hy ⟨_, _, e⟩
      exact hp.1 y hy e
    · rw [addWarns_in E source tag ws _ w hp.2 hm]
      have hx : addWarn E source tag V x tag (levelText w.level) w.name = V tag (levelText w.level) w.name := by
        unfold addWarn
        rw [if_neg]
        rintro ⟨_, _, e⟩
        exact hp.1 w hm e.symm
      have congr : ∀ (A B : Bytes → Bytes → Bytes → Option DWarn), A tag (levelText w.level) w.name = B tag (levelText w.level) w.name →
          addWarn E source tag A w tag (levelText w.level) w.name = addWarn E source tag B w tag (levelText w.level) w.name := by
        intro A B h
        unfold addWarn
        rw [h]
      exact congr _ _ hx

/-- The warnings in the order of the report. -/
theorem mem_ordered {S : Sorter} {ws : List Instances} (hl : ∀ w ∈ ws, w.level ∈ levelOrder) (w : Instances) :
    w ∈ (levelOrder.map (levelList S ws)).flatten ↔ w ∈ ws := by
  constructor
  · intro h
    obtain ⟨l, h1, h2⟩ := List.mem_flatten.1 h
    obtain ⟨lv, _, rfl⟩ := List.mem_map.1 h1
    exact (levelList_mem.1 h2).1
  · intro h
    exact List.mem_flatten.2 ⟨_, List.mem_map.2 ⟨w.level, hl w h, rfl⟩, levelList_mem.2 ⟨h, rfl⟩⟩

theorem names_ordered {S : Sorter} {ws : List Instances} (hn : ws.Pairwise fun a b => a.name ≠ b.name) :
    ((levelOrder.map (levelList S ws)).flatten).Pairwise fun a b => a.name ≠ b.name := by
  have uniq : ∀ a ∈ ws, ∀ b ∈ ws, a.name = b.name → a = b := by
    intro a ha b hb e
    induction ws with
    | nil => cases ha
    | cons x ws ih =>
      rw [List.pairwise_cons] at hn
      rcases List.mem_cons.1 ha with rfl | ha <;> rcases List.mem_cons.1 hb with rfl | hb
      · rfl
      · exact absurd e (hn.1 b hb)
      · exact absurd e.symm (hn.1 a (by assumption))
      · exact ih hn.2 ha hb
  rw [List.pairwise_flatten]
  constructor
  · intro l hl
    obtain ⟨lv, _, rfl⟩ := List.mem_map.1 hl
    unfold levelList
    refine ((S.perm _ _).pairwise_iff (fun h e => h e.symm)).2 ?_
    exact hn.sublist List.filter_sublist
  · rw [List.pairwise_map]
    have : levelOrder.Pairwise (· ≠ ·) := by decide
    refine this.imp ?_
    intro l l' hll a ha b hb e
    have h1 := levelList_mem.1 ha
    have h2 := levelList_mem.1 hb
    have := uniq a h1.1 b h2.1 e
    subst this
    exact hll (h1.2.symm.trans h2.2)

/-- A report about another handler changes nothing for this one. -/
theorem addReport_other {E : Env} {source : Bytes} {lookup : Map Bytes Bytes} {S : Sorter} {pick : List Bytes → List Bytes}
    {m : Manager} {V : Bytes → Bytes → Bytes → Option DWarn} {h lt n : Bytes} (hh : h ≠ tagOf lookup m.name) :
    addReport E source lookup S pick V m h lt n = V h lt n := by
  unfold addReport
  split
  · simp only [if_neg hh]
  · exact addWarns_out E source _ _ _ _ _ _ fun w _ hc => hh hc.1

/-- What is found after all reports, if the handlers are different and nothing was there. -/
theorem addReports {E : Env} {source : Bytes} {lookup : Map Bytes Bytes} {S : Sorter} {pick : List Bytes → List Bytes} :
    ∀ (ms : List Manager) (V : Bytes → Bytes → Bytes → Option DWarn), (ms.map fun m => tagOf lookup m.name).Nodup →
    (∀ m ∈ ms, ∀ lt n, V (tagOf lookup m.name) lt n = none) →
    (∀ m ∈ ms, (∀ w ∈ shown S pick m, w.level ∈ levelOrder) ∧ (shown S pick m).Pairwise fun a b => a.name ≠ b.name) →
    (∀ m ∈ ms, ∀ i ∈ shown S pick m, ms.foldl (addReport E source lookup S pick) V (tagOf lookup m.name) (levelText i.level) i.name =
      some (found E source i)) ∧
    ∀ h lt n, (ms.foldl (addReport E source lookup S pick) V h lt n).isSome = true → (V h lt n).isSome = true ∨
      ∃ m ∈ ms, h = tagOf lookup m.name ∧ ∃ i ∈ shown S pick m, lt = levelText i.level ∧ n = i.name
  | [], V, _, _, _ => ⟨(by intro m hm; cases hm), fun h lt n hs => .inl hs⟩
  | m :: ms, V, hd, hV, hw => by
    rw [List.map_cons, List.nodup_cons] at hd
    have hne : ∀ x ∈ ms, tagOf lookup x.name ≠ tagOf lookup m.name := fun x hx e =>
      hd.1 (List.mem_map.2 ⟨x, hx, e⟩)
    obtain ⟨h1, h2⟩ := addReports (E := E) (source := source) ms (addReport E source lookup S pick V m) hd.2
      (fun x hx lt n => by rw [addReport_other (hne x hx)]; exact hV x (by simp [hx]) lt n) fun x hx => hw x (by simp [hx])
    have hout : ∀ (l : List Manager) (V : Bytes → Bytes → Bytes → Option DWarn) (h lt n : Bytes), (∀ x ∈ l, h ≠ tagOf lookup x.name) →
        l.foldl (addReport E source lookup S pick) V h lt n = V h lt n := by
      intro l
      induction l with
      | nil => intros; rfl
      | cons x l ih =>
        intro V h lt n hx
        rw [List.foldl_cons, ih _ _ _ _ fun y hy => hx y (by simp [hy]), addReport_other (hx x (by simp))]
    obtain ⟨hlv, hnm⟩ := hw m (by simp)
    constructor
    · intro x hx i hi
      rw [List.foldl_cons]
      rcases List.mem_cons.1 hx with rfl | hx
      · rw [hout ms _ _ _ _ fun y hy => (hne y hy).symm]
        unfold addReport
        have hs0 : shown S pick x ≠ [] := by intro e; rw [e] at hi; cases hi
        rw [if_neg hs0, addWarns_in E source _ _ _ i (names_ordered hnm) ((mem_ordered hlv i).2 hi)]
        unfold addWarn
        rw [if_pos ⟨rfl, rfl, rfl⟩, hV x (by simp)]
        rfl
      · exact h1 x hx i hi
    · intro h lt n hs
      rw [List.foldl_cons] at hs
      rcases h2 h lt n hs with hs | ⟨x, hx, hrest⟩
      · by_cases hc : ∃ i ∈ shown S pick m, h = tagOf lookup m.name ∧ lt = levelText i.level ∧ n = i.name
        · obtain ⟨i, hi, e1, e2⟩ := hc
          exact .inr ⟨m, by simp, e1, i, hi, e2⟩
        · left
          unfold addReport at hs
          split at hs
          · simp only at hs
            split at hs
            · cases hs
            · exact hs
          · rw [addWarns_out E source _ _ _ _ _ _ fun w hw hc' => hc ⟨w, (mem_ordered hlv w).1 hw, hc'⟩] at hs
            exact hs
      · exact .inr ⟨x, by simp [hx], hrest⟩

/-! ### C38 -/

theorem scan_lines {ls : List Bytes} (h : ∀ l ∈ ls, OneLine l ∧ l.length < 65536) (s : Bytes) :
    scanLines (unlines ls ++ s) = ls.map dropCR ++ scanLines s ∧ splitLines (unlines ls ++ s) = ls ++ splitLines s := by
  induction ls with
  | nil => exact ⟨rfl, rfl⟩
  | cons l ls ih =>
    obtain ⟨i1, i2⟩ := ih fun x hx => h x (by simp [hx])
    have e : splitLines (unlines (l :: ls) ++ s) = l :: splitLines (unlines ls ++ s) := by
      rw [unlines, List.append_assoc, List.cons_append, splitLines_line (h l (by simp)).1]
    refine ⟨?_, by rw [e, i2]; rfl⟩
    unfold scanLines at i1 ⊢
    rw [e, List.takeWhile_cons, if_pos (by simpa using (h l (by simp)).2), List.map_cons, i1]
    rfl

/-- What may be printed before the reports: any lines that are not headings. -/
structure Quiets (bs : List Bytes) : Prop where
  one : ∀ l ∈ bs, OneLine l
  quiet : ∀ l ∈ bs, Quiet l
  short : ∀ l ∈ bs, l.length < 65536

/-- A text that may come before the reports. -/
def Before (head : Bytes) : Prop := ∃ bs, Quiets bs ∧ head = unlines bs

theorem quiets_nil : Quiets [] := ⟨by simp, by simp, by simp⟩

theorem before_nil : Before [] := ⟨[], quiets_nil, rfl⟩

theorem quiet_dropCR {l : Bytes} (h : Quiet l) : Quiet (dropCR l) := by
  obtain ⟨c, hc⟩ : ∃ c, l = dropCR l ++ c := by
    unfold dropCR
    split
    · exact ⟨[0x0D], by rename_i h; obtain ⟨t, rfl⟩ := List.getLast?_eq_some_iff.1 h; simp⟩
    · exact ⟨[], by simp⟩
  intro u v e hu
  obtain ⟨h1, h2⟩ := h u (v ++ c) (by rw [hc, e, List.append_assoc]) hu
  exact ⟨fun hp => h1 (hp.trans (List.prefix_append _ _)), fun hp => h2 (hp.trans (List.prefix_append _ _))⟩

/-- What is known of the handlers after the lines before the reports. -/
def beforeAll (lookup : Map Bytes Bytes) (bs : List Bytes) (D : Map Bytes HData) : Option Summ × Map Bytes HData :=
  (bs.map dropCR).foldl (before lookup) (none, D)

/-- Parsing lines that are not headings and then reports adds the reports to what there is. -/
theorem parse_all {E : Env} (hL : LowersLib E.lib) (S : Sorter) (pick : List Bytes → List Bytes) (source : Bytes)
    (lookup : Map Bytes Bytes) (w0 : Warns) (h0 : Inv w0) {L : List Save} (hl : Logged E w0 L) (bs : List Bytes) (hb : Quiets bs) (ms : List Manager)
    (hm : ∀ m ∈ ms, OkManager E.lib S pick m ∧ tagOf lookup m.name ≠ [])
    (text tail : Bytes) (ht : text = (ms.map fun m => (m.showWarnings S pick).2).flatten) (hs : ∀ l ∈ splitLines text, l.length < 65536)
    (ha : After tail) :
    ∃ w, parseWarningData E source lookup w0 (unlines bs ++ text ++ tail) = some (w, false) ∧ Inv w ∧
      (∀ h lt n, w.look h lt n = ms.foldl (addReport E source lookup S pick) w0.look h lt n) ∧
      Logged E w (L ++ (ms.map (reportSaves E source lookup S pick)).flatten) ∧
      ((beforeAll lookup bs w0.handlerData).1 = none →
        w.handlerData = ms.foldl (fun D m => named E lookup D m.name) (beforeAll lookup bs w0.handlerData).2) := by
  have htext : text = unlines (ms.map (reportLines S pick)).flatten := by
    rw [ht, unlines_flatten, List.map_map]
    congr 1
    exact List.map_congr_left fun m h => showWarnings_lines (hm m h).1
  have hclean : ∀ l ∈ (ms.map (reportLines S pick)).flatten, Clean l := by
    intro l hl
    obtain ⟨ls, hls, hl⟩ := List.mem_flatten.1 hl
    obtain ⟨m, h, rfl⟩ := List.mem_map.1 hls
    exact reportLines_clean (hm m h).1 l hl
  have hshort : ∀ l ∈ (ms.map (reportLines S pick)).flatten, l.length < 65536 := by
    intro l hl
    refine hs l ?_
    have := splitLines_unlines hclean []
    rw [List.append_nil] at this
    rw [htext, this]
    exact List.mem_append_left _ hl
  have hpre : ∀ (x : List Bytes) (l : Bytes) (t : List Bytes), (∀ l t, x = l :: t → Pre l) →
      (ms.map (reportLines S pick)).flatten ++ x = l :: t → Pre l := by
    intro x l t hx e
    cases ms with
    | nil => exact hx l t e
    | cons m ms =>
      simp only [List.map_cons, List.flatten_cons, reportLines, List.cons_append] at e
      cases e
      exact (hm m (by simp)).1.pre
  have hr0 : ∀ D, RelL E (({ w := w0 } : PState).withData D) w0.look L D := fun D =>
    ⟨⟨by rw [save_none rfl]; exact ⟨h0.hlt, h0.tlt, h0.hinj, h0.disj, h0.hname⟩, fun h lt n => by rw [save_none rfl]; rfl⟩,
      by rw [save_none rfl]; exact hl.of_eq (fun _ _ _ => rfl) (fun _ _ _ => rfl) rfl, rfl⟩
  obtain ⟨sc1, sc2⟩ := scan_lines (ls := bs) (fun l hl => ⟨hb.one l hl, hb.short l hl⟩) (text ++ tail)
  have hq : ∀ l ∈ bs.map dropCR, Quiet l := by
    intro l hl
    obtain ⟨x, hx, rfl⟩ := List.mem_map.1 hl
    exact quiet_dropCR (hb.quiet x hx)
  unfold parseWarningData
  rw [List.append_assoc, sc1, sc2, loop_before (E := E) (source := source) (lookup := lookup) _ (bs.map dropCR) none { w := w0 } rfl hq]
  show ∃ w, (match parseLoop E source lookup (beforeAll lookup bs w0.handlerData).1 (scanLines (text ++ tail))
    (({ w := w0 } : PState).withData (beforeAll lookup bs w0.handlerData).2) with
    | none => none
    | some (p, stopped) =>
      some ((saveInstance E p).w, !stopped && (bs ++ splitLines (text ++ tail)).any fun l => decide (65536 ≤ l.length))) = some (w, false) ∧ _
  obtain ⟨B, hB⟩ : ∃ B, B = beforeAll lookup bs w0.handlerData := ⟨_, rfl⟩
  rw [← hB]
  obtain ⟨q, D⟩ := B
  simp only
  have hbs : (bs.any fun l => decide (65536 ≤ l.length)) = false := by
    rw [List.any_eq_false]
    intro l hl
    have := hb.short l hl
    simp; omega
  cases ha with
  | nothing =>
    have hscan : scanLines (text ++ []) = (ms.map (reportLines S pick)).flatten ++ [] := by
      rw [htext, scan_unlines hclean hshort]; rfl
    obtain ⟨D', eD, hD⟩ := loop_settle (E := E) (source := source) (lookup := lookup) (st := ({ w := w0 } : PState).withData D) rfl q
      (ls := (ms.map (reportLines S pick)).flatten ++ []) (fun l t e => hpre [] l t (by simp) e)
    obtain ⟨st, e, hr⟩ := loop_reports (source := source) (lookup := lookup) hL [] S pick ms _ _ _ _ hm (hr0 D')
    rw [hscan, eD]
    have e' : parseLoop E source lookup none ((ms.map (reportLines S pick)).flatten ++ []) ((({ w := w0 } : PState).withData D).withData D') =
        parseLoop E source lookup none [] st := e
    rw [e']
    simp only [parseLoop]
    refine ⟨_, ?_, hr.inv, hr.view, hr.log, fun hn => ?_⟩
    · have : ((splitLines (text ++ [])).any fun l => decide (65536 ≤ l.length)) = false := by
        rw [List.append_nil, List.any_eq_false]
        intro l hl
        have := hs l hl
        simp; omega
      rw [List.any_append, hbs, this]; rfl
    · rw [save_data, hr.data, hD hn]; rfl
  | @listing p rest hp hlen =>
    have hc1 : Clean p := pre_clean hp
    have hc2 : Clean (p ++ b!" Handlers by warning:") :=
      clean_append (pre_one hp) ⟨by unfold OneLine; decide, by unfold NoCR; decide⟩ (by simp)
    have hscan : scanLines (text ++ (p ++ b!"\n" ++ p ++ b!" Handlers by warning:\n" ++ rest)) =
        (ms.map (reportLines S pick)).flatten ++ ([p, p ++ b!" Handlers by warning:"] ++ scanLines rest) := by
      have := scan_unlines (ls := (ms.map (reportLines S pick)).flatten ++ [p, p ++ b!" Handlers by warning:"]) ?_ ?_ rest
      · rw [unlines_append] at this
        rw [htext]
        simpa [unlines] using this
      · intro l hl
        rcases List.mem_append.1 hl with hl | hl
        · exact hclean l hl
        · simp only [List.mem_cons, List.not_mem_nil, or_false] at hl
          rcases hl with rfl | rfl
          · exact hc1
          · exact hc2
      · intro l hl
        rcases List.mem_append.1 hl with hl | hl
        · exact hshort l hl
        · simp only [List.mem_cons, List.not_mem_nil, or_false] at hl
          rcases hl with rfl | rfl
          · omega
          · simp; omega
    obtain ⟨D', eD, hD⟩ := loop_settle (E := E) (source := source) (lookup := lookup) (st := ({ w := w0 } : PState).withData D) rfl q
      (ls := (ms.map (reportLines S pick)).flatten ++ ([p, p ++ b!" Handlers by warning:"] ++ scanLines rest))
      (fun l t e => hpre _ l t (by intro l t e; cases e; exact hp) e)
    obtain ⟨st, e, hr⟩ := loop_reports (source := source) (lookup := lookup) hL
      ([p, p ++ b!" Handlers by warning:"] ++ scanLines rest) S pick ms _ _ _ _ hm (hr0 D')
    have e' : parseLoop E source lookup none ((ms.map (reportLines S pick)).flatten ++ ([p, p ++ b!" Handlers by warning:"] ++ scanLines rest))
        ((({ w := w0 } : PState).withData D).withData D') =
        parseLoop E source lookup none ([p, p ++ b!" Handlers by warning:"] ++ scanLines rest) st := e
    rw [hscan, eD, e', List.cons_append, loop_next (top_blank hp), List.cons_append]
    rw [parseLoop]
    simp only [top_by hp]
    refine ⟨_, rfl, hr.inv, hr.view, hr.log, fun hn => ?_⟩
    rw [save_data, hr.data, hD hn]; rfl

/-- Parsing the reports adds them to what there is. -/
theorem parse_reports {E : Env} (hL : LowersLib E.lib) (S : Sorter) (pick : List Bytes → List Bytes) (source : Bytes)
    (lookup : Map Bytes Bytes) (w0 : Warns) (h0 : Inv w0) {L : List Save} (hl : Logged E w0 L) (ms : List Manager)
    (hm : ∀ m ∈ ms, OkManager E.lib S pick m ∧ tagOf lookup m.name ≠ [])
    (text tail : Bytes) (ht : text = (ms.map fun m => (m.showWarnings S pick).2).flatten) (hs : ∀ l ∈ splitLines text, l.length < 65536)
    (ha : After tail) :
    ∃ w, parseWarningData E source lookup w0 (text ++ tail) = some (w, false) ∧ Inv w ∧
      (∀ h lt n, w.look h lt n = ms.foldl (addReport E source lookup S pick) w0.look h lt n) ∧
      Logged E w (L ++ (ms.map (reportSaves E source lookup S pick)).flatten) := by
  obtain ⟨w, h1, h2, h3, h4, _⟩ := parse_all hL S pick source lookup w0 h0 hl [] quiets_nil ms hm text tail ht hs ha
  exact ⟨w, h1, h2, h3, h4⟩

/-- C38, for managers however they came about. -/
theorem C38_managers {E : Env} (hL : LowersLib E.lib) (S : Sorter) (pick : List Bytes → List Bytes) (source : Bytes)
    (lookup : Map Bytes Bytes) (ms : List Manager) (hm : ∀ m ∈ ms, OkManager E.lib S pick m ∧ tagOf lookup m.name ≠ [])
    (hd : (ms.map fun m => tagOf lookup m.name).Nodup)
    (hn : ∀ m ∈ ms, (shown S pick m).Pairwise fun a b => a.name ≠ b.name)
    (head text tail : Bytes) (hb : Before head) (ht : text = (ms.map fun m => (m.showWarnings S pick).2).flatten) (hs : ∀ l ∈ splitLines text, l.length < 65536)
    (ha : After tail) :
    ∃ w, parseWarningData E source lookup {} (head ++ text ++ tail) = some (w, false) ∧
      (∀ m ∈ ms, ∀ i ∈ shown S pick m, w.look (tagOf lookup m.name) (levelText i.level) i.name = some (found E source i)) ∧
      ∀ h lt n, (w.look h lt n).isSome = true →
        ∃ m ∈ ms, h = tagOf lookup m.name ∧ ∃ i ∈ shown S pick m, lt = levelText i.level ∧ n = i.name := by
  obtain ⟨bs, hb, rfl⟩ := hb
  obtain ⟨w, hw, _, hv, _⟩ := parse_all hL S pick source lookup {} inv_new (logged_new E) bs hb ms hm text tail ht hs ha
  obtain ⟨hfound, honly⟩ := addReports (E := E) (source := source) (lookup := lookup) (S := S) (pick := pick) ms
    (Warns.look {}) hd (fun _ _ _ _ => rfl) fun m h => ⟨fun w hw => ((hm m h).1.warns w hw).level, hn m h⟩
  refine ⟨w, hw, fun m h i hi => by rw [hv]; exact hfound m h i hi, fun h lt n hsome => ?_⟩
  rw [hv] at hsome
  rcases honly h lt n hsome with h' | h'
  · cases h'
  · exact h'

theorem step_name (m : Manager) (op : MOp) : (m.step op).name = m.name ∧ (m.step op).showPrefix = m.showPrefix := by
  have hpre : ∀ (ws : List Warning) (m : Manager), (m.predefine ws).name = m.name ∧ (m.predefine ws).showPrefix = m.showPrefix := by
    intro ws
    induction ws with
    | nil => intro m; exact ⟨rfl, rfl⟩
    | cons w ws ih => intro m; exact ih _
  have hget : ∀ m : Manager, (m.getWarnings someSorter id).1.name = m.name ∧ (m.getWarnings someSorter id).1.showPrefix = m.showPrefix := by
    intro m
    unfold Manager.getWarnings
    split
    · exact ⟨rfl, rfl⟩
    · simp only
      unfold Manager.cleanUp
      split
      · exact ⟨rfl, rfl⟩
      · simp only; split <;> exact ⟨rfl, rfl⟩
  have hskip : ∀ (fn : Bytes) (ws : List Warning), (m.skipTestIf fn ws).1.name = m.name ∧ (m.skipTestIf fn ws).1.showPrefix = m.showPrefix := by
    intro fn ws
    induction ws with
    | nil => exact ⟨rfl, rfl⟩
    | cons w ws ih =>
      unfold Manager.skipTestIf
      split
      · exact ⟨rfl, rfl⟩
      · exact ih
  cases op with
  | predefine ws => exact hpre ws m
  | warnOnly fn w =>
    simp only [Manager.step, Manager.setWarnOnly]
    split <;> exact ⟨rfl, rfl⟩
  | skipTestIf fn ws => exact hskip fn ws
  | get => exact hget m
  | _ => exact ⟨rfl, rfl⟩

theorem run_name (r : Run) : r.manager.name = r.name ∧ r.manager.showPrefix = r.pfx := by
  have : ∀ (ops : List MOp) (m : Manager), (m.run ops).name = m.name ∧ (m.run ops).showPrefix = m.showPrefix := by
    intro ops
    induction ops with
    | nil => intro m; exact ⟨rfl, rfl⟩
    | cons op ops ih =>
      intro m
      obtain ⟨h1, h2⟩ := ih (m.step op)
      exact ⟨h1.trans (step_name m op).1, h2.trans (step_name m op).2⟩
  exact this r.ops _

/-- A history whose report can be read back. -/
structure OkRun (L : Replace.Lib) (lookup : Map Bytes Bytes) (r : Run) : Prop where
  one : WarnManager.OneUnused r.ops
  pre : Pre r.pfx
  name : OkName r.name
  tag : tagOf lookup r.name ≠ []
  warns : ∀ n i, WarnManager.reported r.events n = some i → OkWarn L i

/-- C38: the reports printed for any number of handlers after any use of their managers,
after any lines that are not headings and followed by nothing or by the list of handlers by warning, are read without error, and
the server then knows for each handler exactly the warnings that were added: level, name
and summary, and function, text and log line of every instance in order. (The tag of a
test function is what `C38_tag` says.) -/
theorem C38_round_trip_partial {E : Env} (hL : LowersLib E.lib) (S : Sorter) (pick : List Bytes → List Bytes) (hp : ∀ l, (pick l).Perm l)
    (source : Bytes) (lookup : Map Bytes Bytes) (rs : List Run) (hr : ∀ r ∈ rs, OkRun E.lib lookup r)
    (hd : (rs.map fun r => tagOf lookup r.name).Nodup) (head text tail : Bytes) (hb : Before head)
    (ht : text = (rs.map fun r => (r.manager.showWarnings S pick).2).flatten) (hs : ∀ l ∈ splitLines text, l.length < 65536)
    (ha : After tail) :
    ∃ w, parseWarningData E source lookup {} (head ++ text ++ tail) = some (w, false) ∧
      (∀ r ∈ rs, ∀ n i, WarnManager.reported r.events n = some i →
        w.look (tagOf lookup r.name) (levelText i.level) n = some (found E source i)) ∧
      ∀ h lt n, (w.look h lt n).isSome = true →
        ∃ r ∈ rs, h = tagOf lookup r.name ∧ ∃ i, WarnManager.reported r.events n = some i ∧ lt = levelText i.level := by
  have hrep : ∀ r ∈ rs, WarnManager.Report r.events (shown S pick r.manager) := fun r h =>
    WarnManager.C30_report r.name r.pfx r.ops (hr r h).one S pick hp
  have hnames : ∀ r ∈ rs, (shown S pick r.manager).Pairwise fun a b => a.name ≠ b.name := by
    intro r h
    have hrp := hrep r h
    refine List.Pairwise.imp_of_mem ?_ hrp.order
    intro a b ha hb hab e
    obtain ⟨n, hn⟩ := (hrp.mem a).1 ha
    obtain ⟨k, hk⟩ := (hrp.mem b).1 hb
    have hnk : n = k := by rw [← WarnManager.reported_name hn, ← WarnManager.reported_name hk, e]
    subst hnk
    rw [hn] at hk
    cases hk
    rcases hab with h | ⟨_, h⟩
    · omega
    · rw [less_irrefl] at h; cases h
  obtain ⟨w, hw, h1, h2⟩ := C38_managers hL S pick source lookup (rs.map Run.manager)
    (by
      intro m hm
      obtain ⟨r, h, rfl⟩ := List.mem_map.1 hm
      refine ⟨⟨?_, ?_, fun i hi => ?_⟩, ?_⟩
      · rw [(run_name r).2]; exact (hr r h).pre
      · rw [(run_name r).1]; exact (hr r h).name
      · obtain ⟨n, hn⟩ := ((hrep r h).mem i).1 hi
        exact (hr r h).warns n i hn
      · rw [(run_name r).1]; exact (hr r h).tag)
    (by
      rw [List.map_map]
      have : ((fun m : Manager => tagOf lookup m.name) ∘ Run.manager) = fun r => tagOf lookup r.name := by
        funext r; simp [(run_name r).1]
      rw [this]; exact hd)
    (by
      intro m hm
      obtain ⟨r, h, rfl⟩ := List.mem_map.1 hm
      exact hnames r h)
    head text tail hb (by rw [ht, List.map_map]; rfl) hs ha
  refine ⟨w, hw, fun r h n i hi => ?_, fun h lt n hsome => ?_⟩
  · have := h1 r.manager (List.mem_map.2 ⟨r, h, rfl⟩) i (((hrep r h).mem i).2 ⟨n, hi⟩)
    rw [(run_name r).1, WarnManager.reported_name hi] at this
    exact this
  · obtain ⟨m, hm, e, i, hi, e1, e2⟩ := h2 h lt n hsome
    obtain ⟨r, hr', rfl⟩ := List.mem_map.1 hm
    obtain ⟨k, hk⟩ := ((hrep r hr').mem i).1 hi
    refine ⟨r, hr', by rw [e, (run_name r).1], i, ?_, e1⟩
    rw [e2, WarnManager.reported_name hk]; exact hk

/-! ### A case -/

/-- A library that lower-cases as Go does. -/
def someLib : Replace.Lib := { asciiLib with toLower := mapRunes someLow }

/-- A run with a warning with text of two lines and a log line, and one without. -/
def someRun : Run where
  name := b!"phsym/zerolog"
  pfx := b!"# "
  ops := [.add ⟨4, b!"Duplicates", b!"Duplicate field(s) found", []⟩ b!"TestCase" b!"2x[Alpha]\n  more" b!"{\"a\": 1}\n",
    .add ⟨1, b!"Unused", b!"Unused Warnings(s)", []⟩ b!"BenchmarkCase" b!"Unreal" [],
    .add ⟨4, b!"Duplicates", b!"Duplicate field(s) found", []⟩ b!"TestOther" [] []]

theorem some_events : someRun.events =
    [⟨⟨4, b!"Duplicates", b!"Duplicate field(s) found", []⟩, b!"TestCase", b!"2x[Alpha]\n  more", b!"{\"a\": 1}\n"⟩,
      ⟨⟨1, b!"Unused", b!"Unused Warnings(s)", []⟩, b!"BenchmarkCase", b!"Unreal", []⟩,
      ⟨⟨4, b!"Duplicates", b!"Duplicate field(s) found", []⟩, b!"TestOther", [], []⟩] := by
  rfl

theorem endsSolid_iff (l : Bytes) : EndsSolid l ↔ ∀ a ∈ l.getLast?, isS a = false := by
  constructor
  · intro h a ha
    obtain ⟨t, rfl⟩ := List.getLast?_eq_some_iff.1 ha
    exact h a t rfl
  · rintro h a t rfl
    exact h a (by simp)

theorem trim_of {l : Bytes} (h1 : ∀ a ∈ l.head?, isS a = false) (h2 : ∀ a ∈ l.getLast?, isS a = false) (h3 : ∀ a ∈ l, isDot a = true) : Trim l where
  first := by rintro a t rfl; exact h1 a (by simp)
  last := by rintro a t rfl; exact h2 a (by simp)
  dots := h3

/-- The assumptions of C38 can be met. -/
theorem some_ok : OkRun someLib [] someRun where
  one := by
    intro op h w hw hn
    simp only [someRun, List.mem_cons, List.not_mem_nil, or_false] at h
    rcases h with rfl | rfl | rfl <;> simp only [WarnManager.MOp.given, List.mem_singleton] at hw <;> subst hw
    · revert hn; decide
    · exact ⟨rfl, rfl⟩
    · revert hn; decide
  pre := .inr ⟨b!" ", rfl, by simp⟩
  name := ⟨by simp [someRun], by unfold OneLine; decide, by rintro a t e; cases e; decide⟩
  tag := by decide
  warns := by
    have notLevel : ∀ {a : UInt8} {t : Bytes}, a = 0x54 → parseLevel someLib (a :: t) = none := by
      rintro a t rfl
      cases h : parseLevel someLib (0x54 :: t) with
      | none => rfl
      | some l =>
        obtain ⟨s, hs, hr⟩ := (WarnText.C32_parse_any_text some_lowers _ _).1 h
        exfalso
        cases hs <;> (cases hr with | letter h1 _ => revert h1; decide)
    intro n i h
    rw [some_events] at h
    unfold WarnManager.reported WarnManager.under at h
    by_cases h1 : n = b!"Duplicates"
    · subst h1
      have h := Option.some.inj h
      subst h
      refine ⟨by decide, by unfold OneLine; decide, trim_of (by decide) (by decide) (by decide), by decide, ?_⟩
      intro d hd
      have hd : d = ⟨b!"TestCase", b!"{\"a\": 1}", b!"2x[Alpha]\n  more"⟩ ∨ d = ⟨b!"TestOther", [], []⟩ := by
        have : d ∈ [(⟨b!"TestCase", b!"{\"a\": 1}", b!"2x[Alpha]\n  more"⟩ : Instance), ⟨b!"TestOther", [], []⟩] := hd
        simpa using this
      rcases hd with rfl | rfl
      · refine ⟨⟨by unfold Word; decide, by simp, by rintro a t e; cases e; decide, by simp⟩, ?_, ?_⟩
        · refine ⟨b!"2x[Alpha]", [b!"  more"], ⟨rfl, by unfold OneLine; decide, ?_⟩, trim_of (by decide) (by decide) (by decide), by simp, ?_⟩
          · intro l hl; simp only [List.mem_singleton] at hl; subst hl; unfold OneLine; decide
          · intro l hl; simp only [List.mem_singleton] at hl; subst hl; rw [endsSolid_iff]; decide
        · exact .inr ⟨b!"\"a\": 1}", rfl, by unfold OneLine; decide, by rw [endsSolid_iff]; decide⟩
      · refine ⟨⟨by unfold Word; decide, by simp, by rintro a t e; cases e; decide, fun _ => ⟨by decide, notLevel rfl⟩⟩, ?_, .inl rfl⟩
        exact ⟨[], [], ⟨rfl, by unfold OneLine; decide, by simp⟩, trim_of (by decide) (by decide) (by decide), by simp, by simp⟩
    · by_cases h2 : n = b!"Unused"
      · subst h2
        have h := Option.some.inj h
        subst h
        refine ⟨by decide, by unfold OneLine; decide, trim_of (by decide) (by decide) (by decide), by decide, ?_⟩
        intro d hd
        have hd : d = ⟨b!"BenchmarkCase", [], b!"Unreal"⟩ := by
          have : d ∈ [(⟨b!"BenchmarkCase", [], b!"Unreal"⟩ : Instance)] := hd
          simpa using this
        subst hd
        refine ⟨⟨by unfold Word; decide, by simp, by rintro a t e; cases e; decide, by simp⟩, ?_, .inl rfl⟩
        exact ⟨b!"Unreal", [], ⟨rfl, by unfold OneLine; decide, by simp⟩, trim_of (by decide) (by decide) (by decide), by simp, by simp⟩
      · have h1 : ¬ b!"Duplicates" = n := fun e => h1 e.symm
        have h2 : ¬ b!"Unused" = n := fun e => h2 e.symm
        simp only [List.filter_cons, h1, h2, decide_false, Bool.false_eq_true, if_false, List.filter_nil] at h
        cases h

/-- C38: the conclusion for the case. -/
example (camel : Bytes → List Bytes) (indent : Bytes → Option Bytes) (S : Sorter) (text : Bytes)
    (ht : text = (someRun.manager.showWarnings S id).2) (hs : ∀ l ∈ splitLines text, l.length < 65536) :
    ∃ w, parseWarningData ⟨someLib, camel, indent⟩ b!"Verify" [] {} text = some (w, false) ∧
      ((w.look b!"phsym/zerolog" b!"Required" b!"Duplicates").map fun x => x.instances.map fun i => (i.tag, i.extra, i.line)) =
        some [(b!"Case", b!"2x[Alpha]\n  more", b!"{\"a\": 1}"), (b!"Other", [], [])] := by
  obtain ⟨w, hw, h1, _⟩ := C38_round_trip_partial (E := ⟨someLib, camel, indent⟩) ⟨_, some_lowers⟩ S id (fun l => .refl l) b!"Verify" []
    [someRun] (by intro r hr; simp only [List.mem_singleton] at hr; subst hr; exact some_ok) (by simp) [] text [] before_nil (by simpa using ht) hs .nothing
  rw [List.append_nil] at hw
  refine ⟨w, hw, ?_⟩
  have := h1 someRun (by simp) b!"Duplicates" _ (by rw [some_events]; rfl)
  have e : w.look b!"phsym/zerolog" b!"Required" b!"Duplicates" = _ := this
  rw [e]
  rfl

/-- C38: the tag of a test function is its name without the prefix for tests or
benchmarks and an underscore after that. -/
theorem C38_tag (s : Bytes) (h1 : ¬ b!"Test" <+: s) (h2 : ¬ b!"Benchmark" <+: s) :
    testTag s = s ∧ testTag (b!"Test_" ++ s) = s ∧ testTag (b!"Benchmark_" ++ s) = s ∧
      (s.head? ≠ some 0x5F → testTag (b!"Test" ++ s) = s ∧ testTag (b!"Benchmark" ++ s) = s) := by
  have no : ∀ {p : Bytes}, ¬ p <+: s → stripPrefix p s = none := by
    intro p hp
    cases h : stripPrefix p s with
    | none => rfl
    | some t => exact absurd ⟨t, (stripPrefix_iff.1 h).symm⟩ hp
  have n1 := no h1
  have n2 := no h2
  have n3 : stripPrefix b!"Test_" s = none := no fun ⟨t, e⟩ => h1 ⟨b!"_" ++ t, by rw [← e]; simp⟩
  have n4 : stripPrefix b!"Benchmark_" s = none := no fun ⟨t, e⟩ => h2 ⟨b!"_" ++ t, by rw [← e]; simp⟩
  have c0 : cutOnce s [b!"Benchmark_", b!"Benchmark", b!"Test_", b!"Test"] = (s, false) := by
    simp only [cutOnce, n1, n2, n3, n4]
  have base : ∀ k, cutAll k s = s := by
    intro k
    cases k with
    | zero => rfl
    | succ k => rw [cutAll, c0]
  have once : ∀ x, x.length = x.length → cutOnce x [b!"Benchmark_", b!"Benchmark", b!"Test_", b!"Test"] = (s, true) → testTag x = s := by
    intro x _ h
    unfold testTag
    rw [cutAll, h]
    exact base _
  refine ⟨base _, once _ rfl ?_, once _ rfl ?_, fun hu => ⟨once _ rfl ?_, once _ rfl ?_⟩⟩
  · simp only [cutOnce]
    rw [show stripPrefix b!"Benchmark_" (b!"Test_" ++ s) = none from rfl, show stripPrefix b!"Benchmark" (b!"Test_" ++ s) = none from rfl]
    simp only [stripPrefix_append, n1]
  · simp only [cutOnce, stripPrefix_append, n1, n2, n3]
  · have h5 : stripPrefix b!"Test_" (b!"Test" ++ s) = none := by
      cases s with
      | nil => rfl
      | cons a s =>
        have : ¬ (0x5F : UInt8) = a := fun e => hu (by simp [e])
        simp [stripPrefix, this]
    simp only [cutOnce]
    rw [show stripPrefix b!"Benchmark_" (b!"Test" ++ s) = none from rfl, show stripPrefix b!"Benchmark" (b!"Test" ++ s) = none from rfl]
    simp only [h5, stripPrefix_append]
  · have h5 : stripPrefix b!"Benchmark_" (b!"Benchmark" ++ s) = none := by
      cases s with
      | nil => rfl
      | cons a s =>
        have : ¬ (0x5F : UInt8) = a := fun e => hu (by simp [e])
        simp [stripPrefix, this]
    simp only [cutOnce]
    simp only [h5, stripPrefix_append, n1, n3]

example : testTag b!"BenchmarkBig_Group" = b!"Big_Group" := (C38_tag b!"Big_Group" (by decide) (by decide)).2.2.2 (by decide) |>.2

/-! ### C39 -/

/-- C39 as stated: no text makes the parser panic. -/
def C39_statement : Prop := ∀ (E : Env) (source : Bytes) (lookup : Map Bytes Bytes) (w : Warns) (text : Bytes),
  parseWarningData E source lookup w text ≠ none

/-- C39 is false: a line that looks like a log line and does not belong to an instance is
enough. -/
theorem C39_panics : ¬ C39_statement := fun h =>
  h ⟨asciiLib, fun _ => [], fun _ => none⟩ [] [] {} b!"Warnings for x:\n{\n" (by decide)

/-- A line whose first byte that is no white space and no number sign is not a brace. -/
def NotLog (l : Bytes) : Prop := ∀ v t, l = v ++ 0x7B :: t → ∃ a ∈ v, isS a = false ∧ a ≠ 0x23

theorem log_find {X : Bytes} (h : (ptnLogLine.find X).isSome = true) : ∃ v t, X = v ++ 0x7B :: t ∧ ∀ a ∈ v, isS a = true := by
  cases hn : ptnLogLine.find X with
  | none => rw [hn] at h; cases h
  | some m =>
    apply Classical.byContradiction
    intro hc
    have : ptnLogLine.find X = none := by
      rw [Re.find_none]
      intro u hl
      obtain ⟨v, t, e, hv, hl⟩ := lang_seq_star hl
      cases hl with
      | lit => exact hc ⟨v, u, e, hv⟩
    rw [this] at hn; cases hn

theorem trim_sub (l : Bytes) : ∃ v w, l = v ++ trimLine l ++ w ∧ ∀ a ∈ v, isS a = true ∨ a = 0x23 := by
  have drop : ∀ l : Bytes, ∃ v, l = v ++ l.dropWhile (· == 0x20) ∧ ∀ a ∈ v, a = 0x20 := by
    intro l
    induction l with
    | nil => exact ⟨[], rfl, by simp⟩
    | cons a l ih =>
      rw [List.dropWhile_cons]
      split
      · rename_i h
        obtain ⟨v, e, hv⟩ := ih
        refine ⟨a :: v, by rw [List.cons_append, ← e], ?_⟩
        intro b hb
        rcases List.mem_cons.1 hb with rfl | hb
        · simpa using h
        · exact hv b hb
      · exact ⟨[], rfl, by simp⟩
  unfold trimLine
  obtain ⟨u, r, e, hu, hr⟩ : ∃ u r, l = u ++ r ∧ (∀ a ∈ u, a = 0x23) ∧ (stripPrefix [0x23] l).getD l = r := by
    cases h : stripPrefix [0x23] l with
    | none => exact ⟨[], l, rfl, by simp, rfl⟩
    | some t => exact ⟨[0x23], t, stripPrefix_iff.1 h, by simp, rfl⟩
  simp only [hr]
  obtain ⟨v1, e1, hv1⟩ := drop r
  obtain ⟨v2, e2, hv2⟩ := drop (r.dropWhile (· == 0x20)).reverse
  refine ⟨u ++ v1, v2.reverse, ?_, ?_⟩
  · have e3 := congrArg List.reverse e2
    rw [List.reverse_reverse, List.reverse_append] at e3
    simp only [List.append_assoc]
    rw [← e3, ← e1]
    exact e
  · intro a ha
    rcases List.mem_append.1 ha with h | h
    · exact .inr (hu a h)
    · rw [hv1 a h]; exact .inl (by decide)

theorem notLog_find {l : Bytes} (h : NotLog l) : ptnLogLine.find l = none ∧ ptnLogLine.find (trimLine l) = none := by
  constructor
  · cases hf : ptnLogLine.find l with
    | none => rfl
    | some m =>
      obtain ⟨v, t, e, hv⟩ := log_find (X := l) (by rw [hf]; rfl)
      obtain ⟨a, ha, hs, _⟩ := h v t e
      rw [hv a ha] at hs; cases hs
  · cases hf : ptnLogLine.find (trimLine l) with
    | none => rfl
    | some m =>
      obtain ⟨v, t, e, hv⟩ := log_find (X := trimLine l) (by rw [hf]; rfl)
      obtain ⟨v', w, e', hv'⟩ := trim_sub l
      rw [e] at e'
      obtain ⟨a, ha, hs, hne⟩ := h (v' ++ v) (t ++ w) (by rw [e']; simp)
      rcases List.mem_append.1 ha with ha | ha
      · rcases hv' a ha with h | h
        · rw [h] at hs; cases hs
        · exact absurd h hne
      · rw [hv a ha] at hs; cases hs

theorem rest_no_panic {E : Env} {source line : Bytes} {p : PState} (h : ptnLogLine.find line = none) :
    bodyRest E source line p ≠ .panic := by
  unfold bodyRest
  split
  · simp
  · split
    · simp
    · split
      · simp
      · split
        · simp
        · rw [h]
          simp only [Option.isSome_none, Bool.false_eq_true, if_false]
          split
          · simp
          · split <;> simp

theorem loop_no_panic {E : Env} {source : Bytes} {lookup : Map Bytes Bytes} : ∀ (ls : List Bytes) (q : Option Summ) (p : PState),
    (∀ x ∈ q, ptnLogLine.find x.start = none) → (∀ l ∈ ls, NotLog l) → parseLoop E source lookup q ls p ≠ none
  | [], none, p, _, _ => by simp [parseLoop]
  | [], some q, p, hq, _ => by
    have := rest_no_panic (E := E) (source := source) (p := p) (hq q rfl)
    rw [parseLoop]
    cases h : bodyRest E source q.start p with
    | next p => simp
    | stop p => simp
    | panic => exact absurd h this
  | l :: ls, none, p, _, hl => by
    rw [parseLoop]
    have hn := notLog_find (hl l (by simp))
    have hstep : ∀ x, bodyTop E source lookup l p = x → (x ≠ .inl .panic ∧ ∀ q, x = .inr q → ptnLogLine.find q.start = none) := by
      rintro x rfl
      unfold bodyTop
      simp only
      split
      · simp
      · split
        · simp
        · split
          · simp
          · split
            · refine ⟨by simp, fun q e => ?_⟩
              cases e; exact hn.2
            · refine ⟨fun e => rest_no_panic hn.2 (Sum.inl.inj e), fun q e => by cases e⟩
    generalize hx : bodyTop E source lookup l p = x
    obtain ⟨h1, h2⟩ := hstep x hx
    match x, h1, h2 with
    | .inl (.next p), _, _ => exact loop_no_panic ls none p (by simp) fun y hy => hl y (by simp [hy])
    | .inl (.stop p), _, _ => simp
    | .inl .panic, h1, _ => exact absurd rfl h1
    | .inr q, _, h2 => exact loop_no_panic ls (some q) p (by rintro x hx; cases hx; exact h2 _ rfl) fun y hy => hl y (by simp [hy])
  | l :: ls, some q, p, hq, hl => by
    rw [parseLoop]
    have hn := notLog_find (hl l (by simp))
    have hstep : ∀ x, bodySumm E source lookup l q p = x → (x ≠ .inl .panic ∧ ∀ r, x = .inr r → ptnLogLine.find r.start = none) := by
      rintro x rfl
      unfold bodySumm
      split
      · exact ⟨by simp, fun r e => by cases e; exact hq q rfl⟩
      · split
        · exact ⟨by simp, fun r e => by cases e; exact hq q rfl⟩
        · exact ⟨fun e => rest_no_panic hn.1 (Sum.inl.inj e), fun q e => by cases e⟩
    generalize hx : bodySumm E source lookup l q p = x
    obtain ⟨h1, h2⟩ := hstep x hx
    match x, h1, h2 with
    | .inl (.next p), _, _ => exact loop_no_panic ls none p (by simp) fun y hy => hl y (by simp [hy])
    | .inl (.stop p), _, _ => simp
    | .inl .panic, h1, _ => exact absurd rfl h1
    | .inr r, _, h2 => exact loop_no_panic ls (some r) p (by rintro x hx; cases hx; exact h2 _ rfl) fun y hy => hl y (by simp [hy])

/-- What holds of C39: a text none of whose lines looks like a log line (a brace after
nothing but white space and number signs) is read without a panic, whatever else is in
it. (Texts with log lines: `C38_round_trip_partial` for what the managers print.) Missing: texts
with log lines in other places, where the parser may panic. -/
theorem C39_partial (E : Env) (source : Bytes) (lookup : Map Bytes Bytes) (w : Warns) (text : Bytes)
    (h : ∀ l ∈ splitLines text, NotLog l) : parseWarningData E source lookup w text ≠ none := by
  have hs : ∀ l ∈ scanLines text, NotLog l := by
    intro l hl
    unfold scanLines at hl
    obtain ⟨x, hx, rfl⟩ := List.mem_map.1 hl
    have hx := h x ((List.takeWhile_sublist _).subset hx)
    unfold dropCR
    split
    · rename_i hc
      intro v t e
      obtain ⟨y, hy⟩ := List.getLast?_eq_some_iff.1 hc
      have : x.dropLast = y := by rw [hy]; simp
      rw [this] at e
      exact hx v (t ++ [0x0D]) (by rw [hy, e]; simp)
    · exact hx
  unfold parseWarningData
  have := loop_no_panic (E := E) (source := source) (lookup := lookup) (scanLines text) none { w } (by simp) hs
  split
  · rename_i h; exact absurd h this
  · simp

theorem dropWhile_all (p : UInt8 → Bool) : ∀ v : Bytes, (∀ a ∈ v, p a = true) → v.dropWhile p = []
  | [], _ => rfl
  | a :: v, h => by rw [List.dropWhile_cons, if_pos (h a (by simp)), dropWhile_all p v fun b hb => h b (by simp [hb])]

example : ∀ l ∈ splitLines b!"Warnings for x:\n  Required\n   1 [W] S\n  Test: {\n:[ y\n:: z\n", NotLog l := by
  have key : ∀ l : Bytes, (∃ a t, l.dropWhile (fun b => isS b || b == 0x23) = a :: t ∧ a ≠ 0x7B) ∨ 0x7B ∉ l → NotLog l := by
    intro l h v t e
    rcases h with ⟨a, u, h, ha⟩ | h
    · apply Classical.byContradiction
      intro hc
      have hv : ∀ b ∈ v, (isS b || b == 0x23) = true := by
        intro b hb
        apply Classical.byContradiction
        intro hn
        simp only [Bool.or_eq_true, beq_iff_eq, not_or, Bool.not_eq_true] at hn
        exact hc ⟨b, hb, hn.1, hn.2⟩
      rw [e, List.dropWhile_append, dropWhile_all _ v hv] at h
      simp only [List.isEmpty_nil, if_true] at h
      rw [List.dropWhile_cons, if_neg (by decide)] at h
      cases h
      exact ha rfl
    · exact absurd (by rw [e]; simp) h
  intro l hl
  have : splitLines b!"Warnings for x:\n  Required\n   1 [W] S\n  Test: {\n:[ y\n:: z\n" =
    [b!"Warnings for x:", b!"  Required", b!"   1 [W] S", b!"  Test: {", b!":[ y", b!":: z"] := by decide
  rw [this] at hl
  simp only [List.mem_cons, List.not_mem_nil, or_false] at hl
  rcases hl with rfl | rfl | rfl | rfl | rfl | rfl
  · exact key _ (.inr (by decide))
  · exact key _ (.inr (by decide))
  · exact key _ (.inr (by decide))
  · exact key _ (.inl ⟨0x54, b!"est: {", by decide, by decide⟩)
  · exact key _ (.inr (by decide))
  · exact key _ (.inr (by decide))

end Verif.Props.WarnReport
