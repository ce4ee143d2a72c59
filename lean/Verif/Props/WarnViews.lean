import Verif.Props.Setup

/-
C64: the views of the warnings by test and by warning.
-/

set_option linter.unusedSimpArgs false

namespace Verif.Props.WarnViews
open Go Letters Lines Verif.Warning Verif.Data Verif.Props.WarnReport

/-! ### Specification -/

/-- The additions of a run under a name that a test made, as the view by test is to have
them, if the run reports the name under that level. -/
def heardTest (E : Env) (lookup : Map Bytes Bytes) (t lt n : Bytes) (p : Bytes × Run) : List DInst :=
  match WarnManager.reported p.2.events n with
  | none => []
  | some i =>
    if levelText i.level = lt then
      (i.data.filter fun d => decide (testOf p.1 d = t)).map fun d =>
        { name := handlerName E (tagOf lookup p.2.name), extra := d.text
          log := if d.record = [] then [] else (E.indent d.record).getD [] }
    else []

/-- The number of additions under a name in the runs of a handler. -/
def heardCount (lookup : Map Bytes Bytes) (hist : List (Bytes × Run)) (n h : Bytes) : Nat :=
  (hist.map fun p => if tagOf lookup p.2.name = h then (WarnManager.under p.2.events n).length else 0).sum

/-- The views by test and by warning are those of runs, each read from a source. -/
structure Views (E : Env) (lookup : Map Bytes Bytes) (w : Warns) (hist : List (Bytes × Run)) : Prop where
  /-- The warnings known are those something was added to. -/
  known : ∀ n, (w.byWarning.get n).isSome = true ↔ ∃ p ∈ hist, WarnManager.under p.2.events n ≠ []
  /-- Every addition is counted, once. -/
  count : ∀ n h, ((w.findWarning n).count.get h).getD 0 = heardCount lookup hist n h
  /-- Handlers without additions have no count. -/
  counted : ∀ n h, ((w.findWarning n).count.get h).isSome = true ↔ heardCount lookup hist n h ≠ 0
  /-- The handlers of a warning. -/
  handlers : ∀ n h, (w.findWarning n).hdlrMap.get h = some true ↔
    ∃ p ∈ hist, tagOf lookup p.2.name = h ∧ WarnManager.under p.2.events n ≠ []
  /-- The tests of a warning. -/
  tests : ∀ n t, (w.findWarning n).testMap.get t = some true ↔
    ∃ p ∈ hist, ∃ e ∈ WarnManager.under p.2.events n, testOf p.1 e.shown = t
  /-- The instances of a test. -/
  instances : ∀ t lt n, (w.lookTest t lt n).map DWarn.instances =
    if (hist.map (heardTest E lookup t lt n)).flatten = [] then none else some (hist.map (heardTest E lookup t lt n)).flatten
  /-- Name and summary of the warning of a test: the summary is that of the last run. -/
  about : ∀ t lt n x, w.lookTest t lt n = some x → x.name = n ∧
    ∃ p i, (hist.filter fun p => decide (heardTest E lookup t lt n p ≠ [])).getLast? = some p ∧
      WarnManager.reported p.2.events n = some i ∧ x.summary = i.summary

/-! ### What is stored of a report -/

theorem reported_iff {es : List WarnManager.Event} {n : Bytes} : WarnManager.reported es n = none ↔ WarnManager.under es n = [] := by
  unfold WarnManager.reported
  split
  · next h => simp [h]
  · next h => simp [h]

theorem reported_data {es : List WarnManager.Event} {n : Bytes} {i : Instances} (h : WarnManager.reported es n = some i) :
    i.data = (WarnManager.under es n).map WarnManager.Event.shown := by
  unfold WarnManager.reported at h
  split at h
  · cases h
  · next e rest he => cases h; rw [he]

/-- In the list of warnings there is at most one of a name. -/
theorem saves_named (E : Env) (source h n : Bytes) (q : Save → Bool) (hq : ∀ s, q s = true → s.name = n) :
    ∀ (ws : List Instances), ws.Pairwise (fun a b => a.name ≠ b.name) →
      ((∀ w ∈ ws, w.name ≠ n) → ((ws.map (warnSaves E source h)).flatten).filter q = []) ∧
      ∀ w ∈ ws, w.name = n → ((ws.map (warnSaves E source h)).flatten).filter q = (warnSaves E source h w).filter q
  | [], _ => ⟨fun _ => rfl, (by intro w hw; cases hw)⟩
  | x :: ws, hp => by
    rw [List.pairwise_cons] at hp
    obtain ⟨h1, h2⟩ := saves_named E source h n q hq ws hp.2
    have hx : x.name ≠ n → (warnSaves E source h x).filter q = [] := by
      intro hne
      rw [List.filter_eq_nil_iff]
      intro s hs hc
      unfold warnSaves at hs
      obtain ⟨d, _, rfl⟩ := List.mem_map.1 hs
      exact hne (hq _ hc)
    rw [List.map_cons, List.flatten_cons, List.filter_append]
    constructor
    · intro hn
      rw [hx (hn x (by simp)), h1 fun w hw => hn w (by simp [hw])]; rfl
    · intro w hw hwn
      rcases List.mem_cons.1 hw with rfl | hw
      · rw [h1 fun y hy e => hp.1 y hy (hwn.trans e.symm), List.append_nil]
      · rw [hx fun e => hp.1 w hw (e.trans hwn.symm), h2 w hw hwn]; rfl

/-- What is stored of a name is what the run reports of it. -/
theorem report_named {E : Env} {lookup : Map Bytes Bytes} {S : Sorter} {pick : List Bytes → List Bytes} (hp : ∀ l, (pick l).Perm l)
    {r : Run} (hr : OkRun E.lib lookup r) (source n : Bytes) (q : Save → Bool) (hq : ∀ s, q s = true → s.name = n) :
    (reportSaves E source lookup S pick r.manager).filter q =
      (match WarnManager.reported r.events n with
        | none => []
        | some i => warnSaves E source (tagOf lookup r.name) i).filter q := by
  have hrep : WarnManager.Report r.events (shown S pick r.manager) := WarnManager.C30_report r.name r.pfx r.ops hr.one S pick hp
  have hnames : (shown S pick r.manager).Pairwise fun a b => a.name ≠ b.name := (Setup.names_shown (S := S) hp hr.one).2
  have hlv : ∀ w ∈ shown S pick r.manager, w.level ∈ levelOrder := by
    intro w hw
    obtain ⟨k, hk⟩ := (hrep.mem w).1 hw
    exact (hr.warns k w hk).level
  unfold reportSaves
  rw [(run_name r).1]
  obtain ⟨h1, h2⟩ := saves_named E source (tagOf lookup r.name) n q hq _ (names_ordered (S := S) hnames)
  cases hn : WarnManager.reported r.events n with
  | none =>
    simp only [List.filter_nil]
    refine h1 fun w hw e => ?_
    obtain ⟨k, hk⟩ := (hrep.mem w).1 ((mem_ordered hlv w).1 hw)
    rw [← e, WarnManager.reported_name hk, hk] at hn
    cases hn
  | some i =>
    exact h2 i ((mem_ordered hlv i).2 ((hrep.mem i).2 ⟨n, hn⟩)) (WarnManager.reported_name hn)

theorem getLast?_flatten {α : Type} : ∀ (Ls : List (List α)), Ls.flatten.getLast? = ((Ls.filter fun l => decide (l ≠ [])).getLast?).bind List.getLast?
  | [] => rfl
  | [] :: Ls => by
    rw [List.flatten_cons, List.nil_append, getLast?_flatten Ls]
    simp
  | (a :: l) :: Ls => by
    rw [List.flatten_cons, List.getLast?_append, getLast?_flatten Ls, List.filter_cons, if_pos (by simp)]
    rw [show ∀ L : List (List α), (a :: l) :: L = [a :: l] ++ L from fun _ => rfl, List.getLast?_append]
    cases h : (Ls.filter fun l => decide (l ≠ [])).getLast? with
    | none => simp
    | some m =>
      have hm := List.mem_of_getLast? h
      have hm0 : m ≠ [] := by simpa using (List.mem_filter.1 hm).2
      simp only [Option.bind_some, Option.some_or]
      cases hl : m.getLast? with
      | none => rw [List.getLast?_eq_none_iff] at hl; exact absurd hl hm0
      | some x => simp

theorem filter_flatten {α : Type} (q : α → Bool) (Ls : List (List α)) : Ls.flatten.filter q = (Ls.map (List.filter q)).flatten := by
  rw [List.filter_flatten]

section
variable {E : Env} {lookup : Map Bytes Bytes} {S : Sorter} {pick : List Bytes → List Bytes}

/-- The instances stored while the reports of runs are read. -/
def histSaves (E : Env) (lookup : Map Bytes Bytes) (S : Sorter) (pick : List Bytes → List Bytes) (hist : List (Bytes × Run)) : List Save :=
  (hist.map fun p => reportSaves E p.1 lookup S pick p.2.manager).flatten

theorem hist_named (hp : ∀ l, (pick l).Perm l) {hist : List (Bytes × Run)} (hr : ∀ p ∈ hist, OkRun E.lib lookup p.2)
    (n : Bytes) (q : Save → Bool) (hq : ∀ s, q s = true → s.name = n) :
    (histSaves E lookup S pick hist).filter q = (hist.map fun p => (match WarnManager.reported p.2.events n with
        | none => []
        | some i => warnSaves E p.1 (tagOf lookup p.2.name) i).filter q).flatten := by
  unfold histSaves
  rw [List.filter_flatten, List.map_map]
  congr 1
  refine List.map_congr_left fun p h => ?_
  exact report_named hp (hr p h) p.1 n q hq

/-- Which instances are stored. -/
theorem hist_mem (hp : ∀ l, (pick l).Perm l) {hist : List (Bytes × Run)} (hr : ∀ p ∈ hist, OkRun E.lib lookup p.2) (n : Bytes) (q : Save → Prop) [DecidablePred q] :
    (∃ s ∈ histSaves E lookup S pick hist, s.name = n ∧ q s) ↔
      ∃ p ∈ hist, ∃ i, WarnManager.reported p.2.events n = some i ∧ ∃ s ∈ warnSaves E p.1 (tagOf lookup p.2.name) i, q s := by
  have := hist_named (S := S) hp hr n (fun s => decide (s.name = n ∧ q s)) fun s h => (of_decide_eq_true h).1
  have hm : ∀ s, s ∈ (histSaves E lookup S pick hist).filter (fun s => decide (s.name = n ∧ q s)) ↔
      s ∈ histSaves E lookup S pick hist ∧ (s.name = n ∧ q s) := fun s => by rw [List.mem_filter, decide_eq_true_iff]
  constructor
  · rintro ⟨s, hs, hc⟩
    have h := (hm s).2 ⟨hs, hc⟩
    rw [this] at h
    obtain ⟨l, hl, hs'⟩ := List.mem_flatten.1 h
    obtain ⟨p, hp', rfl⟩ := List.mem_map.1 hl
    cases hn : WarnManager.reported p.2.events n with
    | none => rw [hn] at hs'; simp at hs'
    | some i =>
      rw [hn] at hs'
      exact ⟨p, hp', i, hn, s, (List.mem_filter.1 hs').1, hc.2⟩
  · rintro ⟨p, hp', i, hn, s, hs, hq⟩
    have hsn : s.name = n := by
      unfold warnSaves at hs
      obtain ⟨d, _, rfl⟩ := List.mem_map.1 hs
      exact WarnManager.reported_name hn
    have h : s ∈ (histSaves E lookup S pick hist).filter (fun s => decide (s.name = n ∧ q s)) := by
      rw [this, List.mem_flatten]
      refine ⟨_, List.mem_map.2 ⟨p, hp', rfl⟩, ?_⟩
      rw [hn, List.mem_filter]
      exact ⟨hs, decide_eq_true ⟨hsn, hq⟩⟩
    exact ⟨s, ((hm s).1 h).1, hsn, hq⟩

theorem hist_count (hp : ∀ l, (pick l).Perm l) {hist : List (Bytes × Run)} (hr : ∀ p ∈ hist, OkRun E.lib lookup p.2) (n h : Bytes) :
    logCount (histSaves E lookup S pick hist) n h = heardCount lookup hist n h := by
  unfold logCount
  rw [List.countP_eq_length_filter, hist_named hp hr n _ fun s h => (of_decide_eq_true h).1, List.length_flatten, List.map_map]
  unfold heardCount
  congr 1
  refine List.map_congr_left fun p _ => ?_
  simp only [Function.comp]
  cases hn : WarnManager.reported p.2.events n with
  | none => rw [reported_iff.1 hn]; simp
  | some i =>
    have hin := WarnManager.reported_name hn
    simp only
    by_cases hh : tagOf lookup p.2.name = h
    · rw [if_pos hh, List.filter_eq_self.2, warnSaves, List.length_map, reported_data hn, List.length_map]
      intro s hs
      unfold warnSaves at hs
      obtain ⟨d, _, rfl⟩ := List.mem_map.1 hs
      exact decide_eq_true ⟨hin, hh⟩
    · rw [if_neg hh, List.length_eq_zero_iff, List.filter_eq_nil_iff]
      intro s hs hc
      unfold warnSaves at hs
      obtain ⟨d, _, rfl⟩ := List.mem_map.1 hs
      exact hh (of_decide_eq_true hc).2

theorem warn_at (E : Env) (source h t lt n : Bytes) (i : Instances) (hn : i.name = n) :
    (warnSaves E source h i).filter (Save.isAt t lt n) =
      if levelText i.level = lt then (i.data.filter fun d => decide (testOf source d = t)).map (instSave E source h i.level i.name i.summary) else [] := by
  unfold warnSaves
  rw [List.filter_map]
  by_cases hl : levelText i.level = lt
  · rw [if_pos hl]
    congr 1
    refine List.filter_congr fun d _ => ?_
    simp [Save.isAt, instSave, hl, hn]
  · rw [if_neg hl, List.map_eq_nil_iff, List.filter_eq_nil_iff]
    intro d _ hc
    have := of_decide_eq_true hc
    exact hl this.2.1

/-- The views are those of the runs. -/
theorem views_of_log (hp : ∀ l, (pick l).Perm l) {hist : List (Bytes × Run)} (hr : ∀ p ∈ hist, OkRun E.lib lookup p.2) {w : Warns}
    (hl : Logged E w (histSaves E lookup S pick hist)) : Views E lookup w hist := by
  have hat : ∀ t lt n, ((histSaves E lookup S pick hist).filter (Save.isAt t lt n)).map (Save.ofHandler E) =
      (hist.map (heardTest E lookup t lt n)).flatten := by
    intro t lt n
    rw [hist_named hp hr n _ fun s h => (of_decide_eq_true h).2.2, List.map_flatten, List.map_map]
    congr 1
    refine List.map_congr_left fun p _ => ?_
    unfold heardTest
    simp only [Function.comp]
    cases hn : WarnManager.reported p.2.events n with
    | none => rfl
    | some i =>
      simp only
      rw [warn_at E _ _ _ _ _ _ (WarnManager.reported_name hn)]
      split
      · rw [List.map_map]; rfl
      · rfl
  have hex : ∀ n (q : Save → Prop) [DecidablePred q], (∃ s ∈ histSaves E lookup S pick hist, s.name = n ∧ q s) ↔
      ∃ p ∈ hist, ∃ e ∈ WarnManager.under p.2.events n, ∃ i, WarnManager.reported p.2.events n = some i ∧
        q (instSave E p.1 (tagOf lookup p.2.name) i.level i.name i.summary e.shown) := by
    intro n q _
    rw [hist_mem hp hr]
    constructor
    · rintro ⟨p, h1, i, h2, s, h3, h4⟩
      unfold warnSaves at h3
      obtain ⟨d, hd, rfl⟩ := List.mem_map.1 h3
      rw [reported_data h2] at hd
      obtain ⟨e, he, rfl⟩ := List.mem_map.1 hd
      exact ⟨p, h1, e, he, i, h2, h4⟩
    · rintro ⟨p, h1, e, he, i, h2, h4⟩
      refine ⟨p, h1, i, h2, _, ?_, h4⟩
      unfold warnSaves
      refine List.mem_map.2 ⟨e.shown, ?_, rfl⟩
      rw [reported_data h2]
      exact List.mem_map.2 ⟨e, he, rfl⟩
  have hsome : ∀ {es : List WarnManager.Event} {n : Bytes}, WarnManager.under es n ≠ [] → ∃ i, WarnManager.reported es n = some i := by
    intro es n hne
    cases hc : WarnManager.reported es n with
    | none => exact absurd (reported_iff.1 hc) hne
    | some i => exact ⟨i, rfl⟩
  refine ⟨fun n => ?_, fun n h => ?_, fun n h => ?_, fun n h => ?_, fun n t => ?_, fun t lt n => ?_, fun t lt n x hx => ?_⟩
  · rw [hl.has]
    have := hex n fun _ => True
    simp only [and_true] at this
    rw [this]
    constructor
    · rintro ⟨p, h1, e, he, _⟩
      exact ⟨p, h1, List.ne_nil_of_mem he⟩
    · rintro ⟨p, h1, h2⟩
      obtain ⟨e, he⟩ := List.exists_mem_of_ne_nil _ h2
      exact ⟨p, h1, e, he, hsome h2⟩
  · rw [hl.count, ← hist_count (S := S) hp hr]
    split
    · next h0 => rw [h0]; rfl
    · rfl
  · rw [hl.count, ← hist_count (S := S) hp hr]
    split
    · next h0 => simp [h0]
    · next h0 => simp [h0]
  · rw [hl.hdlrs]
    have := hex n fun s => s.handler = h
    rw [show ∀ (P : Prop) [Decidable P], ((if P then some true else none) = some true) = P from fun P _ => by by_cases h : P <;> simp [h], this]
    constructor
    · rintro ⟨p, h1, e, he, i, _, hq⟩
      exact ⟨p, h1, hq, List.ne_nil_of_mem he⟩
    · rintro ⟨p, h1, hq, h2⟩
      obtain ⟨e, he⟩ := List.exists_mem_of_ne_nil _ h2
      obtain ⟨i, hi⟩ := hsome h2
      exact ⟨p, h1, e, he, i, hi, hq⟩
  · rw [hl.tmap]
    have := hex n fun s => s.test = t
    rw [show ∀ (P : Prop) [Decidable P], ((if P then some true else none) = some true) = P from fun P _ => by by_cases h : P <;> simp [h], this]
    constructor
    · rintro ⟨p, h1, e, he, i, _, hq⟩
      exact ⟨p, h1, e, he, hq⟩
    · rintro ⟨p, h1, e, he, hq⟩
      obtain ⟨i, hi⟩ := hsome (List.ne_nil_of_mem he)
      exact ⟨p, h1, e, he, i, hi, hq⟩
  · rw [hl.tests, logTest, hat]
    cases hg : ((histSaves E lookup S pick hist).filter (Save.isAt t lt n)).getLast? with
    | none =>
      rw [List.getLast?_eq_none_iff] at hg
      have := hat t lt n
      rw [hg] at this
      rw [← this]; rfl
    | some s =>
      rw [← hat, if_neg]
      · rfl
      · intro e
        rw [List.map_eq_nil_iff] at e
        rw [e] at hg; cases hg
  · rw [hl.tests] at hx
    refine ⟨logTest_name hx, ?_⟩
    unfold logTest at hx
    obtain ⟨s, hs, rfl⟩ := Option.map_eq_some_iff.1 hx
    rw [hist_named hp hr n _ fun s h => (of_decide_eq_true h).2.2, getLast?_flatten, List.filter_map] at hs
    obtain ⟨l, hl', hs⟩ := Option.bind_eq_some_iff.1 hs
    rw [List.getLast?_map] at hl'
    obtain ⟨p, hpl, rfl⟩ := Option.map_eq_some_iff.1 hl'
    cases hn : WarnManager.reported p.2.events n with
    | none => rw [hn] at hs; cases hs
    | some i =>
      rw [hn] at hs
      refine ⟨p, i, ?_, hn, ?_⟩
      · rw [← hpl]
        congr 1
        refine List.filter_congr fun p _ => ?_
        simp only [Function.comp, decide_eq_decide]
        unfold heardTest
        cases hn : WarnManager.reported p.2.events n with
        | none => simp
        | some i =>
          simp only
          rw [warn_at E _ _ _ _ _ _ (WarnManager.reported_name hn)]
          split
          · simp only [ne_eq, List.map_eq_nil_iff]
          · simp
      · have := (List.mem_filter.1 (List.mem_of_getLast? hs)).1
        unfold warnSaves at this
        obtain ⟨d, _, rfl⟩ := List.mem_map.1 this
        rfl

end

/-! ### C64 -/

/-- C64 for reports: once the reports of any number of runs are read, the view by test
has, for every test, level and warning, the additions the test made, in order, under the
names of the handlers; and the view by warning has the handlers and tests that made
additions and counts every addition once. -/
theorem C64_reports_partial {E : Env} (hL : LowersLib E.lib) (S : Sorter) (pick : List Bytes → List Bytes) (hp : ∀ l, (pick l).Perm l)
    (source : Bytes) (lookup : Map Bytes Bytes) (rs : List Run) (hr : ∀ r ∈ rs, OkRun E.lib lookup r) (head text tail : Bytes) (hb : Before head)
    (ht : text = (rs.map fun r => (r.manager.showWarnings S pick).2).flatten) (hs : ∀ l ∈ splitLines text, l.length < 65536)
    (ha : After tail) :
    ∃ w, parseWarningData E source lookup {} (head ++ text ++ tail) = some (w, false) ∧ Views E lookup w (rs.map fun r => (source, r)) := by
  obtain ⟨bs, hbs, rfl⟩ := hb
  obtain ⟨w, hw, _, _, hlog, _⟩ := parse_all hL S pick source lookup {} inv_new (logged_new E) bs hbs (rs.map Run.manager)
    (by
      intro m hm
      obtain ⟨r, h, rfl⟩ := List.mem_map.1 hm
      exact ⟨(Setup.okManager hp (hr r h)).1, by rw [(run_name r).1]; exact (hr r h).tag⟩)
    text tail (by rw [ht, List.map_map]; rfl) hs ha
  refine ⟨w, hw, views_of_log (S := S) hp (by
    intro p h
    obtain ⟨r, h', rfl⟩ := List.mem_map.1 h
    exact hr r h') ?_⟩
  unfold histSaves
  rw [List.map_map]
  rw [List.nil_append, List.map_map] at hlog
  exact hlog

/-- C64 for the server: what holds of both runs together, also for handlers of which the
verification run says that there are no warnings. -/
theorem C64_server_partial {F : Type} {E : Env} (hL : LowersLib E.lib) {fl : Floats F} {S : Sorter} {pick names : List Bytes → List Bytes} (hp : ∀ l, (pick l).Perm l)
    {bench verify : Bytes} {b : Bench F} {rs vs : List Run} (hg : Setup.Given E fl S pick bench verify b (b.handlerLookup names).2 rs vs) :
    ∃ w, setup E fl names {} {} bench verify = some ((b.handlerLookup names).1, w, false) ∧
      Views E (b.handlerLookup names).2 w (rs.map (fun r => (b!"Bench", r)) ++ vs.map fun r => (b!"Verify", r)) := by
  obtain ⟨w, hw, _, hlog, _⟩ := Setup.setup_reads hL hp hg
  refine ⟨w, hw, views_of_log (S := S) hp ?_ ?_⟩
  · intro p h
    rcases List.mem_append.1 h with h | h <;> obtain ⟨r, h', rfl⟩ := List.mem_map.1 h
    · exact (hg.runs r h').1
    · exact hg.verRuns r h'
  · unfold histSaves
    rw [List.map_append, List.flatten_append, List.map_map, List.map_map]
    exact hlog

theorem heard_pos {lookup : Map Bytes Bytes} {n h : Bytes} : ∀ (hist : List (Bytes × Run)), heardCount lookup hist n h ≠ 0 →
    ∃ p ∈ hist, tagOf lookup p.2.name = h ∧ WarnManager.under p.2.events n ≠ []
  | [], h => absurd rfl h
  | p :: hist, h0 => by
    by_cases hc : tagOf lookup p.2.name = h ∧ WarnManager.under p.2.events n ≠ []
    · exact ⟨p, by simp, hc⟩
    · have : heardCount lookup hist n h ≠ 0 := by
        intro e
        apply h0
        unfold heardCount at e ⊢
        rw [List.map_cons, List.sum_cons, e, Nat.add_zero]
        split
        · next ht => exact List.length_eq_zero_iff.2 (Classical.byContradiction fun hne => hc ⟨ht, hne⟩)
        · rfl
      obtain ⟨x, hx, hq⟩ := heard_pos hist this
      exact ⟨x, by simp [hx], hq⟩

/-- The count and the view by handler: once the reports of different handlers are read, a
handler is counted with as many instances as it has. -/
theorem C64_agrees {E : Env} (hL : LowersLib E.lib) (S : Sorter) (pick : List Bytes → List Bytes) (hp : ∀ l, (pick l).Perm l)
    (source : Bytes) (lookup : Map Bytes Bytes) (rs : List Run) (hr : ∀ r ∈ rs, OkRun E.lib lookup r)
    (hd : (rs.map fun r => tagOf lookup r.name).Nodup) (head text tail : Bytes) (hb : Before head)
    (ht : text = (rs.map fun r => (r.manager.showWarnings S pick).2).flatten) (hs : ∀ l ∈ splitLines text, l.length < 65536)
    (ha : After tail) :
    ∃ w, parseWarningData E source lookup {} (head ++ text ++ tail) = some (w, false) ∧
      (∀ h lt n x, w.look h lt n = some x → (w.findWarning n).count.get h = some x.instances.length) ∧
      ∀ h n k, (w.findWarning n).count.get h = some k → ∃ lt, (w.look h lt n).isSome = true := by
  obtain ⟨w, hw, h1, h2⟩ := C38_round_trip_partial hL S pick hp source lookup rs hr hd head text tail hb ht hs ha
  obtain ⟨w', hw', hv⟩ := C64_reports_partial hL S pick hp source lookup rs hr head text tail hb ht hs ha
  rw [hw] at hw'
  cases hw'
  have hcount : ∀ (l : List Run), (l.map fun r => tagOf lookup r.name).Nodup → ∀ r ∈ l, ∀ n,
      heardCount lookup (l.map fun r => (source, r)) n (tagOf lookup r.name) = (WarnManager.under r.events n).length := by
    intro l
    induction l with
    | nil => intro _ r hr; cases hr
    | cons a l ih =>
      intro hd r hr n
      rw [List.map_cons, List.nodup_cons] at hd
      have zero : ∀ (l : List Run) (t : Bytes), (∀ x ∈ l, tagOf lookup x.name ≠ t) → heardCount lookup (l.map fun r => (source, r)) n t = 0 := by
        intro l t hne
        induction l with
        | nil => rfl
        | cons x l ih =>
          have := ih fun y hy => hne y (by simp [hy])
          unfold heardCount at this ⊢
          simp only [List.map_cons, List.sum_cons, if_neg (hne x (by simp)), this]
      unfold heardCount
      rw [List.map_cons, List.map_cons, List.sum_cons]
      rcases List.mem_cons.1 hr with rfl | hr
      · have := zero l (tagOf lookup r.name) fun x hx e => hd.1 (List.mem_map.2 ⟨x, hx, e⟩)
        unfold heardCount at this
        rw [this, if_pos rfl]; rfl
      · have := ih hd.2 r hr n
        unfold heardCount at this
        rw [this, if_neg, Nat.zero_add]
        intro e
        exact hd.1 (List.mem_map.2 ⟨r, hr, e.symm⟩)
  refine ⟨w, hw, fun h lt n x hx => ?_, fun h n k hk => ?_⟩
  · obtain ⟨r, hr', rfl, i, hi, rfl⟩ := h2 h lt n (by rw [hx]; rfl)
    have := h1 r hr' n i hi
    rw [hx] at this
    cases this
    have hc := hv.count n (tagOf lookup r.name)
    rw [hcount rs hd r hr' n] at hc
    have hne : WarnManager.under r.events n ≠ [] := fun e => by rw [reported_iff.2 e] at hi; cases hi
    have hs := (hv.counted n (tagOf lookup r.name)).2 (by
      rw [hcount rs hd r hr' n]
      intro e; exact hne (List.length_eq_zero_iff.1 e))
    obtain ⟨k, hk⟩ := Option.isSome_iff_exists.1 hs
    rw [hk] at hc ⊢
    simp only [Option.getD_some] at hc
    rw [hc, found, List.length_map, reported_data hi, List.length_map]
  · have := (hv.counted n h).1 (by rw [hk]; rfl)
    have hex : ∃ r ∈ rs, tagOf lookup r.name = h ∧ WarnManager.under r.events n ≠ [] := by
      obtain ⟨p, hp', hq⟩ := heard_pos _ this
      obtain ⟨r, hr', rfl⟩ := List.mem_map.1 hp'
      exact ⟨r, hr', hq⟩
    obtain ⟨r, hr', rfl, hne⟩ := hex
    cases hi : WarnManager.reported r.events n with
    | none => exact absurd (reported_iff.1 hi) hne
    | some i => exact ⟨levelText i.level, by rw [h1 r hr' n i hi]; rfl⟩

/-- C64 in full, for the server: whoever is counted for a warning has it. -/
def C64_statement {F : Type} (fl : Floats F) : Prop := ∀ (E : Env), LowersLib E.lib → ∀ (S : Sorter) (pick names : List Bytes → List Bytes), (∀ l, (pick l).Perm l) →
  ∀ (bench verify : Bytes) (b : Bench F) (rs vs : List Run), Setup.Given E fl S pick bench verify b (b.handlerLookup names).2 rs vs →
    ∃ w, setup E fl names {} {} bench verify = some ((b.handlerLookup names).1, w, false) ∧
      Views E (b.handlerLookup names).2 w (rs.map (fun r => (b!"Bench", r)) ++ vs.map fun r => (b!"Verify", r)) ∧
      ∀ n h, (w.findWarning n).hdlrMap.get h = some true → ∃ lt, (w.look h lt n).isSome = true

open Setup in
/-- C64 does not hold in full: a handler of which the verification run says that there are
no warnings is still listed with those of the benchmark run, but has none. -/
theorem C64_listed : ¬ C64_statement BenchData.terms := by
  intro h
  have hg := no_given
  rw [← some_lookup] at hg
  obtain ⟨w, hw, hv, ha⟩ := h someEnv ⟨_, some_lowers⟩ someSorter id id (fun l => .refl l) _ _ _ _ _ hg
  obtain ⟨w', hw', hv'⟩ := C60_partial (E := someEnv) ⟨_, some_lowers⟩ (fun l => .refl l) hg
  rw [hw] at hw'
  cases hw'
  have h1 : (w.findWarning b!"Duplicates").hdlrMap.get b!"PhsymZerolog" = some true :=
    (hv.handlers _ _).2 ⟨(b!"Bench", someRun), by simp, by rw [some_lookup]; decide, by decide⟩
  obtain ⟨lt, h2⟩ := ha _ _ h1
  rw [(hv' b!"PhsymZerolog" lt b!"Duplicates").1 (by
    rw [some_lookup]
    exact ⟨noRun, by simp, by decide, fun n => rfl⟩)] at h2
  cases h2

/-! ### Any text -/

/-- The data after any number of texts were read. -/
inductive Read (E : Env) : Warns → Prop
  | new : Read E {}
  | more {w w' : Warns} {source text : Bytes} {lookup : Map Bytes Bytes} {err : Bool} :
      Read E w → parseWarningData E source lookup w text = some (w', err) → Read E w'

/-- C64 for any texts: there is a list of instances of which the views by test and by
warning are made. -/
theorem C64_any {E : Env} {w : Warns} (h : Read E w) : Inv w ∧ ∃ L, Logged E w L := by
  induction h with
  | new => exact ⟨inv_new, [], logged_new E⟩
  | more _ hp ih =>
    obtain ⟨hi, L, hl⟩ := ih
    obtain ⟨hi', L', hl'⟩ := parse_kept hi hl hp
    exact ⟨hi', _, hl'⟩

/-- C64 for any texts: the handlers of a warning are those that are counted, none of them with zero,
and its tests are those that have instances of it; a warning is known if there are any. -/
theorem C64_any_text {E : Env} {w : Warns} (h : Read E w) (n : Bytes) :
    (∀ x, (w.findWarning n).hdlrMap.get x = some true ↔ ∃ k, (w.findWarning n).count.get x = some (k + 1)) ∧
    (∀ x, (w.findWarning n).count.get x ≠ some 0) ∧
    (∀ t, (w.findWarning n).testMap.get t = some true ↔ ∃ lt x, w.lookTest t lt n = some x) ∧
    (∀ t lt x, w.lookTest t lt n = some x → x.name = n ∧ x.instances ≠ []) ∧
    ((w.byWarning.get n).isSome = true ↔ ∃ x, (w.findWarning n).hdlrMap.get x = some true) ∧
    ((w.byWarning.get n).isSome = true ↔ ∃ t, (w.findWarning n).testMap.get t = some true) := by
  obtain ⟨_, L, hl⟩ := C64_any h
  have ite : ∀ (P : Prop) [Decidable P], ((if P then some true else none) = some true) = P := fun P _ => by by_cases h : P <;> simp [h]
  refine ⟨fun x => ?_, fun x => ?_, fun t => ?_, fun t lt x hx => ?_, ?_, ?_⟩
  · rw [hl.hdlrs, hl.count, ite]
    have : (∃ s ∈ L, s.name = n ∧ s.handler = x) ↔ logCount L n x ≠ 0 := by
      unfold logCount
      rw [Nat.ne_zero_iff_zero_lt, List.countP_pos_iff]
      simp
    rw [this]
    constructor
    · intro h0
      rw [if_neg h0]
      exact ⟨logCount L n x - 1, by congr 1; omega⟩
    · rintro ⟨k, hk⟩ h0
      rw [if_pos h0] at hk; cases hk
  · rw [hl.count]
    split
    · simp
    · next h0 => intro e; exact h0 (Option.some.inj e)
  · rw [hl.tmap, ite]
    simp only [hl.tests]
    constructor
    · rintro ⟨s, hs, rfl, rfl⟩
      have hm : s ∈ L.filter (Save.isAt s.test (levelText s.level) s.name) := List.mem_filter.2 ⟨hs, decide_eq_true ⟨rfl, rfl, rfl⟩⟩
      refine ⟨levelText s.level, ?_⟩
      unfold logTest
      cases hg : (L.filter (Save.isAt s.test (levelText s.level) s.name)).getLast? with
      | none => rw [List.getLast?_eq_none_iff] at hg; rw [hg] at hm; cases hm
      | some y => exact ⟨_, rfl⟩
    · rintro ⟨lt, x, hx⟩
      unfold logTest at hx
      obtain ⟨s, hs, rfl⟩ := Option.map_eq_some_iff.1 hx
      obtain ⟨h1, h2⟩ := List.mem_filter.1 (List.mem_of_getLast? hs)
      have := of_decide_eq_true h2
      exact ⟨s, h1, this.2.2, this.1⟩
  · rw [hl.tests] at hx
    refine ⟨logTest_name hx, ?_⟩
    unfold logTest at hx
    obtain ⟨s, hs, rfl⟩ := Option.map_eq_some_iff.1 hx
    intro e
    rw [List.map_eq_nil_iff] at e
    rw [e] at hs; cases hs
  · rw [hl.has]
    simp only [hl.hdlrs, ite]
    constructor
    · rintro ⟨s, hs, e⟩; exact ⟨_, s, hs, e, rfl⟩
    · rintro ⟨_, s, hs, e, _⟩; exact ⟨s, hs, e⟩
  · rw [hl.has]
    simp only [hl.tmap, ite]
    constructor
    · rintro ⟨s, hs, e⟩; exact ⟨_, s, hs, e, rfl⟩
    · rintro ⟨_, s, hs, e, _⟩; exact ⟨s, hs, e⟩

/-- A text in which an instance comes before any warning of its handler. -/
def loose : Bytes := b!"Warnings for a:\n Required\n  1 [Duplicates] Duplicate field(s) found\n   TestCase: x\nWarnings for b:\n   TestOther: y\n"

/-- In such a text the instance is stored with the handler before and counted for its own. -/
theorem C64_loose : ∃ w, parseWarningData Setup.someEnv b!"Verify" [] {} loose = some (w, false) ∧
    (w.findWarning b!"Duplicates").count.get b!"b" = some 1 ∧ (∀ lt n, w.look b!"b" lt n = none) ∧
    ((w.look b!"a" b!"Required" b!"Duplicates").map fun x => x.instances.map DInst.tag) = some [b!"Case", b!"Other"] ∧
    (w.findWarning b!"Duplicates").count.get b!"a" = some 1 := by
  have h : (parseWarningData Setup.someEnv b!"Verify" [] {} loose).isSome = true := by decide +kernel
  obtain ⟨r, hr⟩ := Option.isSome_iff_exists.1 h
  have h1 : (parseWarningData Setup.someEnv b!"Verify" [] {} loose).map (fun r => r.2) = some false := by decide +kernel
  have h2 : (parseWarningData Setup.someEnv b!"Verify" [] {} loose).map (fun r => (r.1.findWarning b!"Duplicates").count.get b!"b") = some (some 1) := by
    decide +kernel
  have h3 : (parseWarningData Setup.someEnv b!"Verify" [] {} loose).map (fun r => (r.1.byHandler.get b!"b").isSome) = some false := by decide +kernel
  have h4 : (parseWarningData Setup.someEnv b!"Verify" [] {} loose).map (fun r => (r.1.look b!"a" b!"Required" b!"Duplicates").map
    fun x => x.instances.map DInst.tag) = some (some [b!"Case", b!"Other"]) := by decide +kernel
  have h5 : (parseWarningData Setup.someEnv b!"Verify" [] {} loose).map (fun r => (r.1.findWarning b!"Duplicates").count.get b!"a") = some (some 1) := by
    decide +kernel
  rw [hr] at h1 h2 h3 h4 h5
  simp only [Option.map_some, Option.some.injEq] at h1 h2 h3 h4 h5
  refine ⟨r.1, by rw [hr, ← h1], h2, fun lt n => ?_, h4, h5⟩
  unfold Warns.look Warns.hid
  cases hb : r.1.byHandler.get b!"b" with
  | none => rfl
  | some ls => rw [hb] at h3; cases h3

/-! ### Cases -/

/-- The assumptions can be met; the run adds two instances of a warning, by two tests. -/
example : ∃ w, parseWarningData Setup.someEnv b!"Verify" [] {} (someRun.manager.showWarnings someSorter id).2 = some (w, false) ∧
    (w.findWarning b!"Duplicates").count.get b!"phsym/zerolog" = some 2 ∧
    (w.findWarning b!"Duplicates").testMap.get b!"Verify.Other" = some true ∧
    ((w.lookTest b!"Verify.Case" b!"Required" b!"Duplicates").map fun x => x.instances.map fun i => (i.name, i.extra, i.log)) =
      some [(b!"phsym/zerolog", b!"2x[Alpha]\n  more", b!"{\"a\": 1}")] := by
  obtain ⟨w, hw, hv⟩ := C64_reports_partial (E := Setup.someEnv) ⟨_, some_lowers⟩ someSorter id (fun l => .refl l) b!"Verify" []
    [someRun] (by intro r hr; simp only [List.mem_singleton] at hr; subst hr; exact some_ok) [] _ [] before_nil rfl (by decide +kernel) .nothing
  rw [List.append_nil, List.nil_append, List.map_cons, List.map_nil, List.flatten_cons, List.flatten_nil, List.append_nil] at hw
  refine ⟨w, hw, ?_, ?_, ?_⟩
  · have h1 := hv.count b!"Duplicates" b!"phsym/zerolog"
    have h2 : heardCount [] [(b!"Verify", someRun)] b!"Duplicates" b!"phsym/zerolog" = 2 := by decide +kernel
    rw [List.map_cons, List.map_nil, h2] at h1
    cases hc : (w.findWarning b!"Duplicates").count.get b!"phsym/zerolog" with
    | none => rw [hc] at h1; cases h1
    | some k => rw [hc] at h1; exact congrArg some h1
  · exact (hv.tests _ _).2 ⟨(b!"Verify", someRun), by simp,
      ⟨⟨4, b!"Duplicates", b!"Duplicate field(s) found", []⟩, b!"TestOther", [], []⟩, by rw [some_events]; simp [WarnManager.under], by decide⟩
  · have h1 := hv.instances b!"Verify.Case" b!"Required" b!"Duplicates"
    have h2 : (heardTest Setup.someEnv [] b!"Verify.Case" b!"Required" b!"Duplicates" (b!"Verify", someRun)).map (fun i => (i.name, i.extra, i.log)) =
      [(b!"phsym/zerolog", b!"2x[Alpha]\n  more", b!"{\"a\": 1}")] := by decide +kernel
    rw [List.map_cons, List.map_cons, List.map_nil, List.map_nil, List.flatten_cons, List.flatten_nil, List.append_nil, if_neg (by
      intro e; rw [e] at h2; cases h2)] at h1
    cases hc : w.lookTest b!"Verify.Case" b!"Required" b!"Duplicates" with
    | none => rw [hc] at h1; cases h1
    | some x =>
      rw [hc] at h1
      simp only [Option.map_some, Option.some.injEq] at h1 ⊢
      rw [h1, h2]

open Setup in
/-- Both runs are counted. -/
example : ∃ b w, setup someEnv BenchData.terms id {} {} someBench someVerify = some (b, w, false) ∧
    ((w.findWarning b!"Duplicates").count.get b!"PhsymZerolog").getD 0 = 4 := by
  have hg := ver_given
  rw [← some_lookup] at hg
  obtain ⟨w, hw, hv⟩ := C64_server_partial (E := someEnv) ⟨_, some_lowers⟩ (fun l => .refl l) hg
  refine ⟨_, w, hw, ?_⟩
  rw [hv.count, some_lookup]
  decide +kernel

end Verif.Props.WarnViews
