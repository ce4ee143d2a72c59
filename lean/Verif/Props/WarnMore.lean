import Verif.Props.WarnReport

/-
C57: the list of handlers by warning. C58: reading a second report.
-/

set_option linter.unusedSimpArgs false

namespace Verif.Props.WarnMore
open Go Letters Lines Verif.Warning Verif.Data WarnReport

/-! ### C38, the full statement -/

/-- A text on one line that does not begin or end with white space. -/
structure Plain (t : Bytes) : Prop where
  trim : Trim t
  ne : t ≠ []

/-- C38 as stated, for one handler with one warning with one instance: printable texts on
one line are enough. -/
def C38_statement : Prop := ∀ (E : Env) (S : Sorter) (name summary handler : Bytes) (w : Warns),
  LowersLib E.lib → Plain name → Plain summary → Plain handler →
  parseWarningData E [] [] {} (Run.manager ⟨handler, b!"# ", [.add ⟨4, name, summary, []⟩ b!"TestCase" [] []]⟩ |>.showWarnings S id).2 =
    some (w, false) →
  (w.look handler b!"Required" name).isSome = true

theorem run_concrete : ((parseWarningData ⟨someLib, fun _ => [], fun _ => none⟩ [] [] {}
    (Run.manager ⟨b!"h", b!"# ", [.add ⟨4, b!"N", b!"a] b", []⟩ b!"TestCase" [] []]⟩ |>.showWarnings someSorter id).2).map fun r =>
      (r.2, (r.1.look b!"h" b!"Required" b!"N").isSome, (r.1.look b!"h" b!"Required" b!"N] a").isSome)) = some (false, false, true) := by
  decide +kernel

/-- C38 is false as stated: with a closing bracket in the summary of a warning, the
parser finds a warning of another name. -/
theorem C38_bracket : ¬ C38_statement := by
  intro h
  have hc := run_concrete
  cases hp : parseWarningData ⟨someLib, fun _ => [], fun _ => none⟩ [] [] {}
      (Run.manager ⟨b!"h", b!"# ", [.add ⟨4, b!"N", b!"a] b", []⟩ b!"TestCase" [] []]⟩ |>.showWarnings someSorter id).2 with
  | none => rw [hp] at hc; cases hc
  | some r =>
    obtain ⟨w, e⟩ := r
    rw [hp] at hc
    simp only [Option.map_some, Option.some.injEq, Prod.mk.injEq] at hc
    obtain ⟨rfl, h1, _⟩ := hc
    have := h _ someSorter b!"N" b!"a] b" b!"h" w ⟨_, some_lowers⟩
      ⟨trim_of (by decide) (by decide) (by decide), by simp⟩ ⟨trim_of (by decide) (by decide) (by decide), by simp⟩
      ⟨trim_of (by decide) (by decide) (by decide), by simp⟩ hp
    rw [h1] at this
    cases this

/-! ### C57 -/

/-- What `WithWarnings` collects for the list of handlers by warning. -/
def collected (S : Sorter) (pick : List Bytes → List Bytes) (rs : List Run) : ByWarning :=
  rs.foldl (fun by_ r => r.manager.noteWarnings S pick by_) []

/-- C57 as stated: printing the list does not panic, whatever the managers were used for. -/
def C57_statement : Prop := ∀ (S : Sorter) (pick : List Bytes → List Bytes)
  (order : List (Option Warning) → List (Option Warning)) (p : Bytes) (rs : List Run),
  (∀ l, (pick l).Perm l) → (∀ l, (order l).Perm l) → (∀ r ∈ rs, WarnManager.OneUnused r.ops) →
  showHandlersByWarning S pick order p (collected S pick rs) ≠ none

theorem predefined_get (S : Sorter) (pick : List Bytes → List Bytes) (m : Manager) :
    (m.getWarnings S pick).1.predefined = m.predefined := by
  unfold Manager.getWarnings
  split
  · rfl
  · simp only
    unfold Manager.cleanUp
    split
    · rfl
    · simp only; split <;> rfl

theorem note_keys (m : Manager) : ∀ (ws : List Instances) (by_ : ByWarning) (k : Option Warning),
    k ∈ (ws.foldl (note m) by_).keys ↔ k ∈ by_.keys ∨ ∃ w ∈ ws, k = m.predefined.get w.name
  | [], by_, k => by simp
  | w :: ws, by_, k => by
    rw [List.foldl_cons, note_keys m ws]
    unfold note
    simp only [Map.mem_keys, Map.get_set]
    by_cases h : k = m.predefined.get w.name
    · simp [h]
    · simp [h]

theorem collect_keys (S : Sorter) (pick : List Bytes → List Bytes) (k : Option Warning) : ∀ (rs : List Run) (by_ : ByWarning),
    k ∈ (rs.foldl (fun by_ r => r.manager.noteWarnings S pick by_) by_).keys ↔
      k ∈ by_.keys ∨ ∃ r ∈ rs, ∃ i ∈ shown S pick r.manager, i.level ∈ levelOrder ∧ k = r.manager.predefined.get i.name
  | [], by_ => by simp
  | r :: rs, by_ => by
    rw [List.foldl_cons, collect_keys S pick k rs]
    unfold Manager.noteWarnings
    simp only [note_keys, predefined_get]
    have : ∀ i, i ∈ (levelOrder.map (levelList S ((r.manager.getWarnings S pick).2.getD []))).flatten ↔
        i ∈ shown S pick r.manager ∧ i.level ∈ levelOrder := by
      intro i
      simp only [List.mem_flatten, List.mem_map, levelList, shown]
      constructor
      · rintro ⟨l, ⟨lv, hlv, rfl⟩, hi⟩
        have := (S.perm _ _).mem_iff.1 hi
        simp only [List.mem_filter, beq_iff_eq] at this
        exact ⟨this.1, this.2 ▸ hlv⟩
      · rintro ⟨h1, h2⟩
        refine ⟨_, ⟨i.level, h2, rfl⟩, (S.perm _ _).mem_iff.2 ?_⟩
        simp [h1]
    constructor
    · rintro ((h | ⟨w, hw, e⟩) | ⟨r', h, i, hi⟩)
      · exact .inl h
      · exact .inr ⟨r, by simp, w, ((this w).1 hw).1, ((this w).1 hw).2, e⟩
      · exact .inr ⟨r', by simp [h], i, hi⟩
    · rintro (h | ⟨r', h, i, hi, hl, e⟩)
      · exact .inl (.inl h)
      · rcases List.mem_cons.1 h with rfl | h
        · exact .inl (.inr ⟨i, (this i).2 ⟨hi, hl⟩, e⟩)
        · exact .inr ⟨r', h, i, hi, hl, e⟩

theorem mapM_none {α : Type} : ∀ l : List (Option α), l.mapM id = none ↔ none ∈ l
  | [] => by simp
  | none :: l => by simp [List.mapM_cons]
  | some a :: l => by
    have ih := mapM_none l
    rw [List.mapM_cons]
    simp only [id]
    cases h : l.mapM id with
    | none => rw [h] at ih; simp at ih; simpa using ih
    | some x => rw [h] at ih; simp at ih; simpa using ih

/-- What holds of C57, exactly: the list of handlers by warning makes the program panic
if and only if a report printed a warning that its manager was never told to predefine. -/
theorem C57_panics_iff_partial (S : Sorter) (pick : List Bytes → List Bytes) (order : List (Option Warning) → List (Option Warning))
    (p : Bytes) (rs : List Run) (hp : ∀ l, (pick l).Perm l) (ho : ∀ l, (order l).Perm l) (hu : ∀ r ∈ rs, WarnManager.OneUnused r.ops) :
    showHandlersByWarning S pick order p (collected S pick rs) = none ↔
      ∃ r ∈ rs, ∃ n i, WarnManager.reported r.events n = some i ∧ 1 ≤ i.level ∧ i.level ≤ 4 ∧
        n ∉ (WarnManager.Log.run {} r.ops).defined := by
  have hlv : ∀ l : Nat, l ∈ levelOrder ↔ 1 ≤ l ∧ l ≤ 4 := by
    intro l
    simp only [levelOrder, List.mem_cons, List.not_mem_nil, or_false]
    omega
  have h1 : showHandlersByWarning S pick order p (collected S pick rs) = none ↔ none ∈ (collected S pick rs).keys := by
    rw [← (ho _).mem_iff, ← mapM_none]
    unfold showHandlersByWarning
    cases (order (collected S pick rs).keys).mapM id with
    | none => simp
    | some ws => simp only [reduceCtorEq, iff_false]; split <;> simp
  rw [h1, collected, collect_keys]
  simp only [Map.keys, List.map_nil, List.not_mem_nil, false_or]
  constructor
  · rintro ⟨r, hr, i, hi, hl, e⟩
    have hrep : WarnManager.Report r.events (shown S pick r.manager) := WarnManager.C30_report r.name r.pfx r.ops (hu r hr) S pick hp
    obtain ⟨n, hn⟩ := (hrep.mem i).1 hi
    refine ⟨r, hr, n, i, hn, ((hlv _).1 hl).1, ((hlv _).1 hl).2, fun hd => ?_⟩
    have := ((WarnManager.keeps_run r.name r.pfx r.ops (hu r hr)).defined n).2 hd
    rw [WarnManager.reported_name hn] at e
    unfold Run.manager at e
    rw [← e] at this
    cases this
  · rintro ⟨r, hr, n, i, hn, hl1, hl4, hd⟩
    have hrep : WarnManager.Report r.events (shown S pick r.manager) := WarnManager.C30_report r.name r.pfx r.ops (hu r hr) S pick hp
    refine ⟨r, hr, i, (hrep.mem i).2 ⟨n, hn⟩, (hlv _).2 ⟨hl1, hl4⟩, ?_⟩
    rw [WarnManager.reported_name hn]
    have := mt ((WarnManager.keeps_run r.name r.pfx r.ops (hu r hr)).defined n).1 hd
    unfold Run.manager
    cases h : ((Manager.run { name := r.name, showPrefix := r.pfx } r.ops).predefined.get n) with
    | none => rfl
    | some x => rw [h] at this; exact absurd rfl this

/-- C57 is false: adding a warning that is not predefined is enough. -/
theorem C57_panics : ¬ C57_statement := by
  intro h
  refine h someSorter id id [] [someRun] (fun l => .refl l) (fun l => .refl l) (by simpa using some_ok.one) ?_
  refine (C57_panics_iff_partial someSorter id id [] [someRun] (fun l => .refl l) (fun l => .refl l) (by simpa using some_ok.one)).2 ?_
  exact ⟨someRun, by simp, b!"Duplicates", _, by rw [some_events]; rfl, by decide, by decide, by decide⟩

/-- A run that predefines what it adds. -/
def tidyRun : Run where
  name := b!"log/slog"
  pfx := b!"# "
  ops := [.predefine [⟨4, b!"Duplicates", b!"Duplicate field(s) found", []⟩],
    .add ⟨4, b!"Duplicates", b!"Duplicate field(s) found", []⟩ b!"TestCase" [] []]

/-- Both sides of `C57_panics_iff_partial` occur. -/
example : showHandlersByWarning someSorter id id b!"# " (collected someSorter id [tidyRun]) =
    some b!"# \n#  Handlers by warning:\n#   Required\n#     [Duplicates] Duplicate field(s) found\n#       log/slog\n" := by
  decide +kernel

/-! ### C58 -/

/-- What the first reports said is still there. -/
def Kept (w w' : Warns) : Prop := ∀ h lt n x, w.look h lt n = some x →
  ∃ y, w'.look h lt n = some y ∧ x.instances <+: y.instances

/-- C58 as stated: reading a second text of reports keeps all instances of the first. -/
def C58_statement : Prop := ∀ (E : Env) (S : Sorter) (pick : List Bytes → List Bytes) (source source' : Bytes) (lookup : Map Bytes Bytes)
  (rs rs' : List Run) (w w' : Warns), LowersLib E.lib → (∀ l, (pick l).Perm l) →
  (∀ r ∈ rs ++ rs', OkRun E.lib lookup r) →
  parseWarningData E source lookup {} (rs.map fun r => (r.manager.showWarnings S pick).2).flatten = some (w, false) →
  parseWarningData E source' lookup w (rs'.map fun r => (r.manager.showWarnings S pick).2).flatten = some (w', false) →
  Kept w w'

theorem addWarn_keeps (E : Env) (source h : Bytes) : ∀ (ws : List Instances) (V : Bytes → Bytes → Bytes → Option DWarn) h' lt n x,
    V h' lt n = some x → ∃ y, ws.foldl (addWarn E source h) V h' lt n = some y ∧ x.instances <+: y.instances
  | [], V, h', lt, n, x, hx => ⟨x, hx, List.prefix_refl _⟩
  | w :: ws, V, h', lt, n, x, hx => by
    rw [List.foldl_cons]
    obtain ⟨y, hy, hp⟩ : ∃ y, addWarn E source h V w h' lt n = some y ∧ x.instances <+: y.instances := by
      unfold addWarn
      split
      · refine ⟨_, rfl, ?_⟩
        rw [hx]
        exact List.prefix_append _ _
      · exact ⟨x, hx, List.prefix_refl _⟩
    obtain ⟨z, hz, hp'⟩ := addWarn_keeps E source h ws _ h' lt n y hy
    exact ⟨z, hz, hp.trans hp'⟩

theorem addReports_keep (E : Env) (source : Bytes) (lookup : Map Bytes Bytes) (S : Sorter) (pick : List Bytes → List Bytes) :
    ∀ (ms : List Manager) (V : Bytes → Bytes → Bytes → Option DWarn), (∀ m ∈ ms, shown S pick m ≠ []) → ∀ h lt n x, V h lt n = some x →
      ∃ y, ms.foldl (addReport E source lookup S pick) V h lt n = some y ∧ x.instances <+: y.instances
  | [], V, _, h, lt, n, x, hx => ⟨x, hx, List.prefix_refl _⟩
  | m :: ms, V, hm, h, lt, n, x, hx => by
    rw [List.foldl_cons]
    obtain ⟨y, hy, hp⟩ : ∃ y, addReport E source lookup S pick V m h lt n = some y ∧ x.instances <+: y.instances := by
      unfold addReport
      rw [if_neg (hm m (by simp))]
      exact addWarn_keeps E source _ _ V h lt n x hx
    obtain ⟨z, hz, hp'⟩ := addReports_keep E source lookup S pick ms _ (fun m h => hm m (by simp [h])) h lt n y hy
    exact ⟨z, hz, hp.trans hp'⟩

theorem okManager {L : Replace.Lib} {lookup : Map Bytes Bytes} {r : Run} (hr : OkRun L lookup r) (S : Sorter)
    {pick : List Bytes → List Bytes} (hp : ∀ l, (pick l).Perm l) :
    OkManager L S pick r.manager ∧ tagOf lookup r.manager.name ≠ [] := by
  have hrep : WarnManager.Report r.events (shown S pick r.manager) := WarnManager.C30_report r.name r.pfx r.ops hr.one S pick hp
  refine ⟨⟨by rw [(run_name r).2]; exact hr.pre, by rw [(run_name r).1]; exact hr.name, fun i hi => ?_⟩, by rw [(run_name r).1]; exact hr.tag⟩
  obtain ⟨n, hn⟩ := (hrep.mem i).1 hi
  exact hr.warns n i hn

/-- What holds of C58: reading a text of reports, each with at least one warning, keeps
everything known before, whatever reports that came from, and only appends to it. -/
theorem C58_partial {E : Env} (hL : LowersLib E.lib) (S : Sorter) (pick : List Bytes → List Bytes) (hp : ∀ l, (pick l).Perm l)
    (source source' : Bytes) (lookup : Map Bytes Bytes) (rs rs' : List Run) (hr : ∀ r ∈ rs ++ rs', OkRun E.lib lookup r)
    (hne : ∀ r ∈ rs', r.events ≠ []) (text text' : Bytes)
    (ht : text = (rs.map fun r => (r.manager.showWarnings S pick).2).flatten)
    (ht' : text' = (rs'.map fun r => (r.manager.showWarnings S pick).2).flatten)
    (hs : ∀ l ∈ splitLines text ++ splitLines text', l.length < 65536) :
    ∃ w w', parseWarningData E source lookup {} text = some (w, false) ∧ parseWarningData E source' lookup w text' = some (w', false) ∧
      Kept w w' := by
  obtain ⟨w, h1, hi, _, hlog⟩ := parse_reports hL S pick source lookup {} inv_new (logged_new E) (rs.map Run.manager)
    (by
      intro m hm
      obtain ⟨r, h, rfl⟩ := List.mem_map.1 hm
      exact okManager (hr r (by simp [h])) S hp)
    text [] (by rw [ht, List.map_map]; rfl) (fun l hl => hs l (by simp [hl])) .nothing
  obtain ⟨w', h2, _, hv, _⟩ := parse_reports hL S pick source' lookup w hi hlog (rs'.map Run.manager)
    (by
      intro m hm
      obtain ⟨r, h, rfl⟩ := List.mem_map.1 hm
      exact okManager (hr r (by simp [h])) S hp)
    text' [] (by rw [ht', List.map_map]; rfl) (fun l hl => hs l (by simp [hl])) .nothing
  rw [List.append_nil] at h1 h2
  refine ⟨w, w', h1, h2, fun h lt n x hx => ?_⟩
  rw [hv]
  refine addReports_keep E source' lookup S pick _ _ ?_ h lt n x hx
  intro m hm
  obtain ⟨r, h, rfl⟩ := List.mem_map.1 hm
  have hrep : WarnManager.Report r.events (shown S pick r.manager) :=
    WarnManager.C30_report r.name r.pfx r.ops (hr r (by simp [h])).one S pick hp
  intro he
  rw [he] at hrep
  cases hc : r.events with
  | nil => exact hne r h hc
  | cons e es =>
    have : WarnManager.reported r.events e.w.name ≠ none := by
      rw [hc]
      unfold WarnManager.reported WarnManager.under
      simp
    cases hq : WarnManager.reported r.events e.w.name with
    | none => exact this hq
    | some i => have := (hrep.mem i).2 ⟨_, hq⟩; simp at this

/-- The same handler without warnings. -/
def quietRun : Run where
  name := b!"phsym/zerolog"
  pfx := b!"# "
  ops := []

theorem quiet_ok : OkRun someLib [] quietRun where
  one := by intro op h; cases h
  pre := some_ok.pre
  name := some_ok.name
  tag := some_ok.tag
  warns := by intro n i h; cases h

/-- C58 is false: a report without warnings about a handler, in the second text, removes
everything the first text said about the handler. -/
theorem C58_forgets : ¬ C58_statement := by
  intro hc
  let E : Env := ⟨someLib, fun _ => [], fun _ => none⟩
  obtain ⟨w, h1, hl, _⟩ := C38_round_trip_partial (E := E) ⟨_, some_lowers⟩ someSorter id (fun l => .refl l) b!"Bench" []
    [someRun] (by intro r hr; simp only [List.mem_singleton] at hr; subst hr; exact some_ok) (by simp) [] _ [] before_nil rfl (by decide +kernel) .nothing
  obtain ⟨w1, h1', hi, _, hlog⟩ := parse_reports (E := E) ⟨_, some_lowers⟩ someSorter id b!"Bench" [] {} inv_new (logged_new E) [someRun.manager]
    (by intro m hm; simp only [List.mem_singleton] at hm; subst hm; exact okManager some_ok someSorter fun l => .refl l)
    _ [] rfl (by decide +kernel) .nothing
  obtain rfl : w = w1 := by
    have := h1.symm.trans h1'
    cases this; rfl
  obtain ⟨w', h2, _, hv, _⟩ := parse_reports (E := E) ⟨_, some_lowers⟩ someSorter id b!"Verify" [] w hi hlog [quietRun.manager]
    (by intro m hm; simp only [List.mem_singleton] at hm; subst hm; exact okManager quiet_ok someSorter fun l => .refl l)
    _ [] rfl (by decide +kernel) .nothing
  rw [List.append_nil] at h1 h2
  have kept := hc E someSorter id b!"Bench" b!"Verify" [] [someRun] [quietRun] w w' ⟨_, some_lowers⟩ (fun l => .refl l)
    (by
      intro r hr
      simp only [List.cons_append, List.nil_append, List.mem_cons, List.not_mem_nil, or_false] at hr
      rcases hr with rfl | rfl
      · exact some_ok
      · exact quiet_ok)
    h1 h2
  obtain ⟨y, hy, _⟩ := kept _ _ _ _ (hl someRun (by simp) b!"Duplicates" _ (by rw [some_events]; rfl))
  rw [hv] at hy
  have : [quietRun.manager].foldl (addReport E b!"Verify" [] someSorter id) w.look (tagOf [] someRun.name) b!"Required" b!"Duplicates" = none := by
    simp only [List.foldl_cons, List.foldl_nil, addReport]
    rw [if_pos (by decide)]
    rfl
  exact absurd (this.symm.trans hy) (by simp)

/-- The assumptions of `C58_partial` can be met. -/
example : ∃ w w', parseWarningData ⟨someLib, fun _ => [], fun _ => none⟩ b!"Bench" [] {} (someRun.manager.showWarnings someSorter id).2 = some (w, false) ∧
    parseWarningData ⟨someLib, fun _ => [], fun _ => none⟩ b!"Verify" [] w (someRun.manager.showWarnings someSorter id).2 = some (w', false) ∧ Kept w w' :=
  C58_partial (E := ⟨someLib, fun _ => [], fun _ => none⟩) ⟨_, some_lowers⟩ someSorter id (fun l => .refl l) b!"Bench" b!"Verify" []
    [someRun] [someRun] (by intro r hr; simp at hr; subst hr; exact some_ok) (by intro r hr; simp at hr; subst hr; rw [some_events]; simp)
    _ _ (by simp) (by simp) (by decide +kernel)

end Verif.Props.WarnMore
