import Verif.Warning.Manager

/-
Properties C29, C30 and C31: the warning manager, against a plain log of what was added.
-/

set_option linter.unusedSimpArgs false

namespace Verif.Props.WarnManager
open Go Verif.Warning

/-! ### Specification -/

/-- A text without the newlines at its end. -/
def stripEnd : Bytes → Bytes
  | [] => []
  | b :: s => if stripEnd s = [] ∧ b = 0x0A then [] else b :: stripEnd s

/-- One addition of a warning. -/
structure Event where
  w : Warning
  fn : Bytes
  text : Bytes
  record : Bytes

/-- A manager as a log: names defined, names declared with WarnOnly, additions. -/
structure Log where
  defined : List Bytes := []
  declared : List Bytes := []
  events : List Event := []

/-- An addition of `Unused` that names a warning that was added. -/
def Superfluous (es : List Event) (e : Event) : Prop :=
  e.w.name = b!"Unused" ∧ ∃ e' ∈ es, e'.w.name = e.text

instance (es : List Event) (e : Event) : Decidable (Superfluous es e) := by
  unfold Superfluous; infer_instance

/-- The two additions for a skipped test. -/
def skipped (fn : Bytes) (w : Warning) : List Event :=
  [⟨skippingTest, fn, w.summary, []⟩, ⟨w, fn, b!"Skipping test", []⟩]

/-- What each operation adds. -/
def Log.step (L : Log) : MOp → Log
  | .predefine ws => { L with defined := L.defined ++ ws.map Warning.name }
  | .warnOnly fn w =>
    { L with
      events := L.events ++ if w.name ∈ L.defined then [] else [⟨undefinedWarning, fn, w.summary, []⟩]
      declared := L.declared ++ [w.name] }
  | .add w fn text record => { L with events := L.events ++ [⟨w, fn, text, record⟩] }
  | .unused fn w record => { L with events := L.events ++ [⟨unused, fn, w.name, record⟩] }
  | .skipTest fn w => { L with events := L.events ++ skipped fn w }
  | .skipTestIf fn ws =>
    { L with events := L.events ++
        match ws.find? fun w => decide (w.name ∈ L.declared) with
        | some w => skipped fn w
        | none => [] }
  | .get => { L with events := L.events.filter fun e => ¬ Superfluous L.events e }

/-- A history. -/
def Log.run (L : Log) (ops : List MOp) : Log := ops.foldl Log.step L

/-- The additions under a name, in order. -/
def under (es : List Event) (n : Bytes) : List Event := es.filter fun e => e.w.name = n

/-- What is reported of an addition. -/
def Event.shown (e : Event) : Instance := ⟨e.fn, stripEnd e.record, e.text⟩

/-- What is to be reported under a name: level and summary of the first addition, the
number of additions, all additions in order. -/
def reported (es : List Event) (n : Bytes) : Option Instances :=
  match under es n with
  | [] => none
  | e :: rest => some ⟨e.w.level, n, e.w.summary, (e :: rest).length, (e :: rest).map Event.shown⟩

/-- The warnings an operation is given. -/
def MOp.given : MOp → List Warning
  | .predefine ws => ws
  | .warnOnly _ w => [w]
  | .add w _ _ _ => [w]
  | .unused _ w _ => [w]
  | .skipTest _ w => [w]
  | .skipTestIf _ ws => ws
  | .get => []

/-- Nobody made a second warning called `Unused` (which the registry would refuse,
C27). -/
def OneUnused (ops : List MOp) : Prop :=
  ∀ op ∈ ops, ∀ w ∈ MOp.given op, w.name = b!"Unused" → w.level = unused.level ∧ w.summary = unused.summary

/-! ### The manager keeps the log -/

theorem strip_iff_nil (s : Bytes) : stripEnd s = [] ↔ s.all (· == 0x0A) = true := by
  induction s with
  | nil => simp [stripEnd]
  | cons b s ih =>
    simp only [stripEnd, List.all_cons, Bool.and_eq_true, beq_iff_eq, ← ih]
    split <;> grind

theorem trim_strip (s : Bytes) : trimRightNL s = stripEnd s := by
  unfold trimRightNL
  induction s with
  | nil => rfl
  | cons b s ih =>
    rw [List.reverse_cons, stripEnd, List.dropWhile_append]
    have e : (s.reverse.dropWhile (· == 0x0A)).isEmpty = true ↔ stripEnd s = [] := by
      rw [← ih]; simp
    by_cases h : stripEnd s = []
    · rw [if_pos (e.2 h)]
      by_cases hb : b = 0x0A
      · simp [h, hb]
      · simp [h, hb]
    · rw [if_neg (by rw [e]; exact h)]
      simp [h, ih]

/-- The manager is in the state the log tells. -/
structure Keeps (L : Log) (m : Manager) : Prop where
  nodup : m.warnings.keys.Nodup
  look : ∀ n, m.warnings.get n = reported L.events n
  defined : ∀ n, (m.predefined.get n).isSome = true ↔ n ∈ L.defined
  declared : ∀ n, (m.warnOnly.get n).getD false = true ↔ n ∈ L.declared
  one : ∀ e ∈ L.events, e.w.name = b!"Unused" → e.w.level = unused.level ∧ e.w.summary = unused.summary

theorem under_append (es fs : List Event) (n : Bytes) : under (es ++ fs) n = under es n ++ under fs n := by
  simp [under]

theorem reported_add (es : List Event) (e : Event) (n : Bytes) : reported (es ++ [e]) n =
    if n = e.w.name then
      some ⟨((under es n).headD e).w.level, n, ((under es n).headD e).w.summary,
        (under es n).length + 1, (under es n).map Event.shown ++ [e.shown]⟩
    else reported es n := by
  unfold reported
  rw [under_append]
  by_cases h : n = e.w.name
  · rw [if_pos h]
    have : under [e] n = [e] := by simp [under, h]
    rw [this]
    cases under es n <;> simp
  · rw [if_neg h]
    have : under [e] n = [] := by simp [under, Ne.symm h]
    rw [this, List.append_nil]

theorem keeps_add {L : Log} {m : Manager} (h : Keeps L m) (w : Warning) (fn text record : Bytes)
    (hw : w.name = b!"Unused" → w.level = unused.level ∧ w.summary = unused.summary) :
    Keeps { L with events := L.events ++ [⟨w, fn, text, record⟩] } (m.addWarningFnText w fn text record) := by
  have hrec : (if record ≠ [] then trimRightNL record else []) = stripEnd record := by
    split
    · exact trim_strip record
    · rename_i h; simp at h; subst h; rfl
  refine ⟨?_, fun n => ?_, h.defined, h.declared, ?_⟩
  · exact Map.nodup_set h.nodup _ _
  · unfold Manager.addWarningFnText
    simp only [Map.get_set, reported_add, h.look, hrec]
    by_cases hn : n = w.name
    · subst hn
      rw [if_pos rfl, if_pos rfl]
      unfold reported
      cases under L.events w.name <;> simp [Event.shown]
    · rw [if_neg hn, if_neg hn]
  · intro e he
    rcases List.mem_append.1 he with he | he
    · exact h.one e he
    · rw [List.mem_singleton.1 he]; exact hw

theorem keeps_predefine {L : Log} (ws : List Warning) : ∀ {m : Manager}, Keeps L m →
    Keeps { L with defined := L.defined ++ ws.map Warning.name } (m.predefine ws) := by
  induction ws generalizing L with
  | nil => intro m h; simpa [Manager.predefine] using h
  | cons w ws ih =>
    intro m h
    have h1 : Keeps { L with defined := L.defined ++ [w.name] } { m with predefined := m.predefined.set w.name w } := by
      refine ⟨h.nodup, h.look, fun n => ?_, h.declared, h.one⟩
      simp only [Map.get_set, List.mem_append, List.mem_singleton, ← h.defined]
      split <;> simp_all
    have := ih h1
    simpa [Manager.predefine] using this

theorem keeps_declare {L : Log} {m : Manager} (h : Keeps L m) (n : Bytes) :
    Keeps { L with declared := L.declared ++ [n] } { m with warnOnly := m.warnOnly.set n true } := by
  refine ⟨h.nodup, h.look, h.defined, fun x => ?_, h.one⟩
  simp only [Map.get_set, List.mem_append, List.mem_singleton, ← h.declared]
  split <;> simp_all

theorem keeps_skip {L : Log} {m : Manager} (h : Keeps L m) (fn : Bytes) (w : Warning)
    (hw : w.name = b!"Unused" → w.level = unused.level ∧ w.summary = unused.summary) :
    Keeps { L with events := L.events ++ skipped fn w } (m.skipTest fn w) := by
  have h1 := keeps_add h skippingTest fn w.summary [] (by decide)
  have h2 := keeps_add h1 w fn skippingTest.summary [] hw
  simpa [skipped, Manager.skipTest, Manager.addWarning, skippingTest] using h2

theorem reported_isNone (es : List Event) (n : Bytes) :
    (reported es n).isNone = true ↔ ∀ e ∈ es, e.w.name ≠ n := by
  unfold reported under
  constructor
  · intro h e he hn
    have : e ∈ es.filter fun e => e.w.name = n := List.mem_filter.2 ⟨he, by simpa using hn⟩
    cases h' : es.filter fun e => e.w.name = n with
    | nil => rw [h'] at this; cases this
    | cons x xs => simp [h'] at h
  · intro h
    have : (es.filter fun e => e.w.name = n) = [] := by
      rw [List.filter_eq_nil_iff]
      intro e he; simpa using h e he
    simp [this]

theorem keeps_cleanUp {L : Log} {m : Manager} (h : Keeps L m) :
    Keeps (L.step .get) m.cleanUp := by
  have hone : ∀ e ∈ (L.step .get).events, e.w.name = b!"Unused" → e.w.level = unused.level ∧ e.w.summary = unused.summary :=
    fun e he => h.one e (List.mem_filter.1 he).1
  -- other names are not touched
  have other : ∀ n, n ≠ b!"Unused" → reported (L.step .get).events n = reported L.events n := by
    intro n hn
    have : under (L.step .get).events n = under L.events n := by
      unfold under
      simp only [Log.step, List.filter_filter]
      refine List.filter_congr fun e _ => ?_
      by_cases he : e.w.name = n
      · have : ¬ Superfluous L.events e := fun hs => hn (he ▸ hs.1)
        simp [he, this]
      · simp [he]
    unfold reported; rw [this]
  have mine : (under (L.step .get).events b!"Unused").map Event.shown =
      ((under L.events b!"Unused").map Event.shown).filter fun i => (m.warnings.get i.text).isNone := by
    rw [List.filter_map]
    congr 1
    unfold under
    simp only [Log.step, List.filter_filter]
    refine List.filter_congr fun e _ => ?_
    by_cases he : e.w.name = b!"Unused"
    · have : (Superfluous L.events e) ↔ ¬ ((m.warnings.get e.text).isNone = true) := by
        rw [h.look, reported_isNone]
        simp [Superfluous, he]
      simp only [he, decide_true, Bool.true_and, Function.comp, Event.shown, this, decide_not, Bool.not_not, Bool.and_true]
      cases m.warnings.get e.text <;> simp
    · simp [he]
  unfold Manager.cleanUp
  have hl := h.look b!"Unused"
  show Keeps _ (match m.warnings.get b!"Unused" with | none => m | some u => _)
  cases hu : m.warnings.get b!"Unused" with
  | none =>
    rw [hu] at hl
    have hno := (reported_isNone L.events b!"Unused").1 (by rw [← hl]; rfl)
    have : (L.step .get).events = L.events := by
      simp only [Log.step]
      rw [List.filter_eq_self]
      intro e he
      have : ¬ Superfluous L.events e := fun hs => hno e he hs.1
      simp [this]
    refine ⟨h.nodup, fun n => ?_, h.defined, h.declared, hone⟩
    rw [this]; exact h.look n
  | some u =>
    rw [hu] at hl
    have hdata : u.data = (under L.events b!"Unused").map Event.shown ∧ u.name = b!"Unused" ∧
        u.level = unused.level ∧ u.summary = unused.summary := by
      unfold reported at hl
      cases hx : under L.events b!"Unused" with
      | nil => rw [hx] at hl; cases hl
      | cons e es =>
        rw [hx] at hl
        have hm : e ∈ under L.events b!"Unused" := by rw [hx]; simp
        obtain ⟨h1, h2⟩ := List.mem_filter.1 hm
        obtain ⟨h3, h4⟩ := h.one e h1 (by simpa using h2)
        cases hl
        exact ⟨rfl, rfl, h3, h4⟩
    rw [← hdata.1] at mine
    simp only
    rw [← mine]
    generalize hes : under (L.step .get).events b!"Unused" = es at mine
    cases es with
    | nil =>
      simp only [List.map_nil, List.length_nil, gt_iff_lt, Nat.lt_irrefl, if_false]
      refine ⟨Map.nodup_del h.nodup _, fun n => ?_, h.defined, h.declared, hone⟩
      show (Map.del _ b!"Unused").get n = _
      rw [Map.get_del]
      by_cases hn : n = b!"Unused"
      · rw [if_pos hn, hn]; unfold reported; rw [hes]
      · rw [if_neg hn, h.look, other n hn]
    | cons e es =>
      have hm : e ∈ under (L.step .get).events b!"Unused" := by rw [hes]; simp
      obtain ⟨h1, h2⟩ := List.mem_filter.1 hm
      obtain ⟨h3, h4⟩ := hone e h1 (by simpa using h2)
      rw [if_pos (by simp)]
      refine ⟨Map.nodup_set h.nodup _ _, fun n => ?_, h.defined, h.declared, hone⟩
      show (Map.set _ b!"Unused" _).get n = _
      rw [Map.get_set]
      by_cases hn : n = b!"Unused"
      · rw [if_pos hn, hn]
        unfold reported
        rw [hes]
        simp [hdata.2.1, hdata.2.2.1, hdata.2.2.2, h3, h4]
      · rw [if_neg hn, h.look, other n hn]

theorem map_empty {m : Manager} {L : Log} (h : Keeps L m) : m.warnings.length < 1 ↔ L.events = [] := by
  constructor
  · intro hl
    have hm : m.warnings = [] := List.length_eq_zero_iff.1 (by omega)
    cases e : L.events with
    | nil => rfl
    | cons x xs =>
      have := h.look x.w.name
      rw [hm, e] at this
      simp [reported, under, Map.get_nil] at this
  · intro he
    cases e : m.warnings with
    | nil => simp
    | cons x xs =>
      have := h.look x.1
      rw [he, e] at this
      simp [reported, under, Map.get] at this

theorem keeps_get {L : Log} {m : Manager} (h : Keeps L m) (S : Sorter) (pick : List Bytes → List Bytes) :
    Keeps (L.step .get) (m.getWarnings S pick).1 := by
  unfold Manager.getWarnings
  by_cases hm : m.warnings.length < 1
  · rw [if_pos hm]
    have := (map_empty h).1 hm
    have e : L.step .get = L := by
      obtain ⟨_, _, es⟩ := L
      simp only at this
      subst this
      rfl
    rw [e]; exact h
  · rw [if_neg hm]
    exact keeps_cleanUp h

theorem skipTestIf_spec {L : Log} {m : Manager} (h : Keeps L m) (fn : Bytes) (ws : List Warning) :
    m.skipTestIf fn ws = match ws.find? fun w => decide (w.name ∈ L.declared) with
      | some w => (m.skipTest fn w, true)
      | none => (m, false) := by
  induction ws with
  | nil => rfl
  | cons w ws ih =>
    rw [Manager.skipTestIf, List.find?_cons]
    by_cases hd : w.name ∈ L.declared
    · rw [if_pos ((h.declared _).2 hd)]
      simp [hd, Manager.skipTest]
    · rw [if_neg (fun hx => hd ((h.declared _).1 hx)), ih]
      simp [hd]

theorem keeps_step {L : Log} {m : Manager} (h : Keeps L m) (op : MOp) (ho : OneUnused [op]) :
    Keeps (L.step op) (m.step op) := by
  have ho := ho op (by simp)
  cases op with
  | predefine ws => exact keeps_predefine ws h
  | warnOnly fn w =>
    simp only [Manager.step, Manager.setWarnOnly, Log.step]
    by_cases hd : w.name ∈ L.defined
    · rw [if_pos ((h.defined _).2 hd), if_pos hd, List.append_nil]
      exact keeps_declare h _
    · rw [if_neg (fun hx => hd ((h.defined _).1 hx)), if_neg hd]
      exact keeps_declare (keeps_add h undefinedWarning fn w.summary [] (by decide)) _
  | add w fn text record => exact keeps_add h w fn text record (ho w (by simp [MOp.given]))
  | unused fn w record => exact keeps_add h unused fn w.name record (fun _ => ⟨rfl, rfl⟩)
  | skipTest fn w => exact keeps_skip h fn w (ho w (by simp [MOp.given]))
  | skipTestIf fn ws =>
    simp only [Manager.step, Log.step]
    rw [skipTestIf_spec h]
    cases hf : ws.find? fun w => decide (w.name ∈ L.declared) with
    | none => simpa using h
    | some w => exact keeps_skip h fn w (ho w (by simpa [MOp.given] using List.mem_of_find?_eq_some hf))
  | get => exact keeps_get h _ _

theorem keeps_run (name pfx : Bytes) (ops : List MOp) (ho : OneUnused ops) :
    Keeps (Log.run {} ops) (Manager.run { name := name, showPrefix := pfx } ops) := by
  have : ∀ (ops : List MOp) (L : Log) (m : Manager), OneUnused ops → Keeps L m → Keeps (L.run ops) (m.run ops) := by
    intro ops
    induction ops with
    | nil => intro L m _ h; exact h
    | cons op ops ih =>
      intro L m ho h
      exact ih _ _ (fun o hm => ho o (by simp [hm])) (keeps_step h op (fun o hm => ho o (by simp at hm; simp [hm])))
  refine this ops _ _ ho ⟨.nil, fun n => rfl, fun n => by simp [Map.get_nil], fun n => by simp [Map.get_nil], fun e he => by cases he⟩

/-! ### C29 -/

/-- C29: after any history the manager holds, for every name, the number of additions
under it, and all of them in order with function, text and log record; nothing is held
for any other name. -/
theorem C29_bookkeeping (name pfx : Bytes) (ops : List MOp) (ho : OneUnused ops) (n : Bytes) :
    (Manager.run { name := name, showPrefix := pfx } ops).warnings.get n = reported (Log.run {} ops).events n :=
  (keeps_run name pfx ops ho).look n

/-- C29: as long as nobody asks for the report, the additions are all there. -/
theorem C29_nothing_lost (ops : List MOp) (h : MOp.get ∉ ops) (e : Event) (L : Log) (he : e ∈ L.events) :
    e ∈ (L.run ops).events := by
  induction ops generalizing L with
  | nil => exact he
  | cons op ops ih =>
    refine ih (fun hm => h (by simp [hm])) _ ?_
    cases op with
    | get => simp at h
    | predefine ws => exact he
    | _ => simp only [Log.step]; exact List.mem_append_left _ he

/-! ### C30 -/

/-- More severe, or equally severe and first by name. -/
def Precedes (a b : Instances) : Prop := a.level > b.level ∨ (a.level = b.level ∧ less a.name b.name = true)

theorem moreSevere_iff (a b : Instances) : moreSevere a b = true ↔ Precedes a b := by
  unfold moreSevere Precedes
  split
  · simp_all
  · split
    · simp; omega
    · have : a.level = b.level := by omega
      simp [this]

theorem moreSevere_weak : StrictWeak moreSevere where
  irrefl := fun a => by
    cases h : moreSevere a a with
    | false => rfl
    | true =>
      rcases (moreSevere_iff a a).1 h with h | ⟨_, h⟩
      · omega
      · rw [less_irrefl] at h; cases h
  trans := fun a b c h1 h2 => by
    rw [moreSevere_iff] at *
    unfold Precedes at *
    rcases h1 with h1 | ⟨e1, h1⟩
    · rcases h2 with h2 | ⟨e2, h2⟩
      · exact .inl (by omega)
      · exact .inl (by omega)
    · rcases h2 with h2 | ⟨e2, h2⟩
      · exact .inl (by omega)
      · exact .inr ⟨by omega, less_trans h1 h2⟩
  incomp := fun a b c h1 h2 => by
    have key : ∀ x y : Instances, moreSevere x y = false ↔ x.level < y.level ∨ (x.level = y.level ∧ less x.name y.name = false) := by
      intro x y
      unfold moreSevere
      split
      · simp; omega
      · split
        · simp_all
        · have : x.level = y.level := by omega
          simp [this]
    rw [key] at *
    rcases h1 with h1 | ⟨e1, h1⟩
    · rcases h2 with h2 | ⟨e2, h2⟩
      · exact .inl (by omega)
      · exact .inl (by omega)
    · rcases h2 with h2 | ⟨e2, h2⟩
      · exact .inl (by omega)
      · exact .inr ⟨by omega, less_weak.incomp _ _ _ h1 h2⟩

/-- The report of a manager that keeps a log. -/
structure Report (es : List Event) (is : List Instances) : Prop where
  /-- Strictly ordered: every name once. -/
  order : is.Pairwise Precedes
  /-- Exactly what is to be reported. -/
  mem : ∀ i, i ∈ is ↔ ∃ n, reported es n = some i

theorem reported_name {es : List Event} {n : Bytes} {i : Instances} (h : reported es n = some i) : i.name = n := by
  unfold reported at h
  split at h
  · cases h
  · cases h; rfl

theorem report_unique {es : List Event} {is js : List Instances} (h : Report es is) (h' : Report es js) : is = js := by
  have nd : ∀ {xs : List Instances}, xs.Pairwise Precedes → xs.Nodup := by
    intro xs hx
    refine hx.imp ?_
    intro a b hab e
    subst e
    rcases hab with h | ⟨_, h⟩
    · omega
    · rw [less_irrefl] at h; cases h
  have asym : ∀ {a b : Instances}, Precedes a b → moreSevere b a = false := by
    intro a b hab
    cases e : moreSevere b a with
    | false => rfl
    | true =>
      have := moreSevere_weak.trans _ _ _ ((moreSevere_iff a b).2 hab) e
      rw [moreSevere_weak.irrefl] at this; cases this
  refine sorted_unique (lt := moreSevere) ?_ (h.order.imp asym) (h'.order.imp asym) ?_
  · exact (List.perm_ext_iff_of_nodup (nd h.order) (nd h'.order)).2 fun i => by rw [h.mem, h'.mem]
  · intro a ha b hb h1 h2
    obtain ⟨n, hn⟩ := (h.mem a).1 ha
    obtain ⟨k, hk⟩ := (h.mem b).1 hb
    have : a.name = b.name := by
      have hl : a.level = b.level := by
        rcases Nat.lt_trichotomy a.level b.level with h | h | h
        · have := (moreSevere_iff b a).2 (.inl h); rw [this] at h2; cases h2
        · exact h
        · have := (moreSevere_iff a b).2 (.inl h); rw [this] at h1; cases h1
      rcases less_total a.name b.name with h | h | h
      · have := (moreSevere_iff a b).2 (.inr ⟨hl, h⟩); rw [this] at h1; cases h1
      · exact h
      · have := (moreSevere_iff b a).2 (.inr ⟨hl.symm, h⟩); rw [this] at h2; cases h2
    rw [reported_name hn, reported_name hk] at this
    subst this
    rw [hn] at hk
    exact Option.some.inj hk

theorem report_of_keeps {L : Log} {m : Manager} (h : Keeps L m) (S : Sorter) (pick : List Bytes → List Bytes)
    (hp : ∀ l, (pick l).Perm l) :
    Report L.events ((S.sort (before m) (pick m.warnings.keys)).filterMap fun w => m.warnings.get w) := by
  have hperm := (S.perm (before m) (pick m.warnings.keys)).trans (hp _)
  have hsort := S.sorted (before m) (pick m.warnings.keys) (moreSevere_weak.comap _)
  have hnd : (S.sort (before m) (pick m.warnings.keys)).Nodup := hperm.nodup_iff.2 h.nodup
  generalize S.sort (before m) (pick m.warnings.keys) = ks at *
  constructor
  · rw [List.pairwise_filterMap]
    refine List.Pairwise.imp₂ ?_ hsort hnd
    intro a b h1 h2 x hx y hy
    have hx' : m.warnings.get a = some x := hx
    have hy' : m.warnings.get b = some y := hy
    have ex := reported_name ((h.look a).symm.trans hx')
    have ey := reported_name ((h.look b).symm.trans hy')
    unfold before at h1
    simp only [hx', hy', Option.getD_some] at h1
    have hn : ¬ Precedes y x := fun hc => by
      rw [(moreSevere_iff y x).2 hc] at h1; cases h1
    unfold Precedes at *
    rcases Nat.lt_trichotomy x.level y.level with hl | hl | hl
    · exact absurd (.inl hl) hn
    · rcases less_total x.name y.name with hh | hh | hh
      · exact .inr ⟨hl, hh⟩
      · rw [ex, ey] at hh; exact absurd hh h2
      · exact absurd (.inr ⟨hl.symm, hh⟩) hn
    · exact .inl hl
  · intro i
    rw [List.mem_filterMap]
    constructor
    · rintro ⟨n, _, hn⟩
      exact ⟨n, (h.look n).symm.trans hn⟩
    · rintro ⟨n, hn⟩
      have hg : m.warnings.get n = some i := (h.look n).trans hn
      exact ⟨n, hperm.mem_iff.2 ((Map.mem_keys _ _).2 (by rw [hg]; rfl)), hg⟩

/-- C30: the report after a history: each name once, most severe level first and then by
name, and exactly what the log tells after removing the additions of `Unused` that name a
warning that was added. -/
theorem C30_report (name pfx : Bytes) (ops : List MOp) (ho : OneUnused ops) (S : Sorter)
    (pick : List Bytes → List Bytes) (hp : ∀ l, (pick l).Perm l) :
    Report (Log.run {} (ops ++ [.get])).events
      (((Manager.run { name := name, showPrefix := pfx } ops).getWarnings S pick).2.getD []) := by
  have h := keeps_run name pfx ops ho
  have e : Log.run {} (ops ++ [.get]) = (Log.run {} ops).step .get := by simp [Log.run]
  rw [e]
  generalize Log.run {} ops = L at h
  generalize Manager.run { name := name, showPrefix := pfx } ops = m at h
  unfold Manager.getWarnings
  by_cases hm : m.warnings.length < 1
  · rw [if_pos hm]
    have hes := (map_empty h).1 hm
    refine ⟨.nil, fun i => ?_⟩
    simp [Log.step, hes, reported, under]
  · rw [if_neg hm]
    exact report_of_keeps (keeps_cleanUp h) S pick hp

/-- C30: the report depends neither on how the sort treats its input nor on the order in
which the map is visited. -/
theorem C30_report_deterministic (name pfx : Bytes) (ops : List MOp) (ho : OneUnused ops) (S S' : Sorter)
    (pick pick' : List Bytes → List Bytes) (hp : ∀ l, (pick l).Perm l) (hp' : ∀ l, (pick' l).Perm l) :
    ((Manager.run { name := name, showPrefix := pfx } ops).getWarnings S pick).2.getD [] =
    ((Manager.run { name := name, showPrefix := pfx } ops).getWarnings S' pick').2.getD [] :=
  report_unique (C30_report name pfx ops ho S pick hp) (C30_report name pfx ops ho S' pick' hp')

theorem get_get (L : Log) : (L.step .get).step .get = L.step .get := by
  simp only [Log.step, List.filter_filter]
  congr 1
  refine List.filter_congr fun e _ => ?_
  by_cases h : Superfluous L.events e
  · simp [h]
  · have : ¬ Superfluous (L.events.filter fun e => ¬ Superfluous L.events e) e := by
      rintro ⟨h1, e', h2, h3⟩
      exact h ⟨h1, e', (List.mem_filter.1 h2).1, h3⟩
    simp only [h, this, not_false_eq_true, decide_true, Bool.and_self]

/-- C30: asking twice gives the same answer (a nil slice counts as an empty one). -/
theorem C30_report_stable (name pfx : Bytes) (ops : List MOp) (ho : OneUnused ops) (S S' : Sorter)
    (pick pick' : List Bytes → List Bytes) (hp : ∀ l, (pick l).Perm l) (hp' : ∀ l, (pick' l).Perm l) :
    ((((Manager.run { name := name, showPrefix := pfx } ops).getWarnings S pick).1).getWarnings S' pick').2.getD [] =
    ((Manager.run { name := name, showPrefix := pfx } ops).getWarnings S pick).2.getD [] := by
  have e1 : (((Manager.run { name := name, showPrefix := pfx } ops).getWarnings S pick).1) =
      Manager.run { name := name, showPrefix := pfx } (ops ++ [.get]) := by
    simp only [Manager.run, List.foldl_append, List.foldl_cons, List.foldl_nil, Manager.step]
    unfold Manager.getWarnings
    split <;> rfl
  have ho' : OneUnused (ops ++ [.get]) := by
    intro op h
    rcases List.mem_append.1 h with h | h
    · exact ho op h
    · rw [List.mem_singleton.1 h]; intro w hw; cases hw
  rw [e1]
  have h1 := C30_report name pfx (ops ++ [.get]) ho' S' pick' hp'
  have e2 : Log.run {} (ops ++ [.get] ++ [.get]) = Log.run {} (ops ++ [.get]) := by
    simp only [Log.run, List.foldl_append, List.foldl_cons, List.foldl_nil]
    exact get_get _
  rw [e2] at h1
  exact report_unique h1 (C30_report name pfx ops ho S pick hp)

/-! ### C31 -/

/-- C31: a warning counts as set exactly if the flag is on and it was declared. -/
theorem C31_hasWarning (name pfx : Bytes) (ops : List MOp) (ho : OneUnused ops) (flag : Bool) (w : Warning) :
    (Manager.run { name := name, showPrefix := pfx } ops).hasWarning flag w = true ↔
      flag = true ∧ ∃ fn v, MOp.warnOnly fn v ∈ ops ∧ v.name = w.name := by
  have h := keeps_run name pfx ops ho
  have hd : ∀ (ops : List MOp) (L : Log) (n : Bytes), n ∈ (L.run ops).declared ↔
      n ∈ L.declared ∨ ∃ fn v, MOp.warnOnly fn v ∈ ops ∧ v.name = n := by
    intro ops
    induction ops with
    | nil => intro L n; simp [Log.run]
    | cons op ops ih =>
      intro L n
      show n ∈ ((L.step op).run ops).declared ↔ _
      rw [ih]
      cases op with
      | warnOnly fn w =>
        simp only [Log.step, List.mem_append, List.mem_cons, List.not_mem_nil, or_false, MOp.warnOnly.injEq]
        constructor
        · rintro ((h | rfl) | ⟨f, v, hm, hv⟩)
          · exact .inl h
          · exact .inr ⟨fn, w, .inl ⟨rfl, rfl⟩, rfl⟩
          · exact .inr ⟨f, v, .inr hm, hv⟩
        · rintro (h | ⟨f, v, ⟨rfl, rfl⟩ | hm, hv⟩)
          · exact .inl (.inl h)
          · exact .inl (.inr hv.symm)
          · exact .inr ⟨f, v, hm, hv⟩
      | _ => simp [Log.step]
  unfold Manager.hasWarning
  rw [Bool.and_eq_true, h.declared, hd]
  simp

/-- C31: the list form keeps exactly the warnings that count as set, in order. -/
theorem C31_hasWarnings (flag : Bool) (m : Manager) (ws : List Warning) :
    m.hasWarnings flag ws = ws.filter fun w => m.hasWarning flag w := by
  have loop : ∀ (ws found : List Warning), hasLoop flag m found ws = found ++ ws.filter fun w => m.hasWarning flag w := by
    intro ws
    induction ws with
    | nil => intro found; simp [hasLoop]
    | cons w ws ih =>
      intro found
      rw [hasLoop, ih, List.filter_cons]
      split <;> simp
  unfold Manager.hasWarnings
  cases flag with
  | true => rw [if_pos rfl, loop]; rfl
  | false =>
    rw [if_neg (by decide)]
    rw [List.filter_eq_nil_iff.2]
    intro w _
    simp [Manager.hasWarning]

/-- C31: the test is skipped exactly if one of the warnings was declared (whatever the
flag is); then the two additions for the first such one are made, otherwise nothing
changes. -/
theorem C31_skipTestIf (name pfx : Bytes) (ops : List MOp) (ho : OneUnused ops) (fn : Bytes) (ws : List Warning) :
    (((Manager.run { name := name, showPrefix := pfx } ops).skipTestIf fn ws).2 = true ↔
      ∃ w ∈ ws, (Manager.run { name := name, showPrefix := pfx } ops).hasWarning true w = true) ∧
    (((Manager.run { name := name, showPrefix := pfx } ops).skipTestIf fn ws).2 = false →
      ((Manager.run { name := name, showPrefix := pfx } ops).skipTestIf fn ws).1 =
        Manager.run { name := name, showPrefix := pfx } ops) := by
  have h := keeps_run name pfx ops ho
  generalize Manager.run { name := name, showPrefix := pfx } ops = m at *
  rw [skipTestIf_spec h]
  cases hf : ws.find? fun w => decide (w.name ∈ (Log.run {} ops).declared) with
  | none =>
    refine ⟨Iff.intro (fun hx => by cases hx) ?_, fun _ => rfl⟩
    intro hex
    obtain ⟨w, hw, hx⟩ := hex
    have := List.find?_eq_none.1 hf w hw
    simp only [Manager.hasWarning, Bool.true_and, h.declared] at hx
    simp [hx] at this
  | some w =>
    refine ⟨Iff.intro (fun _ => ⟨w, List.mem_of_find?_eq_some hf, ?_⟩) (fun _ => rfl), fun hx => by cases hx⟩
    simp only [Manager.hasWarning, Bool.true_and, h.declared]
    simpa using List.find?_some hf

/-! ### A case -/

/-- Two warnings. -/
def wA : Warning := ⟨4, b!"A", b!"about A", []⟩
/-- Another. -/
def wB : Warning := ⟨2, b!"B", b!"about B", []⟩

/-- A history: two unused notes, one of them superfluous. -/
def story : List MOp :=
  [.predefine [wA], .warnOnly b!"f" wA, .warnOnly b!"f" wB, .add wB b!"g" b!"t1" b!"{}\n\n",
   .unused b!"h" wA [], .unused b!"h" wB [], .skipTestIf b!"k" [wA, wB], .add wB b!"g" b!"t2" [], .get,
   .unused b!"q" ⟨3, b!"C", [], []⟩ []]

example : OneUnused story := by
  intro op ho w hw
  simp only [story, List.mem_cons, List.not_mem_nil, or_false] at ho
  rcases ho with rfl | rfl | rfl | rfl | rfl | rfl | rfl | rfl | rfl | rfl <;>
    (simp only [MOp.given, List.mem_cons, List.not_mem_nil, or_false] at hw
     try rcases hw with rfl | rfl
     all_goals try (subst hw)
     all_goals first | decide | (cases hw))

example : ((Manager.run {} story).getWarnings someSorter List.reverse).2 =
    some [⟨4, b!"A", b!"about A", 1, [⟨b!"k", [], b!"Skipping test"⟩]⟩,
      ⟨2, b!"B", b!"about B", 2, [⟨b!"g", b!"{}", b!"t1"⟩, ⟨b!"g", [], b!"t2"⟩]⟩,
      ⟨1, b!"SkippingTest", b!"Skipping test", 1, [⟨b!"k", [], b!"about A"⟩]⟩,
      ⟨1, b!"Undefined", b!"Undefined Warnings(s)", 1, [⟨b!"f", [], b!"about B"⟩]⟩,
      ⟨1, b!"Unused", b!"Unused Warnings(s)", 1, [⟨b!"q", [], b!"C"⟩]⟩] := by
  decide +kernel

end Verif.Props.WarnManager
