import Verif.Props.WarnViews
import Verif.Data.TestMenu
import Verif.Data.WarnKept

/-
The menus of tests: C100.
-/

namespace Verif.Props.TestMenu
open Go Verif.Data Verif.Score Verif.Props.WarnReport Verif.Props.WarnViews

/-! ### Specification -/

/-- A list for a menu: everything once, in the order of the names shown. -/
structure Menu (name : Bytes → Bytes) (P : Bytes → Prop) (l : List Bytes) : Prop where
  once : l.Nodup
  all : ∀ t, t ∈ l ↔ P t
  order : l.Pairwise fun a b => less (name b) (name a) = false

/-- The variable `tests` after any number of questions, in any order of the map. -/
inductive Asked (S : Sorter) (w : Warns) : List Bytes → Prop
  | never : Asked S w []
  | tags {l : List Bytes} (pick : List Bytes → List Bytes) : (∀ l, (pick l).Perm l) → Asked S w l → Asked S w (w.testTags S pick l)
  | source {l : List Bytes} (pick : List Bytes → List Bytes) (s : Bytes) : (∀ l, (pick l).Perm l) → Asked S w l →
      Asked S w (w.testTagsForSource S pick l s).1

/-- A test of runs that made an addition, as it is filed under a source. -/
def Complains (source : Bytes) (rs : List Run) (t : Bytes) : Prop :=
  ∃ r ∈ rs, ∃ n, ∃ e ∈ WarnManager.under r.events n, testOf source e.shown = t

/-! ### What is kept -/

/-- The tests known are known once, each with a warning (proof only). -/
def Filled (w : Warns) : Prop := w.byTest.keys.Nodup ∧ ∀ t ∈ w.byTest.keys, ∃ lt n id, w.tid t lt n = some id

theorem filled_findTest {w : Warns} (h : Filled w) (t : Bytes) (l : Nat) (n : Bytes) : Filled (w.findTest t l n).1 := by
  obtain ⟨w', id, e, ht, _⟩ := findTest_spec w t l n
  have hb : ∃ ls, (w.findTest t l n).1.byTest = w.byTest.set t ls := ⟨_, rfl⟩
  obtain ⟨ls, hb⟩ := hb
  rw [e] at hb ⊢
  dsimp only at hb ⊢
  refine ⟨by rw [hb]; exact Map.nodup_set h.1 _ _, fun t' ht' => ?_⟩
  rw [hb, Map.mem_keys, Map.get_set] at ht'
  by_cases h0 : t' = t
  · exact ⟨_, _, id, by rw [ht]; exact if_pos ⟨h0, rfl, rfl⟩⟩
  · rw [if_neg h0, ← Map.mem_keys] at ht'
    obtain ⟨lt, m, i, hi⟩ := h.2 t' ht'
    exact ⟨lt, m, i, by rw [ht, if_neg (by rintro ⟨h, _⟩; exact h0 h)]; exact hi⟩

theorem filled_stable (E : Env) : Stable E Filled where
  save := by
    intro p h
    unfold saveInstance
    split
    · exact h
    split
    · exact h
    · next d _ =>
      exact filled_findTest (w := p.w.change d _) h _ _ _
  forget := fun _ _ h => h
  warning := fun _ _ _ _ _ h => h
  testNames := fun _ _ h => h
  handlerData := fun _ _ _ h => h

theorem filled_read {E : Env} {w : Warns} (h : Read E w) : Filled w := by
  induction h with
  | new => exact ⟨.nil, fun t ht => by cases ht⟩
  | more _ hp ih => exact (filled_stable E).parse ih hp

/-- The tests known are those that a warning knows. -/
theorem known_iff {E : Env} {w : Warns} (h : Read E w) (t : Bytes) :
    t ∈ w.byTest.keys ↔ ∃ n, (w.findWarning n).testMap.get t = some true := by
  constructor
  · intro ht
    obtain ⟨lt, n, id, hi⟩ := (filled_read h).2 t ht
    refine ⟨n, ((C64_any_text h n).2.2.1 t).2 ⟨lt, ?_⟩⟩
    have := (C64_any h).1.tlt _ _ _ _ hi
    exact ⟨w.heap[id], by unfold Warns.lookTest; rw [hi, Option.bind_some]; exact List.getElem?_eq_getElem this⟩
  · rintro ⟨n, hn⟩
    obtain ⟨lt, x, hx⟩ := ((C64_any_text h n).2.2.1 t).1 hn
    rw [Map.mem_keys]
    unfold Warns.lookTest Warns.tid at hx
    cases hb : w.byTest.get t with
    | none => rw [hb] at hx; cases hx
    | some _ => rfl

/-! ### The lists -/

theorem sorted_menu {w : Warns} (h : w.byTest.keys.Nodup) (S : Sorter) {pick : List Bytes → List Bytes} (hp : ∀ l, (pick l).Perm l) :
    Menu (warnTestName w) (· ∈ w.byTest.keys) (S.sort (fun i j => less (warnTestName w i) (warnTestName w j)) (pick w.byTest.keys)) where
  once := ((S.perm _ _).trans (hp _)).nodup_iff.2 h
  all := fun _ => ((S.perm _ _).trans (hp _)).mem_iff
  order := S.sorted _ _ (less_weak.comap (warnTestName w))

theorem asked_menu {w : Warns} (h : w.byTest.keys.Nodup) {S : Sorter} {l : List Bytes} (ha : Asked S w l) :
    l = [] ∨ Menu (warnTestName w) (· ∈ w.byTest.keys) l := by
  have tags : ∀ {l} {pick : List Bytes → List Bytes}, (∀ l, (pick l).Perm l) →
      (l = [] ∨ Menu (warnTestName w) (· ∈ w.byTest.keys) l) → Menu (warnTestName w) (· ∈ w.byTest.keys) (w.testTags S pick l) ∨
        w.testTags S pick l = [] := by
    intro l pick hp hl
    unfold Warns.testTags
    split
    · next h0 =>
      have : l = [] := by cases l with | nil => rfl | cons => simp at h0
      subst this
      exact .inl (sorted_menu h S hp)
    · exact hl.symm
  induction ha with
  | never => exact .inl rfl
  | tags pick hp _ ih => exact (tags hp ih).symm
  | source pick s hp _ ih => exact (tags hp ih).symm

/-- Whatever was asked before, the list of all tests is complete. -/
theorem tags_menu {w : Warns} (h : w.byTest.keys.Nodup) {S : Sorter} {l : List Bytes} (ha : Asked S w l)
    {pick : List Bytes → List Bytes} (hp : ∀ l, (pick l).Perm l) : Menu (warnTestName w) (· ∈ w.byTest.keys) (w.testTags S pick l) := by
  unfold Warns.testTags
  split
  · next h0 =>
    have : l = [] := by cases l with | nil => rfl | cons => simp at h0
    subst this
    exact sorted_menu h S hp
  · next h0 =>
    rcases asked_menu h ha with rfl | hm
    · exact absurd Nat.zero_lt_one h0
    · exact hm

/-! ### C100 -/

/-- C100 for any texts: for a source named without a separator, the list has the tests known whose tags are the source, a full stop
and more, each once and in the order of their names, whatever was asked before. -/
theorem C100_source_partial {E : Env} {w : Warns} (h : Read E w) {S : Sorter} {l : List Bytes} (ha : Asked S w l)
    {pick : List Bytes → List Bytes} (hp : ∀ l, (pick l).Perm l) (source : Bytes) (hs : ∀ s, source ≠ s ++ b!":") :
    Menu (warnTestName w) (fun t => (∃ u, t = source ++ b!"." ++ u) ∧ ∃ n, (w.findWarning n).testMap.get t = some true)
      (w.testTagsForSource S pick l source).2 := by
  have hm := tags_menu (filled_read h).1 ha hp
  have hc : (b!":".isSuffixOf source) = false := by
    cases hc : (b!":".isSuffixOf source) with
    | false => rfl
    | true =>
      obtain ⟨s, e⟩ := List.isSuffixOf_iff_suffix.1 hc
      exact absurd e.symm (hs s)
  unfold Warns.testTagsForSource
  rw [hc]
  refine ⟨hm.once.filter _, fun t => ?_, hm.order.filter _⟩
  dsimp only
  rw [List.mem_filter, hm.all, known_iff h, and_comm]
  refine and_congr_left' ?_
  rw [if_neg (by decide), List.isPrefixOf_iff_prefix]
  exact ⟨fun ⟨u, e⟩ => ⟨u, e.symm⟩, fun ⟨u, e⟩ => ⟨u, e.symm⟩⟩

/-- C100: asking again gives the same list, in whatever order the maps are visited. -/
theorem C100_same (S : Sorter) (w : Warns) (pick pick' : List Bytes → List Bytes) (hp : ∀ l, (pick l).Perm l) (hp' : ∀ l, (pick' l).Perm l)
    (l : List Bytes) (s s' : Bytes) :
    (w.testTagsForSource S pick' (w.testTagsForSource S pick l s).1 s').2 = (w.testTagsForSource S pick l s').2 := by
  have : w.testTags S pick' (w.testTags S pick l) = w.testTags S pick l := by
    generalize e : w.testTags S pick l = k
    unfold Warns.testTags
    split
    · next h0 =>
      have hk : k = [] := by cases k with | nil => rfl | cons => simp at h0
      subst hk
      have hkeys : w.byTest.keys = [] := by
        unfold Warns.testTags at e
        split at e
        · have := (S.perm (fun i j => less (warnTestName w i) (warnTestName w j)) (l ++ pick w.byTest.keys))
          rw [e] at this
          have := (List.append_eq_nil_iff.1 this.nil_eq.symm).2
          have hq := hp w.byTest.keys
          rw [this] at hq
          exact hq.nil_eq.symm
        · next h1 => rw [e] at h1; exact absurd Nat.zero_lt_one h1
      have hq := hp' w.byTest.keys
      rw [hkeys] at hq ⊢
      rw [hq.eq_nil, List.append_nil]
      exact (S.perm _ _).eq_nil
    · rfl
  unfold Warns.testTagsForSource
  dsimp only
  rw [this]

/-- The tests of the server: those of both runs. -/
theorem tests_both {E : Env} {lookup : Map Bytes Bytes} {w : Warns} {rs vs : List Run}
    (hv : Views E lookup w (rs.map (fun r => (b!"Bench", r)) ++ vs.map fun r => (b!"Verify", r))) (t : Bytes) :
    (∃ n, (w.findWarning n).testMap.get t = some true) ↔ Complains b!"Bench" rs t ∨ Complains b!"Verify" vs t := by
  simp only [hv.tests, List.mem_append, List.mem_map, Complains]
  constructor
  · rintro ⟨n, p, ⟨r, hr, rfl⟩ | ⟨r, hr, rfl⟩, e, he, ht⟩
    · exact .inl ⟨r, hr, n, e, he, ht⟩
    · exact .inr ⟨r, hr, n, e, he, ht⟩
  · rintro (⟨r, hr, n, e, he, ht⟩ | ⟨r, hr, n, e, he, ht⟩)
    · exact ⟨n, _, .inl ⟨r, hr, rfl⟩, e, he, ht⟩
    · exact ⟨n, _, .inr ⟨r, hr, rfl⟩, e, he, ht⟩

theorem setup_read {F : Type} {E : Env} {fl : Floats F} {names : List Bytes → List Bytes} {bench verify : Bytes} {b : Bench F} {w : Warns}
    (h : setup E fl names {} {} bench verify = some (b, w, false)) : Read E w := by
  unfold setup at h
  split at h
  · cases h
  · split at h
    split at h
    · cases h
    · cases h
    · next w1 h1 =>
      split at h
      split at h
      · cases h
      · next w2 err h2 =>
        cases h
        exact .more (.more .new h1) h2

theorem complains_start {source : Bytes} (h0 : source ≠ []) {rs : List Run} {t : Bytes} (h : Complains source rs t) :
    ∃ u, t = source ++ b!"." ++ u := by
  obtain ⟨_, _, _, e, _, rfl⟩ := h
  exact ⟨_, by unfold testOf; rw [if_pos h0]⟩

/-- C100 for the server: the menu of tests of the verification run has the tests with which that run found warnings, and no others,
each once and in the order of the names shown, whatever was asked before and in whatever order maps are visited; the menu of
benchmark tests has the tests with results, likewise; and no test is in both. -/
theorem C100_menus_partial {F : Type} {E : Env} (hL : LowersLib E.lib) {fl : Floats F} {S : Sorter} {pick names : List Bytes → List Bytes}
    (hp : ∀ l, (pick l).Perm l) {bench verify : Bytes} {b : Bench F} {rs vs : List Run}
    (hg : Setup.Given E fl S pick bench verify b (b.handlerLookup names).2 rs vs) {ds : List (Data F)}
    (hh : BenchData.History fl [bench] ds) :
    ∃ b' w, setup E fl names {} {} bench verify = some (b', w, false) ∧
      ∀ l pick', Asked S w l → (∀ l, (pick' l).Perm l) →
        Menu (warnTestName w) (Complains b!"Verify" vs) (w.testTagsForSource S pick' l b!"Verify").2 ∧
        Menu b'.testName (fun t => ∃ d ∈ ds, BenchData.tagOf d = t) (b'.testTags S pick').2 ∧
        ∀ t ∈ (w.testTagsForSource S pick' l b!"Verify").2, t ∉ (b'.testTags S pick').2 := by
  obtain ⟨w, hw, hv⟩ := C64_server_partial hL hp hg
  refine ⟨_, w, hw, fun l pick' ha hp' => ?_⟩
  have hm := C100_source_partial (setup_read hw) ha hp' b!"Verify" (by
    intro s e
    have := congrArg List.getLast? e
    rw [List.getLast?_append] at this
    simp at this)
  have hV : Menu (warnTestName w) (Complains b!"Verify" vs) (w.testTagsForSource S pick' l b!"Verify").2 := by
    refine ⟨hm.once, fun t => ?_, hm.order⟩
    rw [hm.all, tests_both hv]
    constructor
    · rintro ⟨⟨u, rfl⟩, h | h⟩
      · obtain ⟨v, e⟩ := complains_start (by decide) h
        exact absurd (congrArg List.head? e) (by simp)
      · exact h
    · exact fun h => ⟨complains_start (by decide) h, .inr h⟩
  have hb : b = BenchData.readAll E fl [bench] := by
    have := hg.results
    unfold BenchData.readAll
    simp only [List.foldl_cons, List.foldl_nil, this]
  obtain ⟨_, t1, t2, t3⟩ := BenchData.C37_tags E fl S pick' hp' [bench] ds hh b hb
  have eT : ((b.handlerLookup names).1.testTags S pick').2 = (b.testTags S pick').2 ∧ (b.handlerLookup names).1.testName = b.testName := by
    unfold Bench.handlerLookup
    split
    · exact ⟨rfl, rfl⟩
    · constructor
      · unfold Bench.testTags
        cases b.tests <;> rfl
      · rfl
  refine ⟨hV, ?_, fun t ht hb => ?_⟩
  · rw [eT.1, eT.2]
    exact ⟨t2, t1, t3⟩
  · rw [eT.1, t1] at hb
    obtain ⟨d, _, rfl⟩ := hb
    obtain ⟨u, e⟩ := complains_start (by decide) ((hV.all _).1 ht)
    exact absurd (congrArg List.head? e) (by simp [BenchData.tagOf])

/-- C100 in full: every test under which a warning is filed is in one of the menus. -/
def C100_statement {F : Type} (fl : Floats F) : Prop := ∀ (E : Env), LowersLib E.lib → ∀ (S : Sorter) (pick names : List Bytes → List Bytes),
  (∀ l, (pick l).Perm l) → ∀ (bench verify : Bytes) (b : Bench F) (rs vs : List Run),
    Setup.Given E fl S pick bench verify b (b.handlerLookup names).2 rs vs →
    ∃ b' w, setup E fl names {} {} bench verify = some (b', w, false) ∧
      ∀ t, Complains b!"Bench" rs t ∨ Complains b!"Verify" vs t →
        t ∈ (w.testTagsForSource S pick [] b!"Verify").2 ∨ t ∈ (b'.testTags S pick).2

open Setup in
/-- C100 does not hold in full: a benchmark of which there are warnings but no results, as one that was left out, is in no menu. -/
theorem C100_fails : ¬ C100_statement BenchData.terms := by
  intro h
  have hg := ver_given
  rw [← some_lookup] at hg
  obtain ⟨b', w, hw, ha⟩ := h someEnv ⟨_, Verif.Letters.some_lowers⟩ someSorter id id (fun l => .refl l) _ _ _ _ _ hg
  have hk : ((setup someEnv BenchData.terms id {} {} someBench someVerify).map fun r =>
      (r.2.1.testTagsForSource someSorter id [] b!"Verify").2 ++ (r.1.testTags someSorter id).2) =
        some [b!"Verify.Case", b!"Verify.Other", b!"Bench.Simple"] := by decide +kernel
  rw [hw] at hk
  have hk := Option.some.inj hk
  dsimp only at hk
  have := ha b!"Bench.Case" (.inl ⟨someRun, by simp, b!"Duplicates",
    ⟨⟨4, b!"Duplicates", b!"Duplicate field(s) found", []⟩, b!"TestCase", b!"2x[Alpha]\n  more", b!"{\"a\": 1}\n"⟩, by
      rw [some_events]; exact List.Mem.head _, by decide +kernel⟩)
  rw [← List.mem_append, hk] at this
  exact absurd this (by decide)

open Setup in
/-- A source named with the separator has no tests: the separator the function looks for is not the one tags have. -/
theorem C100_separator : ((setup someEnv BenchData.terms id {} {} someBench someVerify).map fun r =>
    [b!"Verify", b!"Verify.", b!"Verify:", b!"Bench", b!"Bench."].map fun s => (r.2.1.testTagsForSource someSorter id [] s).2) =
      some [[b!"Verify.Case", b!"Verify.Other"], [], [], [b!"Bench.Case", b!"Bench.Other"], []] := by decide +kernel

open Setup in
/-- The hypotheses are met. -/
example : ∃ b' w, setup someEnv BenchData.terms id {} {} someBench someVerify = some (b', w, false) ∧
    ∀ t, t ∈ (w.testTagsForSource someSorter List.reverse [] b!"Verify").2 ↔ Complains b!"Verify" [verRun] t := by
  have hg := ver_given
  rw [← some_lookup] at hg
  obtain ⟨ds, hh⟩ := BenchData.history_total BenchData.terms [someBench]
  obtain ⟨b', w, hw, h⟩ := C100_menus_partial (E := someEnv) ⟨_, Verif.Letters.some_lowers⟩ (fun l => .refl l) hg hh
  exact ⟨b', w, hw, (h [] List.reverse .never List.reverse_perm).1.all⟩

end Verif.Props.TestMenu
