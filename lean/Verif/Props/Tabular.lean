import Verif.Data.Tabular
import Verif.Props.BenchData
import Verif.Props.WarnViews
import Verif.Props.WarnScore

/-
C83 and C84: what the command tabular prints.
-/

namespace Verif.Props.Tabular
open Go Verif.Warning Verif.Data Verif.Props.BenchData

variable {F : Type}

/-! ### Tables -/

theorem handlerTags_again (S : Sorter) (pick : List Bytes → List Bytes) (b : Bench F) :
    ((b.handlerTags S pick).1.handlerTags S pick).2 = (b.handlerTags S pick).2 ∧
    (∀ t, (b.handlerTags S pick).1.handlerRecordsFor t = b.handlerRecordsFor t) := by
  unfold Bench.handlerTags
  cases h : b.handlers with
  | some l => simp only [h]; exact ⟨trivial, fun _ => trivial⟩
  | none =>
    dsimp only
    refine ⟨?_, fun _ => rfl⟩
    cases hc : (collect (pick b.byHandler.keys)).map (S.sort fun i j => less (b.handlerName i) (b.handlerName j)) with
    | some l => rfl
    | none =>
      dsimp only
      have : ({ b with handlers := none } : Bench F) = b := by cases b; cases h; rfl
      rw [this]
      rw [hc]

theorem tablesFrom_eq (S : Sorter) (pick : List Bytes → List Bytes) : ∀ (ts : List Bytes) (b : Bench F),
    tablesFrom S pick b ts = ts.map fun t => (t, (b.handlerTags S pick).2.filterMap (rowFor (b.handlerRecordsFor t)))
  | [], _ => rfl
  | t :: ts, b => by
    obtain ⟨h1, h2⟩ := handlerTags_again S pick b
    rw [tablesFrom, tablesFrom_eq S pick ts, List.map_cons, h1]
    simp only [h2]

theorem testTags_handlers (S : Sorter) (pick : List Bytes → List Bytes) (b : Bench F) :
    ((b.testTags S pick).1.handlerTags S pick).2 = (b.handlerTags S pick).2 ∧
    (∀ t, (b.testTags S pick).1.handlerRecordsFor t = b.handlerRecordsFor t) := by
  unfold Bench.testTags
  cases h : b.tests with
  | some l => exact ⟨rfl, fun _ => rfl⟩
  | none =>
    dsimp only
    refine ⟨?_, fun _ => rfl⟩
    unfold Bench.handlerTags
    dsimp only
    cases b.handlers with
    | some l => rfl
    | none => rfl

theorem tables_eq (S : Sorter) (pick : List Bytes → List Bytes) (b : Bench F) :
    b.tables S pick = (b.testTags S pick).2.map fun t => (t, (b.handlerTags S pick).2.filterMap (rowFor (b.handlerRecordsFor t))) := by
  obtain ⟨h1, h2⟩ := testTags_handlers S pick b
  unfold Bench.tables
  rw [tablesFrom_eq, h1]
  simp only [h2]

theorem row_some {recs : Map Bytes (Record F)} {h : Bytes} {x : Bytes × Record F} :
    rowFor recs h = some x ↔ ∃ r, recs.get h = some r ∧ r.runs ≠ 0 ∧ x = (h, r) := by
  unfold rowFor
  cases recs.get h with
  | none => simp
  | some r =>
    dsimp only
    by_cases hr : r.runs = 0
    · rw [if_pos hr]; simp [hr]
    · rw [if_neg hr]; simp [hr, eq_comm]

theorem rows_tags (recs : Map Bytes (Record F)) : ∀ hs : List Bytes, ((hs.filterMap (rowFor recs)).map Prod.fst).Sublist hs
  | [] => .slnil
  | h :: hs => by
    rw [List.filterMap_cons]
    cases hr : rowFor recs h with
    | none => exact (rows_tags recs hs).cons _
    | some x =>
      obtain ⟨r, _, _, rfl⟩ := row_some.1 hr
      exact (rows_tags recs hs).cons_cons _

/-- C83: for all texts, there is one table for each test with results, in the order of their names; it has one row for each handler whose
last result for the test has runs, in the order of their names; and the row shows that result. -/
theorem C83_tables (E : Env) (fl : Floats F) (S : Sorter) (pick : List Bytes → List Bytes) (hp : ∀ l, (pick l).Perm l) (texts : List Bytes)
    (ds : List (Data F)) (hh : History fl texts ds) (b : Bench F) (hb : b = readAll E fl texts) :
    (∀ t, t ∈ (b.tables S pick).map Prod.fst ↔ ∃ d ∈ ds, tagOf d = t) ∧ ((b.tables S pick).map Prod.fst).Nodup ∧
    ((b.tables S pick).map Prod.fst).Pairwise (fun i j => less (b.testName j) (b.testName i) = false) ∧
    ∀ t rows, (t, rows) ∈ b.tables S pick →
      (rows.map Prod.fst).Nodup ∧ (rows.map Prod.fst).Pairwise (fun i j => less (b.handlerName j) (b.handlerName i) = false) ∧
      ∀ h r, (h, r) ∈ rows ↔ ∃ d, lastFor ds h t = some d ∧ d.runs ≠ 0 ∧
        r = ⟨d.runs, d.nsOps, d.bytesOp, d.allocsOp, d.mbSec, fl.kilo d.mbSec, fl.mega d.mbSec⟩ := by
  obtain ⟨⟨h1, h2, h3⟩, h4, h5, h6⟩ := C37_tags E fl S pick hp texts ds hh b hb
  have hm : (b.tables S pick).map Prod.fst = (b.testTags S pick).2 := by
    rw [tables_eq, List.map_map]
    exact List.map_id _
  rw [hm]
  refine ⟨h4, h5, h6, fun t rows hr => ?_⟩
  rw [tables_eq] at hr
  obtain ⟨t', _, e⟩ := List.mem_map.1 hr
  injection e with e1 e2
  subst e1; subst e2
  have hs := rows_tags (b.handlerRecordsFor t') (b.handlerTags S pick).2
  refine ⟨hs.nodup h2, h3.sublist hs, fun h r => ?_⟩
  rw [List.mem_filterMap]
  have hv : ∀ h, (b.handlerRecordsFor t').get h = (lastFor ds h t').map (fullRecord fl) := by
    intro h
    obtain ⟨ws, ha⟩ := history_after (E := E) hh {}
    obtain ⟨h1, _⟩ := after_views ha h t'
    rw [hb]; unfold readAll; rw [h1]
  constructor
  · rintro ⟨h', _, hr⟩
    obtain ⟨r', hg, hn, e⟩ := row_some.1 hr
    injection e with e1 e2
    subst e1; subst e2
    rw [hv, Option.map_eq_some_iff] at hg
    obtain ⟨d, hd, rfl⟩ := hg
    exact ⟨d, hd, hn, rfl⟩
  · rintro ⟨d, hd, hn, rfl⟩
    have hm : d ∈ ds ∧ d.handler = h := by
      unfold lastFor at hd
      have := List.mem_filter.1 (List.mem_of_getLast? hd)
      exact ⟨this.1, (of_decide_eq_true this.2).1⟩
    refine ⟨h, (h1 h).2 ⟨d, hm.1, hm.2⟩, row_some.2 ⟨_, ?_, hn, rfl⟩⟩
    rw [hv, hd]; rfl

/-- A case for `C83_tables`. -/
example (E : Env) (S : Sorter) : ∃ rows, (b!"Bench.Big_Group", rows) ∈ (readAll E terms [someLine ++ b!"\n# Warning\n"]).tables S id ∧
    rows.map (fun r => (r.1, r.2.runs, r.2.memBytesPerOp)) = [(b!"Phsym", 100, 16)] := by
  obtain ⟨h1, _, _, h4⟩ := C83_tables E terms S id (fun l => .refl l) _ _ (someLine_reads terms rfl rfl) _ rfl
  obtain ⟨⟨t, rows⟩, hm, e⟩ := List.mem_map.1 ((h1 b!"Bench.Big_Group").2 ⟨_, List.mem_singleton.2 rfl, rfl⟩)
  subst e
  obtain ⟨h5, _, h7⟩ := h4 _ _ hm
  refine ⟨rows, hm, ?_⟩
  have h8 := (h7 b!"Phsym" ⟨100, .num b!"12.5", 16, 3, .num b!"2.5", terms.kilo (.num b!"2.5"), terms.mega (.num b!"2.5")⟩).2
    ⟨⟨b!"Phsym", b!"Big_Group", 8, 100, .num b!"12.5", 3, 16, .num b!"2.5"⟩, rfl, by decide, rfl⟩
  have h9 : ∀ x ∈ rows, x.1 = b!"Phsym" := by
    rintro ⟨h, r⟩ hx
    obtain ⟨d, hd, _⟩ := (h7 h r).1 hx
    unfold lastFor at hd
    have := List.mem_filter.1 (List.mem_of_getLast? hd)
    have h10 := (of_decide_eq_true this.2).1
    rw [List.mem_singleton.1 this.1] at h10
    exact h10.symm
  match rows, h8, h9, h5 with
  | [x], h8, _, _ => rw [← List.mem_singleton.1 h8]; rfl
  | x :: y :: rows, _, h9, h5 =>
    have e1 := h9 x (by simp)
    have e2 := h9 y (by simp)
    simp [e1, e2] at h5

/-! ### Listing -/

theorem read_sound {E : Env} {w : Warns} (h : WarnViews.Read E w) : Sound w := by
  induction h with
  | new => exact sound_new
  | more _ hp ih => exact parse_sound ih hp

theorem level_injective {a b : Nat} (ha : a ∈ levelOrder) (hb : levelText b = levelText a) : b = a := by
  by_cases hm : b ∈ levelOrder
  · have h1 : b = 4 ∨ b = 3 ∨ b = 2 ∨ b = 1 := by simpa [levelOrder] using hm
    have h2 : a = 4 ∨ a = 3 ∨ a = 2 ∨ a = 1 := by simpa [levelOrder] using ha
    rcases h1 with rfl | rfl | rfl | rfl <;> rcases h2 with rfl | rfl | rfl | rfl <;> first | rfl | exact absurd hb (by decide)
  · exfalso
    have h1 : levelText b = b!"Unknown level " ++ Slog.decNat b := by
      unfold levelText levelName
      simp only [levelOrder, List.mem_cons, List.not_mem_nil, or_false, not_or] at hm
      rw [if_neg hm.2.2.2, if_neg hm.2.2.1, if_neg hm.2.1, if_neg hm.1]
    rw [h1] at hb
    have h2 : a = 4 ∨ a = 3 ∨ a = 2 ∨ a = 1 := by simpa [levelOrder] using ha
    rcases h2 with rfl | rfl | rfl | rfl <;> exact absurd (congrArg List.head? hb) (by simp [levelText, levelName])

/-- What is listed under a level. -/
theorem mem_warnings {S : Sorter} {pick : List Bytes → List Bytes} (hp : ∀ l, (pick l).Perm l) {heap : List DWarn} {d : DLevel} {x : DWarn} :
    x ∈ d.warnings S pick heap ↔ ∃ n id, d.lookup.get n = some id ∧ heap[id]? = some x := by
  unfold DLevel.warnings
  rw [(S.perm _ _).mem_iff, List.mem_filterMap]
  constructor
  · rintro ⟨n, _, h⟩
    obtain ⟨id, h1, h2⟩ := Option.bind_eq_some_iff.1 h
    exact ⟨n, id, h1, h2⟩
  · rintro ⟨n, id, h1, h2⟩
    refine ⟨n, (hp _).mem_iff.2 ((Map.mem_keys _ _).2 (by rw [h1]; rfl)), ?_⟩
    rw [h1]; exact h2

theorem names_warnings {heap : List DWarn} {d : DLevel} (hn : ∀ n id, d.lookup.get n = some id → (heap[id]?).map DWarn.name = some n) :
    ∀ ns : List Bytes, ((ns.filterMap fun n => (d.lookup.get n).bind fun id => heap[id]?).map DWarn.name).Sublist ns
  | [] => .slnil
  | n :: ns => by
    rw [List.filterMap_cons]
    cases h : (d.lookup.get n).bind fun id => heap[id]? with
    | none => exact (names_warnings hn ns).cons _
    | some x =>
      obtain ⟨id, h1, h2⟩ := Option.bind_eq_some_iff.1 h
      have := hn n id h1
      rw [h2] at this
      have e : x.name = n := by simpa using this
      dsimp only
      rw [List.map_cons, e]
      exact (names_warnings hn ns).cons_cons _

/-- The names under a level, strictly in order. -/
theorem warnings_ordered {S : Sorter} {pick : List Bytes → List Bytes} (hp : ∀ l, (pick l).Perm l) {heap : List DWarn} {d : DLevel}
    (hd : d.lookup.keys.Nodup) (hn : ∀ n id, d.lookup.get n = some id → (heap[id]?).map DWarn.name = some n) :
    (d.warnings S pick heap).Pairwise fun a b => less a.name b.name = true := by
  have h1 : ((d.warnings S pick heap).map DWarn.name).Nodup := by
    unfold DLevel.warnings
    rw [((S.perm _ _).map _).nodup_iff]
    exact (names_warnings hn _).nodup ((hp _).nodup_iff.2 hd)
  have h2 := S.sorted (fun i j : DWarn => less i.name j.name) ((pick d.lookup.keys).filterMap fun n => (d.lookup.get n).bind fun id => heap[id]?)
    (less_weak.comap DWarn.name)
  refine (h2.and (List.pairwise_map.1 h1)).imp ?_
  rintro a b ⟨h3, h4⟩
  rcases less_total a.name b.name with h | h | h
  · exact h
  · exact absurd h h4
  · rw [h] at h3; cases h3

theorem levels_ordered (ls : Levels) (hl : ∀ k d, ls.lookup.get k = some d → LevelOk k d) :
    ls.levels.Pairwise fun a b => a.level > b.level := by
  unfold Levels.levels
  have h0 : levelOrder.Pairwise fun a b : Nat => a > b := by decide
  have h1 : ∀ l ∈ levelOrder, ∀ d, ls.level l = some d → d.level = l := fun l hm d h => level_injective hm (hl _ _ h).text
  rw [List.pairwise_filterMap]
  refine h0.imp_of_mem ?_
  intro a b ha hb hab d hd d' hd'
  rw [h1 a ha d hd, h1 b hb d' hd']
  exact hab

/-- C84: for all texts read, every handler with warnings is listed once, in the order of the names; under it every warning of the four
levels once, from required to administrative and there by name; and with it all its instances by name, as many as its line says. -/
theorem C84_listing_partial {E : Env} {w : Warns} (hw : WarnViews.Read E w) (S : Sorter) (pick : List Bytes → List Bytes) (hp : ∀ l, (pick l).Perm l) :
    (∀ h, h ∈ w.handlerTags S pick ↔ ∃ ls, w.byHandler.get h = some ls) ∧ (w.handlerTags S pick).Nodup ∧
    (w.handlerTags S pick).Pairwise (fun i j => less (w.handlerTitle j) (w.handlerTitle i) = false) ∧
    ∀ h, (∀ l x, (∃ e ∈ w.entries S pick h, e.level = l ∧ e.warn = x) ↔ l ∈ levelOrder ∧ w.look h (levelText l) x.name = some x) ∧
      (w.entries S pick h).Pairwise (fun a b => a.level > b.level ∨ a.level = b.level ∧ less a.warn.name b.warn.name = true) ∧
      ∀ e ∈ w.entries S pick h, e.instances.Perm e.warn.instances ∧ (e.instances.Pairwise fun i j => less j.name i.name = false) ∧
        entryText e = b!"  " ++ pad4 e.warn.instances.length ++ b!" [" ++ e.warn.name ++ b!"] " ++ e.warn.summary ++ b!"\n" ++
          e.instances.flatMap instText := by
  have hs := read_sound hw
  refine ⟨fun h => ?_, ?_, S.sorted _ _ (less_weak.comap w.handlerTitle), fun h => ?_⟩
  · unfold Warns.handlerTags
    rw [(S.perm _ _).mem_iff, (hp _).mem_iff, Map.mem_keys, Option.isSome_iff_exists]
  · unfold Warns.handlerTags
    rw [(S.perm _ _).nodup_iff, (hp _).nodup_iff]
    exact hs.keys
  · unfold Warns.entries
    cases hg : w.byHandler.get h with
    | none =>
      dsimp only
      refine ⟨fun l x => ?_, .nil, by simp⟩
      simp [Warns.look, Warns.hid, hg]
    | some ls =>
      dsimp only
      have hl : ∀ k d, ls.lookup.get k = some d → LevelOk k d := fun k d => hs.level h ls k d hg
      have hid : ∀ k d n id, ls.lookup.get k = some d → d.lookup.get n = some id → w.hid h k n = some id := by
        intro k d n id h1 h2
        unfold Warns.hid Levels.id
        rw [hg, Option.bind_some, h1]; exact h2
      have hn : ∀ k d, ls.lookup.get k = some d → ∀ n id, d.lookup.get n = some id → (w.heap[id]?).map DWarn.name = some n :=
        fun k d h1 n id h2 => hs.inv.hname _ _ _ _ (hid k d n id h1 h2)
      refine ⟨fun l x => ?_, ?_, ?_⟩
      · constructor
        · rintro ⟨e, he, rfl, rfl⟩
          obtain ⟨d, hd, he⟩ := List.mem_flatMap.1 he
          obtain ⟨x, hx, rfl⟩ := List.mem_map.1 he
          obtain ⟨l, hm, hd⟩ := List.mem_filterMap.1 hd
          obtain ⟨n, id, h1, h2⟩ := (mem_warnings hp).1 hx
          have e1 : d.level = l := level_injective hm (hl _ _ hd).text
          have e2 : x.name = n := by
            have := hn _ _ hd n id h1
            rw [h2] at this
            simpa using this
          dsimp only
          rw [e1, e2]
          refine ⟨hm, ?_⟩
          unfold Warns.look
          rw [hid _ _ _ _ hd h1]; exact h2
        · rintro ⟨hm, hx⟩
          unfold Warns.look Warns.hid Levels.id at hx
          rw [hg, Option.bind_some] at hx
          obtain ⟨id, hx1, hx⟩ := Option.bind_eq_some_iff.1 hx
          obtain ⟨d, hd, hx1⟩ := Option.bind_eq_some_iff.1 hx1
          refine ⟨⟨d.level, x, x.sorted S⟩, List.mem_flatMap.2 ⟨d, List.mem_filterMap.2 ⟨l, hm, hd⟩, List.mem_map.2 ⟨x, (mem_warnings hp).2 ⟨_, id, hx1, hx⟩, rfl⟩⟩,
            level_injective hm (hl _ _ hd).text, rfl⟩
      · rw [List.pairwise_flatMap]
        constructor
        · intro d hd
          obtain ⟨l, hm, hd⟩ := List.mem_filterMap.1 hd
          rw [List.pairwise_map]
          exact (warnings_ordered hp (hl _ _ hd).nodup (hn _ _ hd)).imp fun h => .inr ⟨rfl, h⟩
        · refine (levels_ordered ls hl).imp ?_
          intro a b hab x hx y hy
          obtain ⟨_, _, rfl⟩ := List.mem_map.1 hx
          obtain ⟨_, _, rfl⟩ := List.mem_map.1 hy
          exact .inl hab
      · intro e he
        obtain ⟨d, hd, he⟩ := List.mem_flatMap.1 he
        obtain ⟨x, hx, rfl⟩ := List.mem_map.1 he
        have hperm : (x.sorted S).Perm x.instances := S.perm _ _
        refine ⟨hperm, S.sorted _ _ (less_weak.comap DInst.name), ?_⟩
        unfold entryText
        dsimp only
        rw [hperm.length_eq]

/-- The data of the case. -/
theorem case_read : WarnViews.Read WarnScore.caseEnv (WarnScore.readCase WarnScore.caseText) := .more .new WarnScore.read_case

/-- A case for `C84_listing_partial`: two warnings are listed for the handler a, the required one first. -/
example : (WarnScore.readCase WarnScore.caseText).handlerTags someSorter id = [b!"a", b!"b"] ∧
    ((WarnScore.readCase WarnScore.caseText).entries someSorter id b!"a").map (fun e => (e.level, e.warn.name, e.instances.length)) =
      [(4, b!"Alpha", 1), (2, b!"Gamma", 1)] := by decide +kernel

theorem flatMap_filterMap {α β γ : Type} (f : α → Option β) (g : β → List γ) : ∀ l : List α,
    (l.filterMap f).flatMap g = l.flatMap fun a => ((f a).map g).getD []
  | [] => rfl
  | a :: l => by
    rw [List.filterMap_cons, List.flatMap_cons, ← flatMap_filterMap f g l]
    cases f a <;> simp

theorem flatMap_only {α γ : Type} [DecidableEq α] (f : α → List γ) (a : α) : ∀ {l : List α}, l.Nodup → a ∈ l →
    (l.flatMap fun x => if x = a then f x else []) = f a
  | b :: l, hn, hm => by
    rw [List.nodup_cons] at hn
    rw [List.flatMap_cons]
    by_cases h : b = a
    · subst h
      rw [if_pos rfl]
      have : (l.flatMap fun x => if x = b then f x else []) = [] := by
        rw [List.flatMap_eq_nil_iff]
        intro x hx
        rw [if_neg]
        rintro rfl
        exact hn.1 hx
      rw [this, List.append_nil]
    · rw [if_neg h, List.nil_append]
      exact flatMap_only f a hn.2 ((List.mem_cons.1 hm).resolve_left (Ne.symm h))

/-- C84: for all texts read, the listing is made of the warnings of the handlers in order, with a heading for exactly the levels that have
any. -/
theorem C84_text {E : Env} {w : Warns} (hw : WarnViews.Read E w) (S : Sorter) (pick : List Bytes → List Bytes) (hp : ∀ l, (pick l).Perm l) :
    w.listing S pick = (w.handlerTags S pick).flatMap fun h => b!"\nWarnings for " ++ w.handlerTitle h ++ b!":\n" ++
      levelOrder.flatMap fun l =>
        if (w.entries S pick h).filter (fun e => decide (e.level = l)) = [] then []
        else b!"  " ++ levelText l ++ b!"\n" ++ ((w.entries S pick h).filter fun e => decide (e.level = l)).flatMap entryText := by
  have hs := read_sound hw
  unfold Warns.listing
  rw [List.flatMap_congr]
  intro h _
  congr 1
  cases hg : w.byHandler.get h with
  | none => simp [Warns.entries, hg]
  | some ls =>
    dsimp only
    have hen : w.entries S pick h =
        levelOrder.flatMap fun a => ((ls.level a).map fun d => (d.warnings S pick w.heap).map fun x => (⟨d.level, x, x.sorted S⟩ : Entry)).getD [] := by
      unfold Warns.entries
      rw [hg]
      exact flatMap_filterMap _ _ _
    unfold Levels.levels
    rw [flatMap_filterMap]
    apply List.flatMap_congr
    intro l hl
    have hlev : ∀ a ∈ levelOrder, ∀ d, ls.level a = some d → d.level = a := fun a hm d hd => level_injective hm (hs.level h ls _ _ hg hd).text
    have hf : (levelOrder.flatMap fun a => ((ls.level a).map fun d => (d.warnings S pick w.heap).map fun x => (⟨d.level, x, x.sorted S⟩ : Entry)).getD []).filter
        (fun e => decide (e.level = l)) =
        ((ls.level l).map fun d => (d.warnings S pick w.heap).map fun x => (⟨d.level, x, x.sorted S⟩ : Entry)).getD [] := by
      rw [List.filter_flatMap, ← flatMap_only (fun a => ((ls.level a).map fun d => (d.warnings S pick w.heap).map fun x => (⟨d.level, x, x.sorted S⟩ : Entry)).getD []) l
        (by decide) hl]
      apply List.flatMap_congr
      intro a ha
      cases hd : ls.level a with
      | none => simp
      | some d =>
        have e := hlev a ha d hd
        by_cases h : a = l
        · rw [if_pos h]
          apply List.filter_eq_self.2
          intro x hx
          obtain ⟨y, _, rfl⟩ := List.mem_map.1 hx
          simp [e, h]
        · rw [if_neg h, List.filter_eq_nil_iff]
          intro x hx
          obtain ⟨y, _, rfl⟩ := List.mem_map.1 hx
          simp [e, h]
    rw [← hen] at hf
    cases hd : ls.level l with
    | none => rw [hd, Option.map_none, Option.getD_none] at hf; rw [if_pos hf]; rfl
    | some d =>
      have hok := hs.level h ls _ _ hg hd
      have hne : (d.warnings S pick w.heap).map (fun x => (⟨d.level, x, x.sorted S⟩ : Entry)) ≠ [] := by
        rw [Ne, List.map_eq_nil_iff]
        obtain ⟨⟨n, id⟩, hm⟩ := List.exists_mem_of_ne_nil _ hok.ne
        have h1 := Map.get_of_mem hok.nodup hm
        have h2 : w.hid h (levelText l) n = some id := by
          unfold Warns.hid Levels.id
          rw [hg, Option.bind_some, show ls.lookup.get (levelText l) = some d from hd]; exact h1
        obtain ⟨x, hx, _⟩ := Option.map_eq_some_iff.1 (hs.inv.hname _ _ _ _ h2)
        exact List.ne_nil_of_mem ((mem_warnings (S := S) hp).2 ⟨n, id, h1, hx⟩)
      rw [hd, Option.map_some, Option.getD_some] at hf
      rw [if_neg (by rw [hf]; exact hne), hf]
      simp only [Option.map_some, Option.getD_some]
      unfold levelBlock
      rw [hlev l hl d hd, List.flatMap_map]

/-- A case for `C84_text`. -/
example : ((WarnScore.readCase WarnScore.caseText).entries someSorter id b!"a").filter (fun e => decide (e.level = 3)) = [] ∧
    ((WarnScore.readCase WarnScore.caseText).entries someSorter id b!"a").filter (fun e => decide (e.level = 2)) ≠ [] ∧
    entryText ⟨4, ⟨b!"Alpha", b!"x", []⟩, [⟨b!"TestOne", [], b!"One", b!"t", [], []⟩]⟩ = b!"     1 [Alpha] x\n         TestOne: t\n" := by
  refine ⟨by decide +kernel, by decide +kernel, ?_⟩
  simp [entryText, pad4, Slog.decNat, instText, instLine, Gin.trim]

/-- The listing in full: all data that is found. -/
def C84_statement : Prop :=
  ∀ (E : Env) (w : Warns), WarnViews.Read E w → ∀ (S : Sorter) (pick : List Bytes → List Bytes), (∀ l, (pick l).Perm l) →
    ∀ h lt x, w.look h lt x.name = some x → ∃ e ∈ w.entries S pick h, levelText e.level = lt ∧ e.warn = x

/-- A report without a line for the level. -/
def strayText : Bytes := b!"Warnings for x:\n 1 [Stray] s\n  TestF: t\n"

/-- C84 is false for warnings read before a level was. -/
theorem C84_fails : ¬ C84_statement := by
  intro hall
  have hr : WarnViews.Read WarnScore.caseEnv (WarnScore.readCase strayText) :=
    .more (source := []) (text := strayText) (lookup := []) (err := false) .new (by decide +kernel)
  have h0 : (WarnScore.readCase strayText).entries someSorter id b!"x" = [] := by decide +kernel
  have h1 : ((WarnScore.readCase strayText).byHandler.get b!"x").map (fun ls => ls.lookup.map Prod.snd) = some [⟨0, [(b!"Stray", 0)]⟩] := by decide +kernel
  have h2 : ((WarnScore.readCase strayText).heap[0]?).map DWarn.name = some b!"Stray" := by decide +kernel
  generalize WarnScore.readCase strayText = w at *
  obtain ⟨ls, hg, hl⟩ := Option.map_eq_some_iff.1 h1
  obtain ⟨⟨k, d⟩, he, rfl⟩ := List.map_eq_singleton_iff.1 hl
  obtain ⟨x, hx, hname⟩ := Option.map_eq_some_iff.1 h2
  obtain ⟨e, he, _⟩ := hall _ _ hr someSorter id (fun l => .refl l) b!"x" k x (by
    unfold Warns.look Warns.hid Levels.id
    rw [hg, Option.bind_some, he, hname]
    simp [Map.get, hx])
  rw [h0] at he
  cases he

/-! ### Instances -/

/-- Lines joined. -/
def joined : List Bytes → Bytes
  | [] => []
  | [l] => l
  | l :: ls => l ++ 0x0A :: joined ls

theorem indent_plain : ∀ {l : Bytes}, (0x0A : UInt8) ∉ l → ∀ s, indentLines (l ++ s) = l ++ indentLines s
  | [], _, _ => rfl
  | c :: l, h, s => by
    have hc : c ≠ 0x0A := fun e => h (by simp [e])
    rw [List.cons_append, indentLines, if_neg hc, indent_plain (fun hm => h (List.mem_cons_of_mem _ hm)) s, List.cons_append]

theorem indent_joined : ∀ (l : Bytes) (ls : List Bytes), (∀ x ∈ l :: ls, (0x0A : UInt8) ∉ x) →
    b!"           " ++ indentLines (joined (l :: ls)) ++ b!"\n" = (l :: ls).flatMap fun x => b!"           " ++ x ++ b!"\n"
  | l, [], h => by
    have := indent_plain (h l (by simp)) []
    rw [List.append_nil] at this
    rw [joined, this]
    simp [indentLines]
  | l, l' :: ls, h => by
    have ih := indent_joined l' ls fun x hx => h x (List.mem_cons_of_mem _ hx)
    rw [joined, indent_plain (h l (by simp)), indentLines, if_pos rfl, List.flatMap_cons, ← ih]
    · simp
    · simp

theorem drop_nil (c : UInt8) : ∀ s : Bytes, s.dropWhile (· == c) = [] ↔ ∀ x ∈ s, x = c
  | [] => by simp
  | a :: s => by
    rw [List.dropWhile_cons]
    by_cases h : a = c
    · rw [if_pos (by simp [h]), drop_nil c s]; simp [h]
    · rw [if_neg (by simp [h])]; simp [h]

theorem trim_ne (c : UInt8) (s : Bytes) : (Gin.trim c s).length > 0 ↔ ∃ x ∈ s, x ≠ c := by
  unfold Gin.trim
  rw [List.length_reverse, gt_iff_lt, List.length_pos_iff, Ne, drop_nil]
  constructor
  · intro h
    by_contra hc
    apply h
    intro x hx
    have hx : x ∈ s := (List.dropWhile_sublist _).subset (List.mem_reverse.1 hx)
    by_contra hn
    exact hc ⟨x, hx, hn⟩
  · rintro ⟨x, hx, hn⟩ hall
    have h1 : s.dropWhile (· == c) ≠ [] := fun h => hn ((drop_nil c s).1 h x hx)
    have h2 := List.head_dropWhile_not (· == c) h1
    have h3 := hall _ (List.mem_reverse.2 (List.head_mem h1))
    rw [h3] at h2
    simp at h2

/-- C84: for all instances, the listing shows where it was (after the source if there is one), then the text added: on the same line if it
has one line, and otherwise each line on a line of its own, in order and indented; and then the log line if there is one. -/
theorem C84_instance (i : DInst) (ls : List Bytes) (hn : ∀ l ∈ ls, (0x0A : UInt8) ∉ l) (he : i.extra = joined ls) (place tail : Bytes)
    (hp : place = (if ∃ c ∈ i.source, c ≠ 0x20 then i.source ++ b!":" ++ i.tag else i.tag))
    (ht : tail = (if i.line = [] then [] else b!"           " ++ i.line ++ b!"\n")) :
    instText i = b!"         " ++ place ++
      (if i.extra = [] then b!"\n" else if ls.length = 1 then b!": " ++ i.extra ++ b!"\n"
        else b!": \n" ++ ls.flatMap fun l => b!"           " ++ l ++ b!"\n") ++ tail := by
  have e1 : (if (Gin.trim 0x20 i.source).length > 0 then i.source ++ b!":" ++ i.tag else i.tag) = place := by
    rw [hp]
    by_cases h : ∃ c ∈ i.source, c ≠ 0x20
    · rw [if_pos h, if_pos ((trim_ne _ _).2 h)]
    · rw [if_neg h, if_neg (fun hc => h ((trim_ne _ _).1 hc))]
  have e2 : (if i.line ≠ [] then b!"           " ++ i.line ++ b!"\n" else []) = tail := by
    rw [ht]
    by_cases h : i.line = []
    · rw [if_pos h, if_neg (not_not.2 h)]
    · rw [if_neg h, if_pos h]
  unfold instText instLine
  rw [e1, e2]
  dsimp only
  by_cases hx : i.extra = []
  · rw [if_pos hx, if_neg (not_not.2 hx)]
  · rw [if_neg hx, if_pos hx]
    match ls, hn, he with
    | [], _, he => exact absurd he hx
    | [l], hn, he =>
      rw [if_pos (show [l].length = 1 from rfl), if_neg (show ¬ (0x0A : UInt8) ∈ i.extra by rw [he]; exact hn l (by simp))]
      simp
    | l :: l' :: ls, hn, he =>
      rw [if_neg (show ¬ (l :: l' :: ls).length = 1 by simp), if_pos (show (0x0A : UInt8) ∈ i.extra by rw [he, joined] <;> simp), he, ← indent_joined l (l' :: ls) hn]
      simp

/-- A case for `C84_instance`. -/
example : instText ⟨b!"TestA", b!"Bench", b!"A", b!"one\ntwo", b!"{}", []⟩ =
    b!"         Bench:TestA: \n           one\n           two\n           {}\n" := by decide +kernel

end Verif.Props.Tabular
