import Verif.Server.WarnPage
import Verif.Data.WarnKept
import Verif.Props.Tabular
import Verif.Props.TagNames

/-
C94: the page of warnings. C95: requests for the page of warnings at the same time.
-/

namespace Verif.Props.WarnPage
open Go Verif.Warning Verif.Data Verif.Server Verif.Props.WarnViews

/-! ### Specification -/

/-- The names, in order, of the things for which something holds, each once. -/
def Named (name : Bytes → Bytes) (is : Bytes → Prop) (shown : List Bytes) : Prop :=
  ∃ tags : List Bytes, tags.Nodup ∧ (∀ t, t ∈ tags ↔ is t) ∧ (tags.Pairwise fun i j => less (name j) (name i) = false) ∧ shown = tags.map name

/-- A handler that made additions to a warning. -/
def Uses (w : Warns) (n h : Bytes) : Prop := ∃ k, (w.findWarning n).count.get h = some (k + 1)

/-- A test in which additions were made to a warning. -/
def Tried (w : Warns) (n t : Bytes) : Prop := ∃ lt x, w.lookTest t lt n = some x

/-- What is to be shown of a warning in the first part: its name, and, if there is any handler, the handlers and tests. -/
structure Told (E : Env) (w : Warns) (l : Nat) (n : Bytes) (u : UseRow) : Prop where
  level : u.level = l
  name : u.name = n
  button : u.button = true ↔ ∃ h, Uses w n h
  usage : u.usage.isSome = u.button
  shown : ∀ x, u.usage = some x → x.handlersTitle = true ∧ x.testsTitle = true ∧
    Named (handlerName E) (Uses w n) x.handlers ∧ Named (testName E) (Tried w n) x.tests

/-- The data that differ only in warnings that are known of but have nothing. -/
structure Same (w w' : Warns) : Prop where
  others : ({ w' with byWarning := w.byWarning } : Warns) = w
  data : ∀ n, w'.findWarning n = w.findWarning n

/-! ### Proofs -/

theorem keyed {E : Env} {w : Warns} (h : Read E w) : Keyed w := by
  induction h with
  | new => exact keyed_new
  | more _ hp ih => exact (keyed_stable E).parse ih hp

theorem Same.refl (w : Warns) : Same w w := ⟨rfl, fun _ => rfl⟩

theorem Same.trans {a b c : Warns} (h : Same a b) (h' : Same b c) : Same a c := by
  refine ⟨?_, fun n => (h'.data n).trans (h.data n)⟩
  have h1 := h.others
  have h2 := h'.others
  cases a; cases b; cases c
  simp only [Warns.mk.injEq] at *
  simp_all

theorem keep_same (w : Warns) (n : Bytes) : Same w (keepWarning w n) := by
  unfold keepWarning
  split
  · exact Same.refl w
  · next hn =>
    refine ⟨rfl, fun m => ?_⟩
    simp only [Warns.findWarning, Map.get_set]
    by_cases hm : m = n
    · subst hm; rw [if_pos rfl, hn]
    · rw [if_neg hm]

theorem keep_known (w : Warns) (n m : Bytes) : ((keepWarning w n).byWarning.get m).isSome = true ↔ m = n ∨ (w.byWarning.get m).isSome = true := by
  unfold keepWarning
  split
  · next d hd =>
    constructor
    · exact .inr
    · rintro (rfl | h)
      · rw [hd]; rfl
      · exact h
  · simp only [Map.get_set]
    by_cases hm : m = n
    · simp [hm]
    · simp [hm]

theorem keep_id {w : Warns} {n : Bytes} (h : (w.byWarning.get n).isSome = true) : keepWarning w n = w := by
  unfold keepWarning
  split
  · rfl
  · next hn => rw [hn] at h; cases h

theorem uses_same (E : Env) (S : Sorter) (pick : List Bytes → List Bytes) : ∀ (rows : List (Nat × Bytes)) (w : Warns),
    Same w (usesFrom E S pick rows w).2 ∧ (usesFrom E S pick rows w).1 = rows.map (fun r => useRow E S pick r.1 r.2 (w.findWarning r.2)) ∧
    ∀ m, ((usesFrom E S pick rows w).2.byWarning.get m).isSome = true ↔ (∃ r ∈ rows, r.2 = m) ∨ (w.byWarning.get m).isSome = true
  | [], w => ⟨Same.refl w, rfl, by simp [usesFrom]⟩
  | (l, n) :: rest, w => by
    obtain ⟨h1, h2, h3⟩ := uses_same E S pick rest (keepWarning w n)
    have hk := keep_same w n
    refine ⟨hk.trans h1, ?_, fun m => ?_⟩
    · simp only [usesFrom, List.map_cons, h2]
      congr 1
      refine List.map_congr_left fun r _ => ?_
      rw [hk.data]
    · simp only [usesFrom]
      rw [h3, keep_known]
      simp only [List.mem_cons, exists_eq_or_imp]
      rw [eq_comm (a := n) (b := m), or_assoc, or_left_comm]

theorem uses_id (E : Env) (S : Sorter) (pick : List Bytes → List Bytes) : ∀ (rows : List (Nat × Bytes)) (w : Warns),
    (∀ r ∈ rows, (w.byWarning.get r.2).isSome = true) → (usesFrom E S pick rows w).2 = w
  | [], _, _ => rfl
  | (l, n) :: rest, w, h => by
    simp only [usesFrom]
    rw [keep_id (h (l, n) (by simp))]
    exact uses_id E S pick rest w fun r hr => h r (by simp [hr])

theorem cell_some {w : Warns} {h n : Bytes} (hk : (w.byWarning.get n).isSome = true) (h0 : (w.findWarning n).count.get h ≠ some 0) :
    countCell w h n = some ((w.findWarning n).count.get h) := by
  unfold countCell handlerWarningCount
  unfold Warns.findWarning at h0 ⊢
  cases hg : w.byWarning.get n with
  | none => rw [hg] at hk; cases hk
  | some d =>
    rw [hg] at h0
    dsimp only at h0 ⊢
    cases hc : d.count.get h with
    | none => rfl
    | some c =>
      cases c with
      | zero => exact absurd hc h0
      | succ c => rfl

theorem cell_none {w : Warns} {h n : Bytes} : countCell w h n = none ↔ w.byWarning.get n = none := by
  unfold countCell handlerWarningCount
  cases w.byWarning.get n <;> simp

theorem cells_some {w : Warns} {n : Bytes} (hk : (w.byWarning.get n).isSome = true) (h0 : ∀ h, (w.findWarning n).count.get h ≠ some 0) :
    ∀ hs : List Bytes, cellsFrom w n hs = some (hs.map fun h => (w.findWarning n).count.get h)
  | [] => rfl
  | h :: hs => by
    rw [cellsFrom, cell_some hk (h0 h)]
    dsimp only
    rw [cells_some hk h0 hs]
    rfl

theorem cells_none {w : Warns} {n : Bytes} : ∀ hs : List Bytes, cellsFrom w n hs = none ↔ hs ≠ [] ∧ w.byWarning.get n = none
  | [] => by simp [cellsFrom]
  | h :: hs => by
    rw [cellsFrom]
    cases hc : countCell w h n with
    | none => simpa using cell_none.1 hc
    | some c =>
      have hn : w.byWarning.get n ≠ none := fun e => by rw [cell_none.2 e] at hc; cases hc
      have ih := cells_none (w := w) (n := n) hs
      dsimp only
      cases hcs : cellsFrom w n hs with
      | none => exact absurd (ih.1 hcs).2 hn
      | some cs => simp [hn]

theorem table_some {w : Warns} {hs : List Bytes} (h0 : ∀ n h, (w.findWarning n).count.get h ≠ some 0) : ∀ rows : List (Nat × Bytes),
    (∀ r ∈ rows, (w.byWarning.get r.2).isSome = true) →
    tableFrom w hs rows = some (rows.map fun r => (r.1, r.2, hs.map fun h => (w.findWarning r.2).count.get h))
  | [], _ => rfl
  | (l, n) :: rest, hk => by
    rw [tableFrom, cells_some (hk (l, n) (by simp)) (h0 n)]
    dsimp only
    rw [table_some h0 rest fun r hr => hk r (by simp [hr])]
    rfl

theorem table_none {w : Warns} {hs : List Bytes} : ∀ rows : List (Nat × Bytes),
    tableFrom w hs rows = none ↔ hs ≠ [] ∧ ∃ r ∈ rows, w.byWarning.get r.2 = none
  | [] => by simp [tableFrom]
  | (l, n) :: rest => by
    rw [tableFrom]
    have ih := table_none (w := w) (hs := hs) rest
    have hc := cells_none (w := w) (n := n) hs
    simp only [List.mem_cons, exists_eq_or_imp]
    cases hcs : cellsFrom w n hs with
    | none => exact iff_of_true rfl ⟨(hc.1 hcs).1, .inl (hc.1 hcs).2⟩
    | some cs =>
      have hn : ¬ (hs ≠ [] ∧ w.byWarning.get n = none) := fun e => by rw [hc.2 e] at hcs; cases hcs
      dsimp only
      cases ht : tableFrom w hs rest with
      | none =>
        obtain ⟨a, b⟩ := ih.1 ht
        exact iff_of_true rfl ⟨a, .inr b⟩
      | some rs =>
        refine iff_of_false (by simp) ?_
        rintro ⟨a, b | b⟩
        · exact hn ⟨a, b⟩
        · rw [ih.2 ⟨a, b⟩] at ht; cases ht

/-- Keys sorted by names. -/
theorem named {V : Type} (S : Sorter) (pick : List Bytes → List Bytes) (hp : ∀ l, (pick l).Perm l) (name : Bytes → Bytes) (m : Map Bytes V) (hn : m.keys.Nodup)
    (is : Bytes → Prop) (his : ∀ k, (m.get k).isSome = true ↔ is k) :
    Named name is ((S.sort (fun i j => less (name i) (name j)) (pick m.keys)).map name) := by
  refine ⟨_, ?_, fun t => ?_, S.sorted _ _ (less_weak.comap name), rfl⟩
  · rw [(S.perm _ _).nodup_iff, (hp _).nodup_iff]; exact hn
  · rw [(S.perm _ _).mem_iff, (hp _).mem_iff, Map.mem_keys, his]

theorem length_pos {V : Type} (m : Map Bytes V) : 0 < m.length ↔ ∃ k, (m.get k).isSome = true := by
  simp only [← Map.mem_keys]
  cases m with
  | nil => simp [Map.keys]
  | cons a m => exact iff_of_true (by simp) ⟨a.1, by simp [Map.keys]⟩

theorem told {E : Env} {w : Warns} (hw : Read E w) (S : Sorter) (pick : List Bytes → List Bytes) (hp : ∀ l, (pick l).Perm l) (l : Nat) (n : Bytes) :
    Told E w l n (useRow E S pick l n (w.findWarning n)) := by
  obtain ⟨_, L, hl⟩ := C64_any hw
  obtain ⟨h1, h2, h3, _, h5, h6⟩ := C64_any_text hw n
  have hu : ∀ h, ((w.findWarning n).hdlrMap.get h).isSome = true ↔ Uses w n h := by
    intro h
    rw [← show _ ↔ Uses w n h from h1 h, hl.hdlrs]
    split <;> simp
  have ht : ∀ t, ((w.findWarning n).testMap.get t).isSome = true ↔ Tried w n t := by
    intro t
    rw [← show _ ↔ Tried w n t from h3 t, hl.tmap]
    split <;> simp
  have e1 : 0 < (w.findWarning n).hdlrMap.length ↔ ∃ h, Uses w n h := by rw [length_pos]; exact exists_congr hu
  have e2 : 0 < (w.findWarning n).testMap.length ↔ ∃ h, Uses w n h := by
    rw [length_pos]
    exact (exists_congr ht).trans ((exists_congr fun t => (h3 t).symm).trans (h6.symm.trans (h5.trans (exists_congr h1))))
  have hb : hasUsage (w.findWarning n) = true ↔ ∃ h, Uses w n h := by
    unfold hasUsage
    rw [Bool.or_eq_true, decide_eq_true_iff, decide_eq_true_iff, e1, e2, or_self]
  refine ⟨rfl, rfl, hb, ?_, fun x hx => ?_⟩
  · unfold useRow
    dsimp only
    split
    · next h => rw [h]; rfl
    · next h => rw [Bool.not_eq_true] at h; rw [h]; rfl
  · unfold useRow at hx
    dsimp only at hx
    split at hx
    · next h =>
      cases hx
      have := hb.1 h
      refine ⟨decide_eq_true (e1.2 this), decide_eq_true (e2.2 this), named S pick hp _ _ (keyed hw n).1 _ hu, named S pick hp _ _ (keyed hw n).2 _ ht⟩
    · cases hx

theorem same_tags {w w' : Warns} (h : Same w w') (S : Sorter) (pick : List Bytes → List Bytes) :
    w'.handlerTags S pick = w.handlerTags S pick ∧ w'.handlerTitle = w.handlerTitle := by
  have h1 := h.others
  have e1 : w'.byHandler = w.byHandler := by rw [← h1]
  have e2 : w'.handlerData = w.handlerData := by rw [← h1]
  have e3 : w'.handlerTitle = w.handlerTitle := by funext x; unfold Warns.handlerTitle; rw [e2]
  refine ⟨?_, e3⟩
  unfold Warns.handlerTags
  rw [e1, e3]

theorem page_eq (E : Env) (S : Sorter) (pick : List Bytes → List Bytes) (reg : Nat → List Bytes) (w : Warns) (h0 : ∀ n h, (w.findWarning n).count.get h ≠ some 0) :
    warnPage E S pick reg w = (some
      { uses := (pageRows reg).map fun r => useRow E S pick r.1 r.2 (w.findWarning r.2)
        titles := (w.handlerTags S pick).map w.handlerTitle
        table := (pageRows reg).map fun r => (r.1, r.2, (w.handlerTags S pick).map fun h => (w.findWarning r.2).count.get h) },
      (usesFrom E S pick (pageRows reg) w).2) := by
  obtain ⟨h1, h2, h3⟩ := uses_same E S pick (pageRows reg) w
  obtain ⟨h4, h5⟩ := same_tags h1 S pick
  unfold warnPage
  dsimp only
  rw [table_some (fun n h => by rw [h1.data]; exact h0 n h) _ fun r hr => (h3 _).2 (.inl ⟨r, hr, rfl⟩)]
  dsimp only
  rw [h2, h4, h5]
  simp only [h1.data]

theorem mem_rows {reg : Nat → List Bytes} {l : Nat} {n : Bytes} : (l, n) ∈ pageRows reg ↔ l ∈ levelOrder ∧ n ∈ reg l := by
  unfold pageRows
  rw [List.mem_flatMap]
  constructor
  · rintro ⟨a, ha, hm⟩
    obtain ⟨m, hm, e⟩ := List.mem_map.1 hm
    cases e
    exact ⟨ha, hm⟩
  · rintro ⟨a, b⟩
    exact ⟨l, a, List.mem_map.2 ⟨n, b, rfl⟩⟩

/-! ### The page -/

/-- C94: for all texts read and all warnings registered, the page of warnings is complete. It has each registered warning, level by
level, with its handlers and tests if there are any, by name; and a table with a column for each handler, by name, and a row for each registered warning,
in which the cell of a handler has the number of its additions and is blank if there are none. -/
theorem C94_page {E : Env} {w : Warns} (hw : Read E w) (S : Sorter) (pick : List Bytes → List Bytes) (hp : ∀ l, (pick l).Perm l) (reg : Nat → List Bytes) :
    ∃ page, (warnPage E S pick reg w).1 = some page ∧
      List.Forall₂ (fun r u => Told E w r.1 r.2 u) ([4, 3, 2, 1].flatMap fun l => (reg l).map fun n => (l, n)) page.uses ∧
      ∃ tags : List Bytes, tags.Nodup ∧ (∀ h, h ∈ tags ↔ (w.byHandler.get h).isSome = true) ∧
        (tags.Pairwise fun i j => less (w.handlerTitle j) (w.handlerTitle i) = false) ∧ page.titles = tags.map w.handlerTitle ∧
        page.table = ([4, 3, 2, 1].flatMap fun l => (reg l).map fun n => (l, n)).map fun r =>
          (r.1, r.2, tags.map fun h => (w.findWarning r.2).count.get h) := by
  have h0 : ∀ n h, (w.findWarning n).count.get h ≠ some 0 := fun n h => (C64_any_text hw n).2.1 h
  obtain ⟨h1, h2, h3, _⟩ := Tabular.C84_listing_partial hw S pick hp
  rw [page_eq E S pick reg w h0]
  refine ⟨_, rfl, ?_, w.handlerTags S pick, h2, fun h => by rw [h1, Option.isSome_iff_exists], h3, rfl, rfl⟩
  rw [List.forall₂_map_right_iff]
  exact List.forall₂_same.2 fun r _ => told hw S pick hp r.1 r.2

/-- C94: showing the page changes no answer: what is stored is the same but for warnings without additions, and the page
shown again is the same and changes nothing any more. -/
theorem C94_again {E : Env} {w : Warns} (hw : Read E w) (S : Sorter) (pick : List Bytes → List Bytes) (reg : Nat → List Bytes) :
    Same w (warnPage E S pick reg w).2 ∧ warnPage E S pick reg (warnPage E S pick reg w).2 = warnPage E S pick reg w ∧
    ∀ n, ((warnPage E S pick reg w).2.byWarning.get n).isSome = true ↔ (w.byWarning.get n).isSome = true ∨ ∃ l ∈ levelOrder, n ∈ reg l := by
  have h0 : ∀ n h, (w.findWarning n).count.get h ≠ some 0 := fun n h => (C64_any_text hw n).2.1 h
  obtain ⟨h1, _, h3⟩ := uses_same E S pick (pageRows reg) w
  rw [page_eq E S pick reg w h0]
  refine ⟨h1, ?_, fun n => ?_⟩
  · dsimp only
    rw [page_eq E S pick reg _ (fun n h => by rw [h1.data]; exact h0 n h)]
    obtain ⟨h4, h5⟩ := same_tags h1 S pick
    rw [uses_id E S pick _ _ fun r hr => (h3 _).2 (.inl ⟨r, hr, rfl⟩), h4, h5]
    simp only [h1.data]
  · dsimp only
    rw [h3, or_comm]
    refine or_congr_right ⟨?_, ?_⟩
    · rintro ⟨⟨l, m⟩, hr, rfl⟩
      exact ⟨l, mem_rows.1 hr⟩
    · rintro ⟨l, h⟩
      exact ⟨(l, n), mem_rows.2 h, rfl⟩

/-- C94: the table alone, without the first part before it, would be cut short exactly if there is a handler and one of the registered warnings was
never reported. -/
theorem C94_needs (S : Sorter) (pick : List Bytes → List Bytes) (reg : Nat → List Bytes) (w : Warns) :
    tableFrom w (w.handlerTags S pick) (pageRows reg) = none ↔
      w.handlerTags S pick ≠ [] ∧ ∃ l ∈ levelOrder, ∃ n ∈ reg l, w.byWarning.get n = none := by
  rw [table_none]
  refine and_congr_right fun _ => ⟨?_, ?_⟩
  · rintro ⟨⟨l, n⟩, hr, h⟩
    exact ⟨l, (mem_rows.1 hr).1, n, (mem_rows.1 hr).2, h⟩
  · rintro ⟨l, hl, n, hn, h⟩
    exact ⟨(l, n), mem_rows.2 ⟨hl, hn⟩, h⟩

/-- C94 for the server: a cell has the number of additions that the handler of the column made to the warning of the row in both runs. -/
theorem C94_server {F : Type} {E : Env} (hL : LowersLib E.lib) {fl : Floats F} {S : Sorter} {pick names : List Bytes → List Bytes} (hp : ∀ l, (pick l).Perm l)
    {bench verify : Bytes} {b : Bench F} {rs vs : List WarnReport.Run} (hg : Setup.Given E fl S pick bench verify b (b.handlerLookup names).2 rs vs)
    (reg : Nat → List Bytes) :
    ∃ w, setup E fl names {} {} bench verify = some ((b.handlerLookup names).1, w, false) ∧
      ∃ page, (warnPage E S pick reg w).1 = some page ∧ page.titles = (w.handlerTags S pick).map w.handlerTitle ∧
        page.table = (pageRows reg).map fun r => (r.1, r.2, (w.handlerTags S pick).map fun h =>
          let c := heardCount (b.handlerLookup names).2 (rs.map (fun r => (b!"Bench", r)) ++ vs.map fun r => (b!"Verify", r)) r.2 h
          if c = 0 then none else some c) := by
  obtain ⟨w, hw, hv⟩ := C64_server_partial hL hp hg
  have h0 : ∀ n h, (w.findWarning n).count.get h =
      if heardCount (b.handlerLookup names).2 (rs.map (fun r => (b!"Bench", r)) ++ vs.map fun r => (b!"Verify", r)) n h = 0 then none
      else some (heardCount (b.handlerLookup names).2 (rs.map (fun r => (b!"Bench", r)) ++ vs.map fun r => (b!"Verify", r)) n h) := by
    intro n h
    have h1 := hv.count n h
    have h2 := hv.counted n h
    cases hc : (w.findWarning n).count.get h with
    | none =>
      rw [hc] at h1
      rw [if_pos (show _ = 0 from h1.symm)]
    | some c =>
      rw [hc] at h1 h2
      rw [if_neg (h2.1 rfl), ← h1]
      rfl
  refine ⟨w, hw, ?_⟩
  rw [page_eq E S pick reg w (fun n h => by rw [h0]; split <;> simp_all)]
  refine ⟨_, rfl, rfl, ?_⟩
  simp only [h0]

/-- C94 in full: whatever was counted is on the page, in the row of the warning and the column of the handler. -/
def C94_statement : Prop := ∀ (E : Env) (w : Warns), Read E w → ∀ (S : Sorter) (pick : List Bytes → List Bytes), (∀ l, (pick l).Perm l) →
  ∀ (reg : Nat → List Bytes) (l : Nat) (n : Bytes), l ∈ levelOrder → n ∈ reg l → ∀ h k, (w.findWarning n).count.get h = some k →
    ∃ page, (warnPage E S pick reg w).1 = some page ∧ w.handlerTitle h ∈ page.titles

/-- C94 does not hold in full: in a text in which an instance comes before any warning of its handler, it is counted for a
handler that has no column. -/
theorem C94_fails : ¬ C94_statement := by
  intro hs
  have h : (parseWarningData Setup.someEnv b!"Verify" [] {} loose).isSome = true := by decide +kernel
  obtain ⟨⟨w, err⟩, hr⟩ := Option.isSome_iff_exists.1 h
  have h1 : (parseWarningData Setup.someEnv b!"Verify" [] {} loose).map (fun r => (r.1.findWarning b!"Duplicates").count.get b!"b") = some (some 1) := by
    decide +kernel
  have h2 : (parseWarningData Setup.someEnv b!"Verify" [] {} loose).map (fun r => (r.1.byHandler.keys, r.1.handlerTitle b!"a", r.1.handlerTitle b!"b")) =
      some ([b!"a"], b!"A", b!"B") := by decide +kernel
  rw [hr] at h1 h2
  simp only [Option.map_some, Option.some.injEq, Prod.mk.injEq] at h1 h2
  have hw : Read Setup.someEnv w := .more .new hr
  obtain ⟨page, hp, ht⟩ := hs _ w hw someSorter id (fun l => .refl l) (fun l => if l = 4 then [b!"Duplicates"] else []) 4 b!"Duplicates"
    (by decide) (by decide) b!"b" 1 h1
  obtain ⟨page', hp', _, tags, _, hm, _, ht', _⟩ := C94_page hw someSorter id (fun l => .refl l) (fun l => if l = 4 then [b!"Duplicates"] else [])
  rw [hp] at hp'
  cases hp'
  rw [ht', h2.2.2] at ht
  obtain ⟨x, hx, e⟩ := List.mem_map.1 ht
  have : x ∈ w.byHandler.keys := (Map.mem_keys _ _).2 ((hm x).1 hx)
  rw [h2.1, List.mem_singleton] at this
  subst this
  rw [h2.2.1] at e
  exact absurd e (by decide)

/-- C94, partial: once the reports of different handlers are read, whatever was counted for a registered warning is on the page. -/
theorem C94_shown_partial {E : Env} (hL : LowersLib E.lib) (S : Sorter) (pick : List Bytes → List Bytes) (hp : ∀ l, (pick l).Perm l)
    (source : Bytes) (lookup : Map Bytes Bytes) (rs : List WarnReport.Run) (hr : ∀ r ∈ rs, WarnReport.OkRun E.lib lookup r)
    (hd : (rs.map fun r => tagOf lookup r.name).Nodup) (head text tail : Bytes) (hb : WarnReport.Before head)
    (ht : text = (rs.map fun r => (r.manager.showWarnings S pick).2).flatten) (hs : ∀ l ∈ splitLines text, l.length < 65536)
    (ha : WarnReport.After tail) (reg : Nat → List Bytes) :
    ∃ w, parseWarningData E source lookup {} (head ++ text ++ tail) = some (w, false) ∧
      ∃ page, (warnPage E S pick reg w).1 = some page ∧
      ∀ l n, l ∈ levelOrder → n ∈ reg l → ∀ h k, (w.findWarning n).count.get h = some k →
        ∃ i : Nat, page.titles[i]? = some (w.handlerTitle h) ∧ ∃ cells, (l, n, cells) ∈ page.table ∧ cells[i]? = some (some k) := by
  obtain ⟨w, hw, h1, h2⟩ := C64_agrees hL S pick hp source lookup rs hr hd head text tail hb ht hs ha
  have hread : Read E w := .more .new hw
  obtain ⟨page, hpage, _, tags, _, hm, _, ht, htab⟩ := C94_page hread S pick hp reg
  refine ⟨w, hw, page, hpage, fun l n hl hn h k hc => ?_⟩
  obtain ⟨lt, hlook⟩ := h2 h n k hc
  have hh : (w.byHandler.get h).isSome = true := by
    cases hg : w.byHandler.get h with
    | some _ => rfl
    | none => simp [Warns.look, Warns.hid, hg] at hlook
  obtain ⟨i, hi⟩ := List.mem_iff_getElem?.1 ((hm h).2 hh)
  refine ⟨i, by rw [ht, List.getElem?_map, hi]; rfl, tags.map fun h => (w.findWarning n).count.get h, ?_, ?_⟩
  · rw [htab]
    exact List.mem_map.2 ⟨(l, n), mem_rows.2 ⟨hl, hn⟩, rfl⟩
  · rw [List.getElem?_map, hi]
    simp [hc]

/-- The warnings registered in the cases. -/
def someReg : Nat → List Bytes := fun l => if l = 4 then [b!"Alpha", b!"Beta", b!"Never"] else if l = 2 then [b!"Gamma"] else []

/-- A case for `C94_page` and `C94_again`: a warning that was never reported has no button and a row of blanks. -/
example : Read WarnScore.caseEnv (WarnScore.readCase WarnScore.caseText) ∧
    (((warnPage WarnScore.caseEnv someSorter id someReg (WarnScore.readCase WarnScore.caseText)).1.map fun p =>
      (p.uses.map fun u => (u.level, u.name, u.button), p.titles)) =
        some ([(4, b!"Alpha", true), (4, b!"Beta", true), (4, b!"Never", false), (2, b!"Gamma", true)], [b!"A", b!"B"])) := ⟨Tabular.case_read, by decide +kernel⟩

/-- A case for `C94_needs`. -/
example : tableFrom (WarnScore.readCase WarnScore.caseText) ((WarnScore.readCase WarnScore.caseText).handlerTags someSorter id) (pageRows someReg) = none := by
  decide +kernel

/-- A case for `C94_server`: the data of `Setup.ver_given`. -/
example : ∃ w, setup Setup.someEnv BenchData.terms id {} {} Setup.someBench Setup.someVerify =
      some (((Bench.parse Setup.someEnv BenchData.terms {} Setup.someBench).1.handlerLookup id).1, w, false) ∧
    ∃ page, (warnPage Setup.someEnv someSorter id (fun l => if l = 4 then [b!"Duplicates"] else []) w).1 = some page := by
  have hg := Setup.ver_given
  rw [← Setup.some_lookup] at hg
  obtain ⟨w, hw, page, hp, _⟩ := C94_server (names := id) ⟨_, Letters.some_lowers⟩ (fun l => .refl l) hg (fun l => if l = 4 then [b!"Duplicates"] else [])
  exact ⟨w, hw, page, hp⟩

/-! ### Several requests -/

/-- The requests, each for the page of warnings or for something else. -/
def requests (reg : Nat → List Bytes) (hs : List Bytes) (w : Warns) (page : Nat → Bool) : Nat → List Bytes :=
  fun t => if page t then pageAsks reg hs w else []

theorem mem_asks {reg : Nat → List Bytes} {hs : List Bytes} {w : Warns} {n : Bytes} : n ∈ pageAsks reg hs w ↔ ∃ l ∈ levelOrder, n ∈ reg l := by
  unfold pageAsks
  rw [List.mem_append]
  constructor
  · rintro (h | h)
    · obtain ⟨⟨l, m⟩, hr, rfl⟩ := List.mem_map.1 h
      exact ⟨l, mem_rows.1 hr⟩
    · obtain ⟨⟨l, m⟩, hr, h⟩ := List.mem_flatMap.1 h
      obtain ⟨x, _, h⟩ := List.mem_flatMap.1 h
      have : n = m := by
        split at h <;> simpa using h
      subst this
      exact ⟨l, mem_rows.1 hr⟩
  · rintro ⟨l, h⟩
    exact .inl (List.mem_map.2 ⟨(l, n), mem_rows.2 h, rfl⟩)

/-- C95, exactly: the runtime can end the program if, and only if, two requests ask for the page while some registered warning was never
reported. -/
theorem C95_exact (reg : Nat → List Bytes) (hs : List Bytes) (w : Warns) (page : Nat → Bool) :
    (∃ ts, ((NameWorld.start w.byWarning (requests reg hs w page)).run w.findWarning ts).dead = true) ↔
      (∃ i j, i ≠ j ∧ page i = true ∧ page j = true) ∧ ∃ l ∈ levelOrder, ∃ n ∈ reg l, w.byWarning.get n = none := by
  rw [TagNames.C79_exact]
  unfold TagNames.Clash requests
  constructor
  · rintro ⟨i, j, hij, ⟨n, hn, hg⟩, hj⟩
    split at hn
    · next hi =>
      split at hj
      · next hj' =>
        obtain ⟨l, hl, hn⟩ := mem_asks.1 hn
        exact ⟨⟨i, j, hij, hi, hj'⟩, l, hl, n, hn, hg⟩
      · exact absurd rfl hj
    · cases hn
  · rintro ⟨⟨i, j, hij, hi, hj⟩, l, hl, n, hn, hg⟩
    have hm : n ∈ pageAsks reg hs w := mem_asks.2 ⟨l, hl, hn⟩
    refine ⟨i, j, hij, ⟨n, by rw [if_pos hi]; exact hm, hg⟩, ?_⟩
    rw [if_pos hj]
    exact List.ne_nil_of_mem hm

/-- C95: whatever happens, every request was given the right data for the warnings it has asked for so far. -/
theorem C95_right (reg : Nat → List Bytes) (hs : List Bytes) (w : Warns) (page : Nat → Bool) (ts : List Nat) (t : Nat) :
    ∃ k, (((NameWorld.start w.byWarning (requests reg hs w page)).run w.findWarning ts).askers t).got =
      ((requests reg hs w page t).take k).map fun n => (n, w.findWarning n) :=
  TagNames.C79_names _ _ _ (fun n d h => by unfold Warns.findWarning; rw [h]) ts t

/-- C95 in full: the program serves any requests for the page at the same time. -/
def C95_statement : Prop := ∀ (E : Env) (w : Warns), Read E w → ∀ (reg : Nat → List Bytes) (hs : List Bytes) (page : Nat → Bool) (ts : List Nat),
  ((NameWorld.start w.byWarning (requests reg hs w page)).run w.findWarning ts).dead = false

/-- C95 does not hold: two requests, and a warning that was never reported. -/
theorem C95_fails : ¬ C95_statement := by
  intro h
  obtain ⟨ts, hd⟩ := (C95_exact someReg [b!"a", b!"b"] (WarnScore.readCase WarnScore.caseText) (fun t => decide (t < 2))).2
    ⟨⟨0, 1, by decide, by decide, by decide⟩, 4, by decide, b!"Never", by decide, by decide +kernel⟩
  rw [h _ _ Tabular.case_read] at hd
  cases hd

/-- C95, partial: after the page was shown once, any requests are served, each with the right data for all its warnings. -/
theorem C95_later_partial {E : Env} {w : Warns} (S : Sorter) (pick : List Bytes → List Bytes) (reg : Nat → List Bytes)
    (hw : Read E w) (hs : List Bytes) (page : Nat → Bool) (ts : List Nat) :
    let w' := (warnPage E S pick reg w).2
    let s := (NameWorld.start w'.byWarning (requests reg hs w' page)).run w'.findWarning ts
    s.dead = false ∧ ∀ t, 3 * (requests reg hs w' page t).length ≤ ts.count t →
      (s.askers t).got = (requests reg hs w' page t).map fun n => (n, w.findWarning n) := by
  intro w' s
  obtain ⟨h1, _, h3⟩ := C94_again hw S pick reg
  have hc : ¬ TagNames.Clash w'.byWarning (requests reg hs w' page) := by
    rw [← TagNames.C79_exact w'.findWarning, C95_exact]
    rintro ⟨_, l, hl, n, hn, hg⟩
    have := (h3 n).2 (.inr ⟨l, hl, hn⟩)
    rw [hg] at this
    cases this
  obtain ⟨h4, h5⟩ := TagNames.C79_served_partial w'.findWarning w'.byWarning (requests reg hs w' page)
    (fun n d h => by unfold Warns.findWarning; rw [h]) hc ts
  refine ⟨h4, fun t ht => (h5 t ht).trans (List.map_congr_left fun n _ => ?_)⟩
  rw [h1.data]

/-- A case for `C95_later_partial`: two requests, after the page was shown once. -/
example (ts : List Nat) : let w := (warnPage WarnScore.caseEnv someSorter id someReg (WarnScore.readCase WarnScore.caseText)).2
    ((NameWorld.start w.byWarning (requests someReg [b!"a", b!"b"] w fun t => decide (t < 2))).run w.findWarning ts).dead = false :=
  (C95_later_partial someSorter id someReg Tabular.case_read [b!"a", b!"b"] (fun t => decide (t < 2)) ts).1

end Verif.Props.WarnPage
