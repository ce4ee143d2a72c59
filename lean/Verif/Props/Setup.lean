import Verif.Data.Setup
import Verif.Props.WarnReport
import Verif.Props.BenchData

/-
C60: the warnings of benchmark and verification runs reach the server together.
-/

set_option linter.unusedSimpArgs false

namespace Verif.Props.Setup
open Go Letters Lines Verif.Warning Verif.Data Verif.Props.WarnReport

variable {F : Type}

/-! ### Specification -/

/-- The lines of an output among which are the given ones, each after the mark, in order: other lines are not marked
or name a handler. The list of handlers by warning may follow, and anything after its heading. -/
inductive Among : List Bytes → List Bytes → Prop
  | done : Among [] []
  | listing {rest : List Bytes} : Among [] (b!"# " :: b!"#  Handlers by warning:" :: rest)
  | report {l : Bytes} {rs ls : List Bytes} : Among rs ls → Among (l :: rs) (l :: ls)
  | other {l : Bytes} {rs ls : List Bytes} : ¬ b!"# " <+: l ∨ BenchData.Defines l → Among rs ls → Among rs (l :: ls)

/-- What a run is to report for a tag under a level and a name. -/
def said (lookup : Map Bytes Bytes) (rs : List Run) (h lt n : Bytes) : Option Instances :=
  match rs.find? fun r => tagOf lookup r.name = h with
  | none => none
  | some r =>
    match WarnManager.reported r.events n with
    | none => none
    | some i => if levelText i.level = lt then some i else none

/-- What two runs say together: the instances of the first one come first. -/
def both (E : Env) : Option Instances → Option Instances → Option DWarn
  | none, none => none
  | some i, none => some (found E b!"Bench" i)
  | none, some j => some (found E b!"Verify" j)
  | some i, some j => some { found E b!"Verify" j with
      instances := (found E b!"Bench" i).instances ++ (found E b!"Verify" j).instances }

/-- A run reports nothing for a tag, saying so. -/
def Silent (lookup : Map Bytes Bytes) (rs : List Run) (h : Bytes) : Prop :=
  ∃ r ∈ rs, tagOf lookup r.name = h ∧ ∀ n, WarnManager.reported r.events n = none

/-- The function names are not like the lines that name handlers. -/
def Apart (r : Run) : Prop := ∀ n i, WarnManager.reported r.events n = some i → ∀ d ∈ i.data, ¬ b!"Handler[" <+: d.function

/-! ### The marked lines -/

theorem defines_lang {l : Bytes} (h : BenchData.Defines l) : ∃ sp t, l = 0x23 :: (sp ++ b!"Handler[" ++ t) ∧ ∀ a ∈ sp, isS a = true := by
  unfold BenchData.Defines at h
  apply Classical.byContradiction
  intro hn
  have : ptnHandlerDef.find l = none := by
    rw [Re.find_none]
    intro t hl
    apply hn
    unfold ptnHandlerDef seq at hl
    cases hl with | cat h1 h2 =>
    cases h1 with | lit =>
    obtain ⟨u, w, e, hu, hr⟩ := lang_seq_star h2
    cases hr with | cat h3 h4 =>
    cases h3 with | lit =>
    rename_i tl
    exact ⟨u, tl, by rw [e]; simp, hu⟩
  rw [this] at h
  cases h

/-- A line, after its mark, that names no handler. -/
def Marks (l : Bytes) : Prop := ∃ sp, (∀ a ∈ sp, isS a = true) ∧
  (l = sp ∨ ∃ a t, l = sp ++ a :: t ∧ isS a = false ∧ ¬ b!"Handler[" <+: a :: t)

theorem blanks_eq {u v : Bytes} {a b : UInt8} {s t : Bytes} (hu : ∀ x ∈ u, isS x = true) (hv : ∀ x ∈ v, isS x = true)
    (ha : isS a = false) (hb : isS b = false) (e : u ++ a :: s = v ++ b :: t) : a :: s = b :: t := by
  induction u generalizing v with
  | nil =>
    cases v with
    | nil => exact e
    | cons c v =>
      cases e
      rw [hv a (by simp)] at ha; cases ha
  | cons x u ih =>
    cases v with
    | nil =>
      cases e
      rw [hu b (by simp)] at hb; cases hb
    | cons c v =>
      simp only [List.cons_append, List.cons.injEq] at e
      exact ih (fun y hy => hu y (by simp [hy])) (fun y hy => hv y (by simp [hy])) e.2

theorem marks_not {l : Bytes} (h : Marks l) : ¬ BenchData.Defines (b!"# " ++ l) := by
  intro hd
  obtain ⟨sp', t', e, hs'⟩ := defines_lang hd
  have e : 0x20 :: l = sp' ++ 0x48 :: (b!"andler[" ++ t') := by simpa using e
  obtain ⟨sp, hs, rfl | ⟨a, t, rfl, ha, hn⟩⟩ := h
  · have : (0x48 : UInt8) ∈ 0x20 :: l := by rw [e]; simp
    rcases List.mem_cons.1 this with h | h
    · cases h
    · have := hs _ h; revert this; decide
  · have := blanks_eq (u := 0x20 :: sp) (v := sp') (by
      intro x hx
      rcases List.mem_cons.1 hx with rfl | hx
      · decide
      · exact hs x hx) hs' ha (b := 0x48) (by decide) (by simpa using e)
    exact hn ⟨t', by rw [this]; simp⟩

theorem marks_of {sp : Bytes} {a : UInt8} {t : Bytes} (hs : ∀ x ∈ sp, isS x = true) (ha : isS a = false) (h : a ≠ 0x48) : Marks (sp ++ a :: t) :=
  ⟨sp, hs, .inr ⟨a, t, rfl, ha, by rintro ⟨u, e⟩; cases e; exact h rfl⟩⟩

theorem handler_prefix {f T : Bytes} (h : ¬ b!"Handler[" <+: f) : ¬ b!"Handler[" <+: f ++ b!": " ++ T := by
  intro hp
  have hf : f ++ [0x3A] <+: f ++ b!": " ++ T := ⟨0x20 :: T, by simp⟩
  have h1 : f <+: f ++ b!": " ++ T := ⟨b!": " ++ T, by simp⟩
  by_cases hl : (b!"Handler[" : Bytes).length ≤ f.length
  · exact h (List.prefix_of_prefix_length_le hp h1 hl)
  · have : f ++ [0x3A] <+: b!"Handler[" := List.prefix_of_prefix_length_le hf hp (by simp at hl ⊢; omega)
    have : (0x3A : UInt8) ∈ (b!"Handler[" : Bytes) := this.subset (by simp)
    revert this; decide

theorem instLines_marks {L : Replace.Lib} {d : Instance} (hd : OkInst L d) (hn : ¬ b!"Handler[" <+: d.function) :
    ∀ l ∈ instLines [] d, Marks l := by
  obtain ⟨T, ls, ht, hT, hT0, hls⟩ := hd.text
  rw [instLines_of ht]
  unfold instLinesOf
  have hblank : ∀ x ∈ (b!"         " : Bytes), isS x = true := by decide
  have hblank2 : ∀ x ∈ (b!"           " : Bytes), isS x = true := by decide
  obtain ⟨a, f, hf⟩ : ∃ a f, d.function = a :: f := by
    cases h : d.function with
    | nil => exact absurd h hd.fn.ne
    | cons a f => exact ⟨a, f, rfl⟩
  have ha : isS a = false := by
    have := hd.fn.word a (by rw [hf]; simp)
    simpa [isNS] using this
  intro l hl
  simp only [List.cons_append, List.mem_cons, List.mem_append, List.mem_map, List.nil_append] at hl
  rcases hl with rfl | ⟨x, hx, rfl⟩ | hl
  · by_cases h0 : T = []
    · rw [if_pos h0]
      exact ⟨_, hblank, .inr ⟨a, f, by rw [hf]; rfl, ha, by rw [← hf]; exact hn⟩⟩
    · rw [if_neg h0]
      exact ⟨_, hblank, .inr ⟨a, f ++ b!": " ++ T, by rw [hf]; simp, ha, by
        have := handler_prefix (T := T) hn
        rw [hf] at this
        simpa using this⟩⟩
  · exact marks_of (sp := b!"           ") (a := 0x2B) (t := x) hblank2 (by decide) (by decide)
  · rcases hd.record with h0 | ⟨r, hr, h1, h2⟩
    · rw [if_pos h0] at hl; cases hl
    · rw [if_neg (by rw [hr]; simp)] at hl
      simp only [List.mem_singleton] at hl
      subst hl
      rw [hr]
      exact marks_of (sp := b!"           ") hblank2 (by decide) (by decide)

theorem reportLines_marks {L : Replace.Lib} {S : Sorter} {pick : List Bytes → List Bytes} {m : Manager} (hm : OkManager L S pick m)
    (hp : m.showPrefix = []) (hn : ∀ w ∈ shown S pick m, ∀ d ∈ w.data, ¬ b!"Handler[" <+: d.function) :
    ∀ l ∈ reportLines S pick m, Marks l := by
  unfold reportLines
  rw [hp]
  intro l hl
  have two : ∀ x ∈ (b!"  " : Bytes), isS x = true := by decide
  simp only [List.cons_append, List.nil_append, List.mem_cons] at hl
  rcases hl with rfl | rfl | hl
  · exact ⟨[], by simp, .inl rfl⟩
  · exact marks_of (sp := []) (a := 0x57) (by simp) (by decide) (by decide)
  · split at hl
    · simp only [List.mem_singleton] at hl
      subst hl
      exact marks_of (sp := b!"  ") (a := 0x4E) two (by decide) (by decide)
    · obtain ⟨ls, hls, hl⟩ := List.mem_flatten.1 hl
      obtain ⟨lv, hlv, rfl⟩ := List.mem_map.1 hls
      unfold levelLines at hl
      split at hl
      · cases hl
      · rcases List.mem_cons.1 hl with rfl | hl
        · have hfirst : ∀ l ∈ levelOrder, ∃ a ∈ (levelText l).head?, isS a = false ∧ a ≠ 0x48 := by decide
          obtain ⟨a, ha, h1, h2⟩ := hfirst lv hlv
          obtain ⟨t, ht⟩ := List.head?_eq_some_iff.1 ha
          rw [ht]
          exact marks_of (sp := b!"  ") two h1 h2
        · obtain ⟨ls, hls, hl⟩ := List.mem_flatten.1 hl
          obtain ⟨w, hw, rfl⟩ := List.mem_map.1 hls
          have hw := (levelList_mem.1 hw).1
          unfold warnLines at hl
          rcases List.mem_cons.1 hl with rfl | hl
          · obtain ⟨d, ds, k, e, hd, _⟩ := count_digits w.count
            have hdig := digit_not_space d hd
            rw [e]
            have := marks_of (sp := b!"  " ++ List.replicate k 0x20) (a := d) (t := ds ++ b!" [" ++ w.name ++ b!"] " ++ w.summary) (by
              intro x hx
              rcases List.mem_append.1 hx with hx | hx
              · exact two x hx
              · rw [List.eq_of_mem_replicate hx]; decide) hdig.1 hdig.2.2.1
            simpa using this
          · obtain ⟨ls, hls, hl⟩ := List.mem_flatten.1 hl
            obtain ⟨d, hd, rfl⟩ := List.mem_map.1 hls
            exact instLines_marks ((hm.warns w hw).data d hd) (hn w hw d hd) l hl

/-! ### The text of the warnings -/

/-- A manager without the prefix. -/
def bare (m : Manager) : Manager := { m with showPrefix := [] }

theorem cleanUp_bare (m : Manager) : (bare m).cleanUp = bare m.cleanUp := by
  unfold bare Manager.cleanUp
  simp only
  split
  · rfl
  · split <;> rfl

theorem shown_bare (S : Sorter) (pick : List Bytes → List Bytes) (m : Manager) : shown S pick (bare m) = shown S pick m := by
  unfold shown Manager.getWarnings
  rw [cleanUp_bare]
  unfold bare
  split <;> rfl

theorem levelLines_prefix (S : Sorter) (p : Bytes) (ws : List Instances) (l : Nat) :
    levelLines S p ws l = (levelLines S [] ws l).map (p ++ ·) := by
  unfold levelLines
  split
  · rfl
  · rw [List.map_cons, List.map_flatten, List.map_map]
    congr 1
    · simp
    · congr 1
      apply List.map_congr_left
      intro w _
      unfold warnLines
      simp only [Function.comp_apply, List.map_cons, List.map_flatten, List.map_map]
      congr 1
      · simp
      · congr 1
        apply List.map_congr_left
        intro d _
        unfold instLines instLinesOf
        simp only [Function.comp_apply, List.map_cons, List.map_append, List.map_map]
        congr 1
        · congr 1
          · simp
          · apply List.map_congr_left
            intro x _; simp
        · split <;> simp

theorem reportLines_bare (S : Sorter) (pick : List Bytes → List Bytes) (m : Manager) :
    reportLines S pick m = (reportLines S pick (bare m)).map (m.showPrefix ++ ·) := by
  unfold reportLines
  rw [shown_bare]
  show _ = List.map _ ([[], [] ++ b!"Warnings for " ++ m.name ++ b!":"] ++ if shown S pick m = [] then [[] ++ b!"  None"]
    else (levelOrder.map (levelLines S [] (shown S pick m))).flatten)
  rw [List.map_append]
  congr 1
  · simp
  · split
    · simp
    · rw [List.map_flatten, List.map_map]
      congr 1
      apply List.map_congr_left
      intro l _
      exact levelLines_prefix S _ _ l

/-- The lines after the first, with newlines before them. -/
def glue (ls : List Bytes) : Bytes := (ls.map fun l => 0x0A :: l).flatten

theorem fold_text (t : Bytes) (h : t ≠ []) (ls : List Bytes) : ls.foldl BenchData.addText t = t ++ glue ls := by
  induction ls generalizing t with
  | nil => simp [glue]
  | cons l ls ih =>
    have e : BenchData.addText t l = t ++ 0x0A :: l := by
      unfold BenchData.addText
      rw [if_pos (List.length_pos_iff.2 h)]; simp
    rw [List.foldl_cons, e, ih _ (by simp)]
    simp [glue]

theorem split_glue : ∀ (ls : List Bytes) (l : Bytes), (∀ x ∈ l :: ls, OneLine x) →
    splitLines (l ++ glue ls) = if (l :: ls).getLast? = some [] then (l :: ls).dropLast else l :: ls
  | [], l, h => by
    simp only [glue, List.map_nil, List.flatten_nil, List.append_nil, List.getLast?_singleton, List.dropLast_singleton, Option.some.injEq]
    split
    · rename_i e; subst e; rfl
    · rename_i e; exact splitLines_last (h l (by simp)) e
  | x :: ls, l, h => by
    have e : l ++ glue (x :: ls) = l ++ 0x0A :: (x ++ glue ls) := by simp [glue]
    rw [e, splitLines_line (h l (by simp)), split_glue ls x fun y hy => h y (by simp [hy])]
    simp only [List.getLast?_cons_cons, List.dropLast_cons_cons]
    split <;> rfl

/-! ### What reports do to what there is -/

/-- What is printed by runs. -/
def printed (S : Sorter) (pick : List Bytes → List Bytes) (rs : List Run) : Bytes :=
  (rs.map fun r => (r.manager.showWarnings S pick).2).flatten

/-- A manager that reports as the run's, apart from the prefix. -/
structure Like (S : Sorter) (pick : List Bytes → List Bytes) (r : Run) (m : Manager) : Prop where
  shown : shown S pick m = shown S pick r.manager
  name : m.name = r.name

theorem fold_out {E : Env} {source : Bytes} {lookup : Map Bytes Bytes} {S : Sorter} {pick : List Bytes → List Bytes} {h lt n : Bytes} :
    ∀ (l : List Manager) (V : Bytes → Bytes → Bytes → Option DWarn), (∀ x ∈ l, h ≠ tagOf lookup x.name) →
      l.foldl (addReport E source lookup S pick) V h lt n = V h lt n
  | [], _, _ => rfl
  | x :: l, V, hx => by
    rw [List.foldl_cons, fold_out l _ fun y hy => hx y (by simp [hy]), addReport_other (hx x (by simp))]

/-- What there is after what a run says. -/
def after (E : Env) (source : Bytes) (v : Option DWarn) : Option Instances → Option DWarn
  | none => v
  | some i => some { found E source i with instances := ((v.map (·.instances)).getD []) ++ (found E source i).instances }

theorem names_shown {S : Sorter} {pick : List Bytes → List Bytes} (hp : ∀ l, (pick l).Perm l) {r : Run} (ho : WarnManager.OneUnused r.ops) :
    WarnManager.Report r.events (shown S pick r.manager) ∧ (shown S pick r.manager).Pairwise fun a b => a.name ≠ b.name := by
  have hrp : WarnManager.Report r.events (shown S pick r.manager) := WarnManager.C30_report r.name r.pfx r.ops ho S pick hp
  refine ⟨hrp, List.Pairwise.imp_of_mem ?_ hrp.order⟩
  intro a b ha hb hab e
  obtain ⟨n, hn⟩ := (hrp.mem a).1 ha
  obtain ⟨k, hk⟩ := (hrp.mem b).1 hb
  have hnk : n = k := by rw [← WarnManager.reported_name hn, ← WarnManager.reported_name hk, e]
  subst hnk
  rw [hn] at hk
  cases hk
  rcases hab with h | ⟨_, h⟩
  · omega
  · rw [less_irrefl] at h; cases h

theorem shown_nil {S : Sorter} {pick : List Bytes → List Bytes} {r : Run} (hr : WarnManager.Report r.events (shown S pick r.manager)) :
    shown S pick r.manager = [] ↔ ∀ n, WarnManager.reported r.events n = none := by
  constructor
  · intro h n
    cases e : WarnManager.reported r.events n with
    | none => rfl
    | some i => have := (hr.mem i).2 ⟨n, e⟩; rw [h] at this; cases this
  · intro h
    cases e : shown S pick r.manager with
    | nil => rfl
    | cons i is =>
      obtain ⟨n, hn⟩ := (hr.mem i).1 (by rw [e]; simp)
      rw [h n] at hn; cases hn

/-- One report, for its handler. -/
theorem addReport_said {E : Env} {source : Bytes} {lookup : Map Bytes Bytes} {S : Sorter} {pick : List Bytes → List Bytes} (hp : ∀ l, (pick l).Perm l)
    {r : Run} {m : Manager} (hm : Like S pick r m) (hr : OkRun E.lib lookup r) {V : Bytes → Bytes → Bytes → Option DWarn} (lt n : Bytes)
    (hV : ∀ d, V (tagOf lookup r.name) lt n = some d → d.name = n) :
    addReport E source lookup S pick V m (tagOf lookup r.name) lt n =
      if shown S pick r.manager = [] then none
      else after E source (V (tagOf lookup r.name) lt n) (said lookup [r] (tagOf lookup r.name) lt n) := by
  obtain ⟨hrep, hnames⟩ := names_shown (S := S) hp hr.one
  have hlv : ∀ w ∈ shown S pick r.manager, w.level ∈ levelOrder := by
    intro w hw
    obtain ⟨k, hk⟩ := (hrep.mem w).1 hw
    exact (hr.warns k w hk).level
  unfold addReport
  rw [hm.shown, hm.name]
  split
  · simp
  · rename_i h0
    have hsaid : said lookup [r] (tagOf lookup r.name) lt n = match WarnManager.reported r.events n with
        | none => none
        | some i => if levelText i.level = lt then some i else none := by
      unfold said; simp
    rw [hsaid]
    have hout : (∀ i, WarnManager.reported r.events n = some i → levelText i.level ≠ lt) →
        ((levelOrder.map (levelList S (shown S pick r.manager))).flatten).foldl (addWarn E source (tagOf lookup r.name)) V
          (tagOf lookup r.name) lt n = V (tagOf lookup r.name) lt n := by
      intro hno
      refine addWarns_out E source _ _ _ _ _ _ ?_
      rintro w hw ⟨_, e1, e2⟩
      obtain ⟨k, hk⟩ := (hrep.mem w).1 ((mem_ordered hlv w).1 hw)
      have : k = n := by rw [e2, WarnManager.reported_name hk]
      subst this
      exact hno w hk e1.symm
    cases e : WarnManager.reported r.events n with
    | none => rw [hout (by rw [e]; simp)]; rfl
    | some i =>
      simp only
      split
      · rename_i hl
        have hn := WarnManager.reported_name e
        have := addWarns_in E source (tagOf lookup r.name) _ V i (names_ordered (S := S) hnames) ((mem_ordered hlv i).2 ((hrep.mem i).2 ⟨n, e⟩))
        rw [hl, hn] at this
        rw [this]
        unfold addWarn after
        rw [if_pos ⟨rfl, hl.symm, hn.symm⟩]
        cases ev : V (tagOf lookup r.name) lt n with
        | none =>
          simp [found, hn]
          intro a _; rfl
        | some d =>
          have := hV d ev
          simp [found, hn, this]
          intro a _; rfl
      · rename_i hl
        rw [hout]
        · rfl
        · intro j hj; rw [e] at hj; cases hj; exact hl

theorem said_cons (lookup : Map Bytes Bytes) (r : Run) (rs : List Run) (h lt n : Bytes) :
    said lookup (r :: rs) h lt n = if tagOf lookup r.name = h then said lookup [r] h lt n else said lookup rs h lt n := by
  unfold said
  by_cases e : tagOf lookup r.name = h
  · simp [e]
  · simp [e, List.find?_cons]

theorem said_none {lookup : Map Bytes Bytes} {rs : List Run} {h : Bytes} (hn : ∀ r ∈ rs, tagOf lookup r.name ≠ h) (lt n : Bytes) :
    said lookup rs h lt n = none := by
  induction rs with
  | nil => rfl
  | cons r rs ih =>
    rw [said_cons, if_neg (hn r (by simp)), ih fun x hx => hn x (by simp [hx])]

/-- All reports. -/
theorem fold_reports {E : Env} {source : Bytes} {lookup : Map Bytes Bytes} {S : Sorter} {pick : List Bytes → List Bytes} (hp : ∀ l, (pick l).Perm l)
    (f : Run → Manager) (hf : ∀ r, Like S pick r (f r)) (h lt n : Bytes) : ∀ (rs : List Run) (V : Bytes → Bytes → Bytes → Option DWarn),
    (∀ r ∈ rs, OkRun E.lib lookup r) → (rs.map fun r => tagOf lookup r.name).Nodup → (∀ d, V h lt n = some d → d.name = n) →
    (Silent lookup rs h → (rs.map f).foldl (addReport E source lookup S pick) V h lt n = none) ∧
    (¬ Silent lookup rs h → (rs.map f).foldl (addReport E source lookup S pick) V h lt n = after E source (V h lt n) (said lookup rs h lt n))
  | [], V, _, _, _ => ⟨(by rintro ⟨r, hr, _⟩; cases hr), fun _ => rfl⟩
  | r :: rs, V, hok, hd, hV => by
    rw [List.map_cons, List.nodup_cons] at hd
    rw [List.map_cons, List.foldl_cons, said_cons]
    by_cases e : tagOf lookup r.name = h
    · subst e
      have hne : ∀ x ∈ rs, tagOf lookup r.name ≠ tagOf lookup x.name := fun x hx e => hd.1 (List.mem_map.2 ⟨x, hx, e.symm⟩)
      rw [fold_out (rs.map f) _ (by
        intro x hx
        obtain ⟨y, hy, rfl⟩ := List.mem_map.1 hx
        rw [(hf y).name]; exact hne y hy)]
      rw [addReport_said hp (hf r) (hok r (by simp)) lt n hV, if_pos rfl]
      have hrep := (names_shown (S := S) hp (hok r (by simp)).one).1
      have hs : Silent lookup (r :: rs) (tagOf lookup r.name) ↔ shown S pick r.manager = [] := by
        rw [shown_nil hrep]
        constructor
        · rintro ⟨x, hx, e, hn⟩
          rcases List.mem_cons.1 hx with rfl | hx
          · exact hn
          · exact absurd e.symm (hne x hx)
        · intro hn; exact ⟨r, by simp, rfl, hn⟩
      constructor
      · intro h; rw [if_pos (hs.1 h)]
      · intro h; rw [if_neg (fun h' => h (hs.2 h'))]
    · have hs : Silent lookup (r :: rs) h ↔ Silent lookup rs h := by
        constructor
        · rintro ⟨x, hx, e', hn⟩
          rcases List.mem_cons.1 hx with rfl | hx
          · exact absurd e' e
          · exact ⟨x, hx, e', hn⟩
        · rintro ⟨x, hx, hr⟩; exact ⟨x, by simp [hx], hr⟩
      have hv : addReport E source lookup S pick V (f r) h lt n = V h lt n :=
        addReport_other (by rw [(hf r).name]; exact fun h => e h.symm)
      rw [if_neg e, hs]
      have := fold_reports (E := E) (source := source) hp f hf h lt n rs (addReport E source lookup S pick V (f r))
        (fun x hx => hok x (by simp [hx])) hd.2 (by rw [hv]; exact hV)
      rw [hv] at this
      exact this

/-! ### The warnings of the benchmark run -/

/-- The lines that follow the reports. -/
inductive Tail : List Bytes → Prop
  | nothing : Tail []
  | listing {rest : List Bytes} : Tail ([] :: b!" Handlers by warning:" :: rest)

theorem reads_marked {fl : Floats F} {t : Bytes} {ls : List Bytes} {ds : List (Data F)} {ws : List Bytes}
    (h : BenchData.Reads fl ((b!"# " ++ t) :: ls) ds ws false) (hm : Marks t) : ∃ ws', ws = t :: ws' ∧ BenchData.Reads fl ls ds ws' false := by
  generalize el : b!"# " ++ t = l at h
  generalize ef : false = e at h
  generalize ell : l :: ls = lls at h
  cases h with
  | done => cases ell
  | define hd _ => cases ell; subst el; exact absurd hd (marks_not hm)
  | warn _ e hr =>
    cases ell; subst el ef
    have := List.append_cancel_left e
    subst this
    exact ⟨_, rfl, hr⟩
  | data hd => cases ell; subst el; exact absurd rfl (BenchData.dataLine_mark hd (0x20 :: t))
  | bad hd _ => cases ef
  | other _ hw => cases ell; subst el; exact absurd ⟨t, rfl⟩ hw

theorem reads_other {fl : Floats F} {l : Bytes} {ls : List Bytes} {ds : List (Data F)} {ws : List Bytes}
    (h : BenchData.Reads fl (l :: ls) ds ws false) (hm : ¬ b!"# " <+: l ∨ BenchData.Defines l) : ∃ ds', BenchData.Reads fl ls ds' ws false := by
  generalize ef : false = e at h
  generalize ell : l :: ls = lls at h
  cases h with
  | done => cases ell
  | define hd hr => cases ell; subst ef; exact ⟨_, hr⟩
  | warn hn e hr =>
    cases ell
    rcases hm with hm | hm
    · exact absurd ⟨_, e.symm⟩ hm
    · exact absurd hm hn
  | data _ _ _ _ _ _ _ hr => cases ell; subst ef; exact ⟨_, hr⟩
  | bad => cases ef
  | other _ _ _ hr => cases ell; subst ef; exact ⟨_, hr⟩

theorem among_reads {fl : Floats F} {rs ls : List Bytes} (h : Among rs ls) : ∀ {ts : List Bytes} {ds : List (Data F)} {ws : List Bytes},
    rs = ts.map (b!"# " ++ ·) → (∀ t ∈ ts, Marks t) → BenchData.Reads fl ls ds ws false → ∃ tail, ws = ts ++ tail ∧ Tail tail := by
  induction h with
  | done =>
    intro ts ds ws e _ hr
    have : ts = [] := by simpa using e.symm
    subst this
    cases hr
    exact ⟨[], rfl, .nothing⟩
  | @listing rest =>
    intro ts ds ws e _ hr
    have : ts = [] := by simpa using e.symm
    subst this
    obtain ⟨ws1, rfl, hr1⟩ := reads_marked (t := []) hr ⟨[], by simp, .inl rfl⟩
    obtain ⟨ws2, rfl, hr2⟩ := reads_marked (t := b!" Handlers by warning:") hr1
      ⟨b!" ", by decide, .inr ⟨0x48, b!"andlers by warning:", rfl, by decide, by decide⟩⟩
    exact ⟨_, rfl, .listing⟩
  | @report l rs ls _ ih =>
    intro ts ds ws e hm hr
    cases ts with
    | nil => cases e
    | cons t ts =>
      rw [List.map_cons, List.cons.injEq] at e
      obtain ⟨rfl, e⟩ := e
      obtain ⟨ws', rfl, hr'⟩ := reads_marked hr (hm t (by simp))
      obtain ⟨tail, rfl, ht⟩ := ih e (fun x hx => hm x (by simp [hx])) hr'
      exact ⟨tail, rfl, ht⟩
  | @other l rs ls ho _ ih =>
    intro ts ds ws e hm hr
    obtain ⟨ds', hr⟩ := reads_other hr ho
    exact ih e hm hr

/-- The marked lines come from the lines. -/
theorem reads_from {fl : Floats F} {ls : List Bytes} {ds : List (Data F)} {ws : List Bytes} {e : Bool} (h : BenchData.Reads fl ls ds ws e) :
    ∀ t ∈ ws, b!"# " ++ t ∈ ls := by
  induction h with
  | done => simp
  | define _ _ ih => intro t ht; exact List.mem_cons_of_mem _ (ih t ht)
  | warn _ e _ ih =>
    intro t ht
    rcases List.mem_cons.1 ht with rfl | ht
    · rw [← e]; simp
    · exact List.mem_cons_of_mem _ (ih t ht)
  | data _ _ _ _ _ _ _ _ ih => intro t ht; exact List.mem_cons_of_mem _ (ih t ht)
  | bad => simp
  | other _ _ _ _ ih => intro t ht; exact List.mem_cons_of_mem _ (ih t ht)

theorem reportLines_solid {S : Sorter} {pick : List Bytes → List Bytes} {m : Manager} (hp : m.showPrefix = []) : ∃ X, reportLines S pick m = [] :: X ∧ X ≠ [] ∧ ∀ x ∈ X, x ≠ [] := by
  unfold reportLines
  rw [hp]
  refine ⟨_, rfl, by simp, ?_⟩
  intro l hl
  rcases List.mem_cons.1 hl with rfl | hl
  · simp
  · replace hl : l ∈ (if shown S pick m = [] then [b!"  None"] else (levelOrder.map (levelLines S [] (shown S pick m))).flatten) := hl
    split at hl
    · simp only [List.mem_singleton] at hl
      subst hl; simp
    · obtain ⟨ls, hls, hl⟩ := List.mem_flatten.1 hl
      obtain ⟨lv, hlv, rfl⟩ := List.mem_map.1 hls
      unfold levelLines at hl
      split at hl
      · cases hl
      · rcases List.mem_cons.1 hl with rfl | hl
        · simp
        · obtain ⟨ls, hls, hl⟩ := List.mem_flatten.1 hl
          obtain ⟨w, hw, rfl⟩ := List.mem_map.1 hls
          unfold warnLines at hl
          rcases List.mem_cons.1 hl with rfl | hl
          · simp
          · obtain ⟨ls, hls, hl⟩ := List.mem_flatten.1 hl
            obtain ⟨d, hd, rfl⟩ := List.mem_map.1 hls
            unfold instLines instLinesOf at hl
            simp only [List.cons_append, List.mem_cons, List.mem_append, List.mem_map, List.nil_append] at hl
            rcases hl with rfl | ⟨x, _, rfl⟩ | hl
            · split <;> simp
            · simp
            · split at hl
              · cases hl
              · simp only [List.mem_singleton] at hl
                subst hl; simp

/-- The lines of several reports. -/
theorem reports_solid {S : Sorter} {pick : List Bytes → List Bytes} : ∀ (ms : List Manager),
    (∀ m ∈ ms, m.showPrefix = []) → (ms.map (reportLines S pick)).flatten = [] ∨
      ∃ l X, (ms.map (reportLines S pick)).flatten = [] :: l :: X ∧ l ≠ [] ∧ (l :: X).getLast? ≠ some []
  | [], _ => .inl rfl
  | m :: ms, hm => by
    obtain ⟨Y, e, hY0, hY⟩ := reportLines_solid (S := S) (pick := pick) (hm m (by simp))
    obtain ⟨l, Y, rfl⟩ : ∃ l Z, Y = l :: Z := by
      cases Y with
      | nil => exact absurd rfl hY0
      | cons l Z => exact ⟨l, Z, rfl⟩
    right
    rw [List.map_cons, List.flatten_cons, e]
    rcases reports_solid ms (fun x hx => hm x (by simp [hx])) with h0 | ⟨l', X', e', hl', hlast⟩
    · rw [h0]
      refine ⟨l, Y, by simp, hY l (by simp), fun h => hY _ (List.mem_of_getLast? h) rfl⟩
    · refine ⟨l, Y ++ [] :: l' :: X', by rw [e']; simp, hY l (by simp), ?_⟩
      rw [show l :: (Y ++ [] :: l' :: X') = (l :: Y ++ [[]]) ++ (l' :: X') by simp, List.getLast?_append]
      cases e'' : (l' :: X').getLast? with
      | none => simp at e''
      | some y => rw [e''] at hlast; simpa using hlast

theorem dropLast_tail {X rest : List Bytes} {a : Bytes} {g : Bytes → Bytes} (ha : a ≠ []) (hg : ∀ x ∈ X, g x = x) (h0 : g [] = []) (h1 : g a = a) :
    ∃ rest', (if (X ++ [] :: a :: rest).getLast? = some [] then (X ++ [] :: a :: rest).dropLast else X ++ [] :: a :: rest).map g =
      X ++ [] :: a :: rest' := by
  have hX : X.map g = X := by
    rw [List.map_congr_left hg]; simp
  have key : ∀ r : List Bytes, (X ++ [] :: a :: r).map g = X ++ [] :: a :: r.map g := by
    intro r; simp [hX, h0, h1]
  cases hr : rest with
  | nil =>
    refine ⟨[], ?_⟩
    rw [if_neg]
    · rw [key]; rfl
    · simpa using ha
  | cons r rs =>
    split
    · refine ⟨((r :: rs).dropLast).map g, ?_⟩
      have : (X ++ [] :: a :: r :: rs).dropLast = X ++ [] :: a :: (r :: rs).dropLast := by
        rw [List.dropLast_append_of_ne_nil (by simp)]; simp
      rw [this, key]
    · exact ⟨_, key _⟩

theorem okManager {E : Env} {lookup : Map Bytes Bytes} {S : Sorter} {pick : List Bytes → List Bytes} (hp : ∀ l, (pick l).Perm l) {r : Run}
    (hr : OkRun E.lib lookup r) : OkManager E.lib S pick r.manager ∧ OkManager E.lib S pick (bare r.manager) := by
  have hw : ∀ i ∈ shown S pick r.manager, OkWarn E.lib i := by
    intro i hi
    obtain ⟨n, hn⟩ := ((names_shown (S := S) hp hr.one).1.mem i).1 hi
    exact hr.warns n i hn
  refine ⟨⟨by rw [(run_name r).2]; exact hr.pre, by rw [(run_name r).1]; exact hr.name, hw⟩, .inl (by simp [bare]), ?_, by rw [shown_bare]; exact hw⟩
  show OkName r.manager.name
  rw [(run_name r).1]; exact hr.name

theorem unlines_lines {ls : List Bytes} (h : ∀ l ∈ ls, Clean l) : splitLines (unlines ls) = ls := by
  have := splitLines_unlines h []
  simpa [splitLines] using this

theorem printed_lines {E : Env} {lookup : Map Bytes Bytes} {S : Sorter} {pick : List Bytes → List Bytes} (hp : ∀ l, (pick l).Perm l) {rs : List Run}
    (hr : ∀ r ∈ rs, OkRun E.lib lookup r) : splitLines (printed S pick rs) = (rs.map fun r => reportLines S pick r.manager).flatten := by
  have : printed S pick rs = unlines (rs.map fun r => reportLines S pick r.manager).flatten := by
    unfold printed
    rw [unlines_flatten, List.map_map]
    congr 1
    exact List.map_congr_left fun r h => showWarnings_lines (okManager hp (hr r h)).1
  rw [this, unlines_lines]
  intro l hl
  obtain ⟨ls, hls, hl⟩ := List.mem_flatten.1 hl
  obtain ⟨r, h, rfl⟩ := List.mem_map.1 hls
  exact reportLines_clean (okManager hp (hr r h)).1 l hl

theorem takeWhile_mem (p : Bytes → Bool) : ∀ {ls : List Bytes} {l : Bytes}, l ∈ ls.takeWhile p → p l = true
  | x :: ls, l, h => by
    rw [List.takeWhile_cons] at h
    split at h
    · rename_i hx
      rcases List.mem_cons.1 h with rfl | h
      · exact hx
      · exact takeWhile_mem p h
    · cases h

theorem takeWhile_all (p : Bytes → Bool) : ∀ {ls : List Bytes}, (∀ l ∈ ls, p l = true) → ls.takeWhile p = ls
  | [], _ => rfl
  | x :: ls, h => by
    rw [List.takeWhile_cons, if_pos (h x (by simp)), takeWhile_all p fun l hl => h l (by simp [hl])]

theorem scan_short {text l : Bytes} (h : l ∈ scanLines text) : l.length < 65536 := by
  unfold scanLines at h
  obtain ⟨x, hx, rfl⟩ := List.mem_map.1 h
  have h1 := takeWhile_mem _ hx
  have h2 : (dropCR x).length ≤ x.length := by
    unfold dropCR
    split <;> simp
  simp at h1
  omega

theorem scan_all {text : Bytes} (h : ∀ l ∈ splitLines text, l.length < 65536) : scanLines text = (splitLines text).map dropCR := by
  unfold scanLines
  congr 1
  refine takeWhile_all _ fun l hl => ?_
  simpa using h l hl

/-- What the text of the warnings is, for the parser. -/
theorem scan_text {ts tail : List Bytes} (hclean : ∀ t ∈ ts, Clean t) (htail : Tail tail)
    (hone : ∀ t ∈ ts ++ tail, OneLine t ∧ t.length < 65536)
    (hts : ts = [] ∨ ∃ l X, ts = [] :: l :: X ∧ l ≠ [] ∧ (l :: X).getLast? ≠ some []) :
    (∀ l ∈ splitLines ((ts ++ tail).foldl BenchData.addText []), l.length < 65536) ∧
    (ts ++ tail = [] ∧ scanLines ((ts ++ tail).foldl BenchData.addText []) = [] ∨
      ∃ tail', Tail tail' ∧ [] :: scanLines ((ts ++ tail).foldl BenchData.addText []) = ts ++ tail') := by
  have hkey : ∀ (l : Bytes) (X : List Bytes), l ≠ [] → ts ++ tail = [] :: l :: X →
      (ts ++ tail).foldl BenchData.addText [] = l ++ glue X ∧
      splitLines (l ++ glue X) = (if (l :: X).getLast? = some [] then (l :: X).dropLast else l :: X) := by
    intro l X hl e
    rw [e]
    constructor
    · rw [List.foldl_cons, List.foldl_cons]
      rw [show BenchData.addText [] [] = [] from rfl, show BenchData.addText [] l = l by simp [BenchData.addText], fold_text l hl]
    · refine split_glue X l fun x hx => (hone x ?_).1
      rw [e]; exact List.mem_cons_of_mem _ hx
  have hshort : ∀ (l : Bytes) (X : List Bytes), l ≠ [] → ts ++ tail = [] :: l :: X → ∀ x ∈ splitLines (l ++ glue X), x.length < 65536 := by
    intro l X hl e x hx
    rw [(hkey l X hl e).2] at hx
    refine (hone x ?_).2
    rw [e]
    refine List.mem_cons_of_mem _ ?_
    split at hx
    · exact (List.dropLast_sublist _).subset hx
    · exact hx
  rcases hts with rfl | ⟨l, X, rfl, hl, hlast⟩
  · cases htail with
    | nothing =>
      refine ⟨?_, .inl ⟨rfl, rfl⟩⟩
      intro l hl
      simp [splitLines] at hl
    | @listing rest =>
      have hk := hkey b!" Handlers by warning:" rest (by simp) rfl
      have hs := hshort b!" Handlers by warning:" rest (by simp) rfl
      rw [hk.1]
      refine ⟨hs, .inr ?_⟩
      rw [scan_all hs, hk.2]
      obtain ⟨rest', e⟩ := dropLast_tail (X := []) (rest := rest) (a := b!" Handlers by warning:") (g := dropCR) (by simp) (by simp) rfl rfl
      refine ⟨_, .listing (rest := rest'), ?_⟩
      rw [List.nil_append, List.nil_append] at e
      rw [List.getLast?_cons_cons, List.dropLast_cons_cons] at e
      rw [List.nil_append, ← e]
      split <;> rfl
  · have hmap : (l :: X).map dropCR = l :: X := by
      rw [List.map_congr_left (g := id)]
      · simp
      · intro x hx; exact dropCR_of (hclean x (by simp only [List.mem_cons] at hx ⊢; exact .inr hx)).2
    cases htail with
    | nothing =>
      have hk := hkey l X hl (by simp)
      have hs := hshort l X hl (by simp)
      rw [hk.1]
      refine ⟨hs, .inr ⟨[], .nothing, ?_⟩⟩
      rw [scan_all hs, hk.2, if_neg hlast, hmap]; simp
    | @listing rest =>
      have hk := hkey l (X ++ [] :: b!" Handlers by warning:" :: rest) hl (by simp)
      have hs := hshort l (X ++ [] :: b!" Handlers by warning:" :: rest) hl (by simp)
      rw [hk.1]
      refine ⟨hs, .inr ?_⟩
      rw [scan_all hs, hk.2]
      obtain ⟨rest', e⟩ := dropLast_tail (X := l :: X) (rest := rest) (a := b!" Handlers by warning:") (g := dropCR) (by simp)
        (by intro x hx; exact dropCR_of (hclean x (List.mem_cons_of_mem _ hx)).2) rfl rfl
      refine ⟨_, .listing (rest := rest'), ?_⟩
      rw [List.cons_append] at e
      rw [e]; rfl

/-- What the warnings of the benchmark run are. -/
theorem bench_reports {E : Env} (hL : LowersLib E.lib) {fl : Floats F} {S : Sorter} {pick : List Bytes → List Bytes} (hp : ∀ l, (pick l).Perm l)
    (source : Bytes) (lookup : Map Bytes Bytes) {rs : List Run} (hr : ∀ r ∈ rs, OkRun E.lib lookup r ∧ r.pfx = b!"# " ∧ Apart r)
    {bench : Bytes} {b : Bench F} (hb : Bench.parse E fl {} bench = (b, false)) (ha : Among (splitLines (printed S pick rs)) (scanLines bench)) :
    ∃ w, parseWarningData E source lookup {} b.warningText = some (w, false) ∧ Inv w ∧
      (∀ h lt n, w.look h lt n = (rs.map fun r => bare r.manager).foldl (addReport E source lookup S pick) (Warns.look {}) h lt n) ∧
      Logged E w ((rs.map fun r => bare r.manager).map (reportSaves E source lookup S pick)).flatten ∧
      w.handlerData = (rs.map fun r => bare r.manager).foldl (fun D m => named E lookup D m.name) [] := by
  have hr' : ∀ r ∈ rs, OkRun E.lib lookup r := fun r h => (hr r h).1
  rw [printed_lines hp hr'] at ha
  have hflat : (rs.map fun r => reportLines S pick r.manager).flatten =
      (((rs.map fun r => bare r.manager).map (reportLines S pick)).flatten).map (b!"# " ++ ·) := by
    rw [List.map_flatten, List.map_map, List.map_map]
    congr 1
    refine List.map_congr_left fun r h => ?_
    rw [reportLines_bare, (run_name r).2, (hr r h).2.1]
    rfl
  have hok : ∀ m ∈ rs.map fun r => bare r.manager, OkManager E.lib S pick m ∧ tagOf lookup m.name ≠ [] := by
    intro m hm
    obtain ⟨r, h, rfl⟩ := List.mem_map.1 hm
    refine ⟨(okManager hp (hr' r h)).2, ?_⟩
    show tagOf lookup r.manager.name ≠ []
    rw [(run_name r).1]; exact (hr' r h).tag
  have hpre : ∀ m ∈ rs.map fun r => bare r.manager, m.showPrefix = [] := by
    intro m hm
    obtain ⟨r, h, rfl⟩ := List.mem_map.1 hm
    rfl
  have hmarks : ∀ t ∈ ((rs.map fun r => bare r.manager).map (reportLines S pick)).flatten, Marks t := by
    intro t ht
    obtain ⟨ls, hls, ht⟩ := List.mem_flatten.1 ht
    obtain ⟨m, hm, rfl⟩ := List.mem_map.1 hls
    refine reportLines_marks (hok m hm).1 (hpre m hm) ?_ t ht
    obtain ⟨r, h, rfl⟩ := List.mem_map.1 hm
    intro w hw d hd
    rw [shown_bare] at hw
    obtain ⟨n, hn⟩ := ((names_shown (S := S) hp (hr' r h).one).1.mem w).1 hw
    exact (hr r h).2.2 n w hn d hd
  have hclean : ∀ t ∈ ((rs.map fun r => bare r.manager).map (reportLines S pick)).flatten, Clean t := by
    intro t ht
    obtain ⟨ls, hls, ht⟩ := List.mem_flatten.1 ht
    obtain ⟨m, hm, rfl⟩ := List.mem_map.1 hls
    exact reportLines_clean (hok m hm).1 t ht
  obtain ⟨ds, ws, e, hreads⟩ := BenchData.reads_total fl (scanLines bench)
  have hl := BenchData.lines_reads (E := E) hreads (fun l hl => BenchData.scan_oneLine hl) {}
  unfold Bench.parse at hb
  simp only [Prod.mk.injEq, Bool.or_eq_false_iff] at hb
  rw [hb.2.1, hb.1] at hl
  obtain ⟨rfl, hafter⟩ := hl
  obtain ⟨tail, rfl, htail⟩ := among_reads ha hflat hmarks hreads
  have hwt : b.warningText = _ := hafter.warningText
  have hfrom := reads_from hreads
  have hone : ∀ t ∈ ((rs.map fun r => bare r.manager).map (reportLines S pick)).flatten ++ tail, OneLine t ∧ t.length < 65536 := by
    intro t ht
    have hmem := hfrom t ht
    have h1 := BenchData.scan_oneLine hmem
    have h2 := scan_short hmem
    refine ⟨fun x hx e => h1 ?_, ?_⟩
    · subst e; simp [hx]
    · simp at h2; omega
  obtain ⟨hshort, hscan⟩ := scan_text hclean htail hone (reports_solid _ hpre)
  have hr0 : RelL E ({ w := {} } : PState) (Warns.look {}) [] [] :=
    ⟨⟨by rw [save_none rfl]; exact inv_new, fun h lt n => by rw [save_none rfl]⟩, by rw [save_none rfl]; exact logged_new E, rfl⟩
  have hany : ((splitLines b.warningText).any fun l => decide (65536 ≤ l.length)) = false := by
    rw [List.any_eq_false]
    intro l hl
    rw [hwt] at hl
    have := hshort l hl
    simp; omega
  unfold parseWarningData
  rw [hany, hwt]
  rcases hscan with ⟨h0, h1⟩ | ⟨tail', ht', h1⟩
  · have h0 := List.append_eq_nil_iff.1 h0
    have hnil : (rs.map fun r => bare r.manager) = [] := by
      cases hc : (rs.map fun r => bare r.manager) with
      | nil => rfl
      | cons m ms =>
        have h0 := h0.1
        rw [hc] at h0
        simp [reportLines] at h0
    rw [hnil] at h1 ⊢
    refine ⟨_, by rw [h1]; rfl, by rw [save_none rfl]; exact inv_new, fun h lt n => by rw [save_none rfl]; rfl, by rw [save_none rfl]; exact logged_new E, rfl⟩
  · generalize scanLines _ = ls at h1 ⊢
    obtain ⟨st, e, hrel⟩ := loop_reports (source := source) (lookup := lookup) hL tail' S pick (rs.map fun r => bare r.manager) _ _ _ _ hok hr0
    rw [← h1, loop_next (top_blank (.inl (by simp)))] at e
    rw [e]
    cases ht' with
    | nothing => exact ⟨_, rfl, hrel.inv, hrel.view, hrel.log, (save_data E _).trans hrel.data⟩
    | @listing rest =>
      rw [loop_next (top_blank (.inl (by simp)))]
      rw [parseLoop]
      have := top_by (E := E) (source := source) (lookup := lookup) (p := []) (st := st) (.inl (by simp))
      rw [List.nil_append] at this
      rw [this]
      exact ⟨_, rfl, hrel.inv, hrel.view, hrel.log, (save_data E _).trans hrel.data⟩

/-! ### C60 -/

/-- What is given to `setup`: the output of a benchmark run in which the reports of runs are found, and
the output of a verification run that ends with reports of runs. -/
structure Given (E : Env) (fl : Floats F) (S : Sorter) (pick : List Bytes → List Bytes) (bench verify : Bytes) (b : Bench F)
    (lookup : Map Bytes Bytes) (rs vs : List Run) : Prop where
  /-- The results can be read. -/
  results : Bench.parse E fl {} bench = (b, false)
  /-- The reports of the benchmark run. -/
  runs : ∀ r ∈ rs, OkRun E.lib lookup r ∧ r.pfx = b!"# " ∧ Apart r
  tags : (rs.map fun r => tagOf lookup r.name).Nodup
  among : Among (splitLines (printed S pick rs)) (scanLines bench)
  /-- The reports of the verification run. -/
  verRuns : ∀ r ∈ vs, OkRun E.lib lookup r
  verTags : (vs.map fun r => tagOf lookup r.name).Nodup
  verText : ∃ head tail, verify = head ++ printed S pick vs ++ tail ∧ WarnReport.Before head ∧ WarnReport.After tail
  verShort : ∀ l ∈ splitLines (printed S pick vs), l.length < 65536

theorem lookup_again (pick : List Bytes → List Bytes) (b : Bench F) :
    (b.handlerLookup pick).1.handlerLookup pick = b.handlerLookup pick := by
  unfold Bench.handlerLookup
  cases h : b.lookup <;> simp [h]

theorem said_name {lookup : Map Bytes Bytes} {rs : List Run} {h lt n : Bytes} {i : Instances} (hs : said lookup rs h lt n = some i) : i.name = n := by
  unfold said at hs
  split at hs
  · cases hs
  · split at hs
    · cases hs
    · rename_i e
      split at hs
      · cases hs; exact WarnManager.reported_name e
      · cases hs

theorem said_silent {lookup : Map Bytes Bytes} {rs : List Run} {h : Bytes} (hd : (rs.map fun r => tagOf lookup r.name).Nodup) (hs : Silent lookup rs h) (lt n : Bytes) :
    said lookup rs h lt n = none := by
  induction rs with
  | nil => rfl
  | cons r rs ih =>
    rw [List.map_cons, List.nodup_cons] at hd
    obtain ⟨x, hx, e, hn⟩ := hs
    rw [said_cons]
    rcases List.mem_cons.1 hx with rfl | hx
    · rw [if_pos e]
      unfold said
      simp [e, hn n]
    · rw [if_neg]
      · exact ih hd.2 ⟨x, hx, e, hn⟩
      · intro e'; exact hd.1 (List.mem_map.2 ⟨x, hx, by rw [e, e']⟩)

/-- What the outputs leave behind. -/
theorem setup_reads {E : Env} (hL : LowersLib E.lib) {fl : Floats F} {S : Sorter} {pick names : List Bytes → List Bytes} (hp : ∀ l, (pick l).Perm l)
    {bench verify : Bytes} {b : Bench F} {rs vs : List Run} (hg : Given E fl S pick bench verify b (b.handlerLookup names).2 rs vs) :
    ∃ w, setup E fl names {} {} bench verify = some ((b.handlerLookup names).1, w, false) ∧ (∀ h lt n,
      (Silent (b.handlerLookup names).2 vs h → w.look h lt n = none) ∧
      (¬ Silent (b.handlerLookup names).2 vs h →
        w.look h lt n = both E (said (b.handlerLookup names).2 rs h lt n) (said (b.handlerLookup names).2 vs h lt n))) ∧
      Logged E w ((rs.map fun r => reportSaves E b!"Bench" (b.handlerLookup names).2 S pick r.manager).flatten ++
        (vs.map fun r => reportSaves E b!"Verify" (b.handlerLookup names).2 S pick r.manager).flatten) ∧
      ∀ bs tail, verify = unlines bs ++ printed S pick vs ++ tail → WarnReport.Quiets bs → WarnReport.After tail →
        (beforeAll (b.handlerLookup names).2 bs (rs.foldl (fun D r => named E (b.handlerLookup names).2 D r.name) [])).1 = none →
        w.handlerData = vs.foldl (fun D r => named E (b.handlerLookup names).2 D r.name)
          (beforeAll (b.handlerLookup names).2 bs (rs.foldl (fun D r => named E (b.handlerLookup names).2 D r.name) [])).2 := by
  have hnames := lookup_again names b
  generalize hbl : b.handlerLookup names = bl at *
  obtain ⟨b1, lookup⟩ := bl
  simp only at *
  have hwt : b1.warningText = b.warningText := by
    unfold Bench.handlerLookup at hbl
    split at hbl <;> · cases hbl; rfl
  obtain ⟨w1, hw1, hi1, hv1, hl1, hd1⟩ := bench_reports hL hp b!"Bench" lookup hg.runs hg.results hg.among
  have like1 : ∀ r : Run, Like S pick r (bare r.manager) := fun r => ⟨shown_bare S pick _, (run_name r).1⟩
  have like2 : ∀ r : Run, Like S pick r r.manager := fun r => ⟨rfl, (run_name r).1⟩
  have hview1 : ∀ h lt n, w1.look h lt n = (said lookup rs h lt n).map (found E b!"Bench") := by
    intro h lt n
    rw [hv1]
    obtain ⟨f1, f2⟩ := fold_reports (E := E) (source := b!"Bench") (lookup := lookup) hp _ like1 h lt n rs (Warns.look {})
      (fun r hr => (hg.runs r hr).1) hg.tags (by intro d hd; cases hd)
    by_cases hs : Silent lookup rs h
    · rw [f1 hs, said_silent hg.tags hs]; rfl
    · rw [f2 hs]
      cases said lookup rs h lt n <;> rfl
  obtain ⟨_, tail, htext, ⟨bs, hbs, rfl⟩, htail⟩ := hg.verText
  have hall := fun bs hbs tail htail => parse_all hL S pick b!"Verify" lookup w1 hi1 hl1 bs hbs (vs.map Run.manager)
    (by
      intro m hm
      obtain ⟨r, h, rfl⟩ := List.mem_map.1 hm
      refine ⟨(okManager hp (hg.verRuns r h)).1, ?_⟩
      rw [(run_name r).1]; exact (hg.verRuns r h).tag)
    (printed S pick vs) tail (by rw [List.map_map]; rfl) hg.verShort htail
  obtain ⟨w2, hw2, _, hv2, hl2, _⟩ := hall bs hbs tail htail
  rw [List.map_map, List.map_map] at hl2
  refine ⟨w2, ?_, fun h lt n => ?_, ?_, ?_⟩
  · unfold setup
    rw [hg.results]
    simp only
    rw [hbl]
    simp only
    rw [hwt, hw1]
    simp only
    rw [hnames]
    simp only
    rw [htext, hw2]
  · rw [hv2]
    obtain ⟨f1, f2⟩ := fold_reports (E := E) (source := b!"Verify") (lookup := lookup) hp Run.manager like2 h lt n vs w1.look
      hg.verRuns hg.verTags (by
        intro d hd
        rw [hview1] at hd
        cases hs : said lookup rs h lt n with
        | none => rw [hs] at hd; cases hd
        | some i =>
          rw [hs] at hd; cases hd
          exact said_name hs)
    refine ⟨f1, fun hs => ?_⟩
    rw [f2 hs, hview1]
    cases said lookup rs h lt n <;> cases said lookup vs h lt n <;> rfl
  · have e : ((reportSaves E b!"Bench" lookup S pick) ∘ fun r : Run => bare r.manager) = fun r => reportSaves E b!"Bench" lookup S pick r.manager := by
      funext r
      show reportSaves E b!"Bench" lookup S pick (bare r.manager) = _
      unfold reportSaves
      rw [shown_bare]
      rfl
    rw [e] at hl2
    exact hl2
  · intro bs' tail' ht' hbs' htail' hn
    obtain ⟨w3, hw3, _, _, _, hd3⟩ := hall bs' hbs' tail' htail'
    rw [← ht', htext, hw2] at hw3
    cases hw3
    rw [List.foldl_map] at hd1 hd3
    have e1 : w1.handlerData = rs.foldl (fun D r => named E lookup D r.name) [] := by
      rw [hd1]
      congr 1; funext D r; rw [show (bare r.manager).name = r.manager.name from rfl, (run_name r).1]
    rw [← e1] at hn ⊢
    rw [hd3 hn]
    congr 1; funext D r; rw [(run_name r).1]

/-- C60: the outputs are read without error, and for every handler and every warning the server then knows
the instances of the benchmark run followed by those of the verification run, unless the verification
run says that there are no warnings for the handler: then it knows none, whatever was found in the benchmark run.
The results of the benchmark run are as they were read. -/
theorem C60_partial {E : Env} (hL : LowersLib E.lib) {fl : Floats F} {S : Sorter} {pick names : List Bytes → List Bytes} (hp : ∀ l, (pick l).Perm l)
    {bench verify : Bytes} {b : Bench F} {rs vs : List Run} (hg : Given E fl S pick bench verify b (b.handlerLookup names).2 rs vs) :
    ∃ w, setup E fl names {} {} bench verify = some ((b.handlerLookup names).1, w, false) ∧ ∀ h lt n,
      (Silent (b.handlerLookup names).2 vs h → w.look h lt n = none) ∧
      (¬ Silent (b.handlerLookup names).2 vs h →
        w.look h lt n = both E (said (b.handlerLookup names).2 rs h lt n) (said (b.handlerLookup names).2 vs h lt n)) := by
  obtain ⟨w, hw, hv, _⟩ := setup_reads hL hp hg
  exact ⟨w, hw, hv⟩

/-- C60 in full. -/
def C60_statement (fl : Floats F) : Prop := ∀ (E : Env), LowersLib E.lib → ∀ (S : Sorter) (pick names : List Bytes → List Bytes), (∀ l, (pick l).Perm l) →
  ∀ (bench verify : Bytes) (b : Bench F) (rs vs : List Run), Given E fl S pick bench verify b (b.handlerLookup names).2 rs vs →
    ∃ w, setup E fl names {} {} bench verify = some ((b.handlerLookup names).1, w, false) ∧ ∀ h lt n,
      w.look h lt n = both E (said (b.handlerLookup names).2 rs h lt n) (said (b.handlerLookup names).2 vs h lt n)

/-! ### Cases -/

/-- The output of a benchmark run: a handler is named, there is a result, a report, and the list of handlers by warning. -/
def someBench : Bytes := b!"# Handler[PhsymZerolog]=\"phsym/zerolog\"\ngoos: linux\nBenchmarkPhsymZerolog/BenchmarkSimple-8\t  100\t  12.5 ns/op\n" ++
  b!"# \n# Warnings for phsym/zerolog:\n#   Required\n#      2 [Duplicates] Duplicate field(s) found\n#          TestCase: 2x[Alpha]\n" ++
  b!"#            +  more\n#            {\"a\": 1}\n#          TestOther\n#   Administrative\n#      1 [Unused] Unused Warnings(s)\n#          BenchmarkCase: Unreal\n" ++
  b!"# \n#  Handlers by warning:\n#   Required\n#     [Duplicates] Duplicate field(s) found\n#       phsym/zerolog\nPASS\n"

/-- The same run during verification. -/
def verRun : Run := { someRun with pfx := [] }
/-- A run without warnings. -/
def noRun : Run := { name := b!"phsym/zerolog", pfx := [], ops := [] }

/-- What there is to be looked up. -/
def someLookup : Map Bytes Bytes := [(b!"phsym/zerolog", b!"PhsymZerolog")]

theorem some_ok' : OkRun someLib someLookup someRun := ⟨some_ok.one, some_ok.pre, some_ok.name, by decide, some_ok.warns⟩
theorem ver_ok : OkRun someLib someLookup verRun := ⟨some_ok.one, .inl (by simp [verRun]), some_ok.name, by decide, some_ok.warns⟩
theorem no_ok : OkRun someLib someLookup noRun :=
  ⟨(by intro op h; cases h), .inl (by simp [noRun]), some_ok.name, by decide, (by intro n i h; cases h)⟩

theorem some_among : Among (splitLines (printed someSorter id [someRun])) (scanLines someBench) := by
  have e1 : splitLines (printed someSorter id [someRun]) = [b!"# ", b!"# Warnings for phsym/zerolog:", b!"#   Required",
      b!"#      2 [Duplicates] Duplicate field(s) found", b!"#          TestCase: 2x[Alpha]", b!"#            +  more",
      b!"#            {\"a\": 1}", b!"#          TestOther", b!"#   Administrative", b!"#      1 [Unused] Unused Warnings(s)",
      b!"#          BenchmarkCase: Unreal"] := by decide +kernel
  have e2 : scanLines someBench = [b!"# Handler[PhsymZerolog]=\"phsym/zerolog\"", b!"goos: linux",
      b!"BenchmarkPhsymZerolog/BenchmarkSimple-8\t  100\t  12.5 ns/op", b!"# ", b!"# Warnings for phsym/zerolog:", b!"#   Required",
      b!"#      2 [Duplicates] Duplicate field(s) found", b!"#          TestCase: 2x[Alpha]", b!"#            +  more",
      b!"#            {\"a\": 1}", b!"#          TestOther", b!"#   Administrative", b!"#      1 [Unused] Unused Warnings(s)",
      b!"#          BenchmarkCase: Unreal", b!"# ", b!"#  Handlers by warning:", b!"#   Required",
      b!"#     [Duplicates] Duplicate field(s) found", b!"#       phsym/zerolog", b!"PASS"] := by decide +kernel
  rw [e1, e2]
  refine .other (.inr (by unfold BenchData.Defines; decide +kernel)) (.other (.inl (by decide)) (.other (.inl (by decide)) ?_))
  iterate 11 refine .report ?_
  exact .listing

theorem some_apart : Apart someRun := by
  intro n i h d hd
  rw [some_events] at h
  unfold WarnManager.reported WarnManager.under at h
  have hm : ∀ e ∈ [(⟨⟨4, b!"Duplicates", b!"Duplicate field(s) found", []⟩, b!"TestCase", b!"2x[Alpha]\n  more", b!"{\"a\": 1}\n"⟩ : WarnManager.Event),
      ⟨⟨1, b!"Unused", b!"Unused Warnings(s)", []⟩, b!"BenchmarkCase", b!"Unreal", []⟩,
      ⟨⟨4, b!"Duplicates", b!"Duplicate field(s) found", []⟩, b!"TestOther", [], []⟩], ¬ b!"Handler[" <+: e.shown.function := by decide
  split at h
  · cases h
  · rename_i e rest he
    cases h
    simp only at hd
    obtain ⟨x, hx, rfl⟩ := List.mem_map.1 hd
    rw [← he] at hx
    exact hm x (List.mem_filter.1 hx).1

/-- The environment of the cases. -/
def someEnv : Env := ⟨someLib, fun s => [s], fun s => some s⟩

theorem some_results : Bench.parse someEnv BenchData.terms {} someBench = ((Bench.parse someEnv BenchData.terms {} someBench).1, false) := by
  have : (Bench.parse someEnv BenchData.terms {} someBench).2 = false := by decide +kernel
  rw [← this]

theorem some_lookup : ((Bench.parse someEnv BenchData.terms {} someBench).1.handlerLookup id).2 = someLookup := by decide +kernel

theorem some_given {v : Run} {verify : Bytes} (hv : OkRun someLib someLookup v) (ht : printed someSorter id [v] = verify)
    (hs : ∀ l ∈ splitLines verify, l.length < 65536) :
    Given someEnv BenchData.terms someSorter id someBench verify (Bench.parse someEnv BenchData.terms {} someBench).1 someLookup [someRun] [v] where
  results := some_results
  runs := by intro r hr; simp only [List.mem_singleton] at hr; subst hr; exact ⟨some_ok', rfl, some_apart⟩
  tags := by simp
  among := some_among
  verRuns := by intro r hr; simp only [List.mem_singleton] at hr; subst hr; exact hv
  verTags := by simp
  verText := ⟨[], [], by simp [ht], before_nil, .nothing⟩
  verShort := by rw [ht]; exact hs

/-- What the verification run without warnings prints. -/
def noVerify : Bytes := b!"\nWarnings for phsym/zerolog:\n  None\n"

theorem no_given : Given someEnv BenchData.terms someSorter id someBench noVerify (Bench.parse someEnv BenchData.terms {} someBench).1 someLookup [someRun] [noRun] :=
  some_given no_ok (by decide +kernel) (by decide)

/-- What the verification run with warnings prints. -/
def someVerify : Bytes := printed someSorter id [verRun]

theorem ver_given : Given someEnv BenchData.terms someSorter id someBench someVerify (Bench.parse someEnv BenchData.terms {} someBench).1 someLookup [someRun] [verRun] :=
  some_given ver_ok rfl (by decide +kernel)

/-- C60 does not hold in full: the verification run, by reporting nothing, takes away what was found in the benchmark run. -/
theorem C60_erased : ¬ C60_statement BenchData.terms := by
  intro h
  have hg := no_given
  rw [← some_lookup] at hg
  obtain ⟨w, hw, hv⟩ := h someEnv ⟨_, some_lowers⟩ someSorter id id (fun l => .refl l) _ _ _ _ _ hg
  obtain ⟨w', hw', hv'⟩ := C60_partial (E := someEnv) ⟨_, some_lowers⟩ (fun l => .refl l) hg
  rw [hw] at hw'
  cases hw'
  have h1 := hv b!"PhsymZerolog" b!"Required" b!"Duplicates"
  have h2 := (hv' b!"PhsymZerolog" b!"Required" b!"Duplicates").1 (by
    rw [some_lookup]
    exact ⟨noRun, by simp, by decide, fun n => rfl⟩)
  rw [h2, some_lookup] at h1
  have : (both someEnv (said someLookup [someRun] b!"PhsymZerolog" b!"Required" b!"Duplicates")
    (said someLookup [noRun] b!"PhsymZerolog" b!"Required" b!"Duplicates")).isSome = true := by decide +kernel
  rw [← h1] at this
  cases this

/-- Both runs found something: the instances of both are known. -/
example : ∃ b w, setup someEnv BenchData.terms id {} {} someBench someVerify = some (b, w, false) ∧
    ((w.look b!"PhsymZerolog" b!"Required" b!"Duplicates").map fun x => x.instances.map fun i => (i.source, i.tag)) =
      some [(b!"Bench", b!"Case"), (b!"Bench", b!"Other"), (b!"Verify", b!"Case"), (b!"Verify", b!"Other")] := by
  have hg := ver_given
  rw [← some_lookup] at hg
  obtain ⟨w, hw, hv⟩ := C60_partial (E := someEnv) ⟨_, some_lowers⟩ (fun l => .refl l) hg
  refine ⟨_, w, hw, ?_⟩
  rw [(hv b!"PhsymZerolog" b!"Required" b!"Duplicates").2, some_lookup]
  · decide +kernel
  · rw [some_lookup]
    rintro ⟨r, hr, _, hn⟩
    simp only [List.mem_singleton] at hr
    subst hr
    have := hn b!"Duplicates"
    revert this
    decide +kernel

/-! ### The lookup of names -/

theorem invert_get {m : Map Bytes Bytes} {N : Bytes} : ∀ (tags : List Bytes) (acc : Map Bytes Bytes) {t : Bytes},
    (∀ x ∈ tags, m.get x = some N → x = t) → (t ∈ tags ∧ m.get t = some N ∨ acc.get N = some t) → (invert m tags acc).get N = some t
  | [], acc, t, _, h => by
    rcases h with h | h
    · cases h.1
    · exact h
  | x :: tags, acc, t, hu, h => by
    unfold invert
    cases e : m.get x with
    | none =>
      refine invert_get tags acc (fun y hy => hu y (by simp [hy])) ?_
      rcases h with ⟨h1, h2⟩ | h
      · rcases List.mem_cons.1 h1 with rfl | h1
        · rw [e] at h2; cases h2
        · exact .inl ⟨h1, h2⟩
      · exact .inr h
    | some name =>
      refine invert_get tags _ (fun y hy => hu y (by simp [hy])) ?_
      by_cases hn : name = N
      · subst hn
        have := hu x (by simp) e
        subst this
        exact .inr (by rw [Map.get_set, if_pos rfl])
      · rcases h with ⟨h1, h2⟩ | h
        · rcases List.mem_cons.1 h1 with rfl | h1
          · rw [e] at h2; cases h2; exact absurd rfl hn
          · exact .inl ⟨h1, h2⟩
        · exact .inr (by rw [Map.get_set, if_neg (fun h => hn h.symm)]; exact h)

/-- C60: a name that belongs to one tag only is looked up as that tag, in whatever order the map is visited. -/
theorem C60_lookup {b : Bench F} (h0 : b.lookup = none) {pick : List Bytes → List Bytes} (hp : ∀ l, (pick l).Perm l) {t N : Bytes}
    (ht : b.handlerNames.get t = some N) (hu : ∀ x, b.handlerNames.get x = some N → x = t) :
    (b.handlerLookup pick).2.get N = some t := by
  unfold Bench.handlerLookup
  rw [h0]
  refine invert_get _ _ (fun x _ => hu x) (.inl ⟨(hp _).mem_iff.2 ((Map.mem_keys _ _).2 ?_), ht⟩)
  rw [ht]; rfl

example : (Bench.handlerLookup List.reverse ({ handlerNames := [(b!"A", b!"a/x"), (b!"B", b!"b")] } : Bench BenchData.Term)).2.get b!"b" = some b!"B" :=
  C60_lookup rfl (fun l => List.reverse_perm l) rfl (by
    intro x
    simp only [Map.get_cons, Map.get_nil]
    split
    · intro h; cases h
    · split
      · rename_i h; intro _; exact h.symm
      · intro h; cases h)

end Verif.Props.Setup
