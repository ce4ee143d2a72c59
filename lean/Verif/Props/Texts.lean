import Verif.Props.Links

/-
C82: texts shown by the server, and what is sent when a template fails.
-/

namespace Verif.Props.Texts

open Verif Verif.Go Verif.Server Verif.Data Verif.Props.Links

/-! ### Specification -/

/-- What is shown of an item, if its file can be read and is not empty. -/
inductive Loads (read : Bytes → Option Bytes) (md : Bytes → Bytes) : List TextItem → List TextItem → Prop
  | nil : Loads read md [] []
  | take {x : TextItem} {xs ys : List TextItem} {data : Bytes} : read x.path = some data → data ≠ [] → Loads read md xs ys →
      Loads read md (x :: xs) (⟨x.name, x.path, md x.summary, data⟩ :: ys)
  | missing {x : TextItem} {xs ys : List TextItem} : read x.path = none → Loads read md xs ys → Loads read md (x :: xs) ys
  | empty {x : TextItem} {xs ys : List TextItem} : read x.path = some [] → Loads read md xs ys → Loads read md (x :: xs) ys

/-- The last item with a name. -/
def lastNamed (ys : List TextItem) (n : Bytes) : Option TextItem := ys.reverse.find? fun y => y.name = n

/-! ### Loading -/

theorem loads_exists (read : Bytes → Option Bytes) (md : Bytes → Bytes) (xs : List TextItem) : ∃ ys, Loads read md xs ys := by
  induction xs with
  | nil => exact ⟨[], .nil⟩
  | cons x xs ih =>
    obtain ⟨ys, h⟩ := ih
    cases hr : read x.path with
    | none => exact ⟨ys, .missing hr h⟩
    | some data =>
      by_cases hd : data = []
      · subst hd; exact ⟨ys, .empty hr h⟩
      · exact ⟨_, .take hr hd h⟩

/-- A cache with the items loaded so far. -/
structure Holds (tc : TextCache) (ys : List TextItem) : Prop where
  names : tc.names = ys.map (·.name)
  cache : ∀ n, tc.cache.get n = lastNamed ys n

theorem holds_load {read : Bytes → Option Bytes} {md : Bytes → Bytes} {xs ys : List TextItem} (h : Loads read md xs ys) :
    ∀ {tc : TextCache} {zs : List TextItem}, Holds tc zs → Holds (xs.foldl (TextCache.load read md) tc) (zs ++ ys) := by
  induction h with
  | nil => intro tc zs h; simpa using h
  | @take x xs ys data hr hd _ ih =>
    intro tc zs h
    rw [List.foldl_cons]
    have : Holds (TextCache.load read md tc x) (zs ++ [⟨x.name, x.path, md x.summary, data⟩]) := by
      have hl : data.length > 0 := List.length_pos_iff.2 hd
      unfold TextCache.load
      rw [hr]
      simp only [hl, if_true]
      constructor
      · simp [h.names]
      · intro n
        simp only [Map.get_set]
        unfold lastNamed
        rw [List.reverse_append]
        simp only [List.reverse_cons, List.reverse_nil, List.nil_append, List.cons_append, List.find?_cons]
        by_cases e : x.name = n
        · simp [e]
        · have e' : ¬ n = x.name := fun h => e h.symm
          simp [e, e', h.cache n, lastNamed]
    have := ih this
    simpa using this
  | @missing x xs ys hr _ ih =>
    intro tc zs h
    rw [List.foldl_cons]
    have : TextCache.load read md tc x = tc := by unfold TextCache.load; rw [hr]
    rw [this]
    exact ih h
  | @empty x xs ys hr _ ih =>
    intro tc zs h
    rw [List.foldl_cons]
    have : TextCache.load read md tc x = tc := by unfold TextCache.load; rw [hr]; simp
    rw [this]
    exact ih h

theorem holds_new {read : Bytes → Option Bytes} {md : Bytes → Bytes} {xs ys : List TextItem} (h : Loads read md xs ys) :
    Holds (TextCache.new read md xs) ys := by
  have := holds_load h (tc := {}) (zs := []) ⟨rfl, fun n => rfl⟩
  exact ⟨this.names, this.cache⟩

theorem lastNamed_mem {ys : List TextItem} {y : TextItem} (hy : y ∈ ys) : ∃ z, lastNamed ys y.name = some z := by
  unfold lastNamed
  rw [← Option.isSome_iff_exists, List.find?_isSome]
  exact ⟨y, by simp [hy], by simp⟩

theorem lastNamed_unique {ys : List TextItem} (hn : (ys.map (·.name)).Nodup) {y : TextItem} (hy : y ∈ ys) : lastNamed ys y.name = some y := by
  obtain ⟨z, hz⟩ := lastNamed_mem hy
  have h1 : z.name = y.name := by
    have := List.find?_some hz
    simpa using this
  have h2 : z ∈ ys := by
    have := List.mem_of_find?_eq_some hz
    simpa using this
  rw [hz, List.inj_on_of_nodup_map hn h2 hy h1]

/-- C82: what is listed and what is shown, for all items and files. A name used twice lists the later item twice. -/
theorem C82_cache {read : Bytes → Option Bytes} {md : Bytes → Bytes} {xs ys : List TextItem} (h : Loads read md xs ys) :
    (TextCache.new read md xs).items.map some = ys.map (fun y => lastNamed ys y.name) ∧
    (∀ n, (TextCache.new read md xs).textItem n =
      (lastNamed ys n).getD ⟨[], n, b!"Text Not Found", b!"Path: " ++ n⟩) ∧
    ((TextCache.new read md xs).hasText = true ↔ ys ≠ []) := by
  have hh := holds_new h
  refine ⟨?_, fun n => ?_, ?_⟩
  · have e : (TextCache.new read md xs).items =
        (TextCache.new read md xs).names.map fun name => ((TextCache.new read md xs).cache.get name).getD {} := rfl
    rw [e, hh.names, List.map_map, List.map_map]
    refine List.map_congr_left fun y hy => ?_
    obtain ⟨z, hz⟩ := lastNamed_mem hy
    simp [hh.cache, hz]
  · unfold TextCache.textItem
    rw [hh.cache]
    cases lastNamed ys n <;> rfl
  · unfold TextCache.hasText
    rw [decide_eq_true_iff]
    constructor
    · rintro hl rfl
      obtain ⟨p, hp⟩ := List.exists_mem_of_length_pos hl
      have hk : p.1 ∈ (TextCache.new read md xs).cache.keys := List.mem_map.2 ⟨p, hp, rfl⟩
      rw [Map.mem_keys, hh.cache] at hk
      cases hk
    · intro hy
      obtain ⟨y, ys', rfl⟩ := List.exists_cons_of_ne_nil hy
      obtain ⟨z, hz⟩ := lastNamed_mem (ys := y :: ys') (y := y) (by simp)
      have := hh.cache y.name
      rw [hz] at this
      cases hc : (TextCache.new read md xs).cache with
      | nil => rw [hc] at this; cases this
      | cons p m => simp

/-- C82: if names are not used twice, each readable item is listed once, in order, and found under its name with its own data. -/
theorem C82_distinct {read : Bytes → Option Bytes} {md : Bytes → Bytes} {xs ys : List TextItem} (h : Loads read md xs ys)
    (hn : (ys.map (·.name)).Nodup) :
    (TextCache.new read md xs).items = ys ∧ (∀ y ∈ ys, (TextCache.new read md xs).textItem y.name = y) ∧
    (∀ n, n ∉ ys.map (·.name) → (TextCache.new read md xs).textItem n = ⟨[], n, b!"Text Not Found", b!"Path: " ++ n⟩) := by
  obtain ⟨h1, h2, _⟩ := C82_cache h
  refine ⟨?_, fun y hy => by rw [h2, lastNamed_unique hn hy]; rfl, fun n hx => ?_⟩
  · have : ys.map (fun y => lastNamed ys y.name) = ys.map some := List.map_congr_left fun y hy => lastNamed_unique hn hy
    rw [this] at h1
    exact (List.map_injective_iff.2 (Option.some_injective _)) h1
  · rw [h2]
    have : lastNamed ys n = none := by
      unfold lastNamed
      rw [List.find?_eq_none]
      intro y hy e
      exact hx (List.mem_map.2 ⟨y, by simpa using hy, by simpa using e⟩)
    rw [this]; rfl

theorem loads_sublist {read : Bytes → Option Bytes} {md : Bytes → Bytes} {xs ys : List TextItem} (h : Loads read md xs ys) :
    (ys.map (·.name)).Sublist (xs.map (·.name)) := by
  induction h with
  | nil => exact .slnil
  | take _ _ _ ih => exact ih.cons_cons _
  | missing _ _ ih => exact ih.cons _
  | empty _ _ ih => exact ih.cons _

theorem loads_mem {read : Bytes → Option Bytes} {md : Bytes → Bytes} {xs ys : List TextItem} (h : Loads read md xs ys) (y : TextItem) :
    y ∈ ys ↔ ∃ x ∈ xs, ∃ data, read x.path = some data ∧ data ≠ [] ∧ y = ⟨x.name, x.path, md x.summary, data⟩ := by
  induction h with
  | nil => simp
  | @take x xs ys data hr hd _ ih =>
    rw [List.mem_cons, ih]
    constructor
    · rintro (rfl | ⟨x', h1, h2⟩)
      · exact ⟨x, by simp, data, hr, hd, rfl⟩
      · exact ⟨x', by simp [h1], h2⟩
    · rintro ⟨x', h1, d, h2, h3, h4⟩
      rcases List.mem_cons.1 h1 with rfl | h1
      · rw [hr] at h2
        cases h2
        exact .inl h4
      · exact .inr ⟨x', h1, d, h2, h3, h4⟩
  | @missing x xs ys hr _ ih =>
    rw [ih]
    constructor
    · rintro ⟨x', h1, h2⟩; exact ⟨x', by simp [h1], h2⟩
    · rintro ⟨x', h1, d, h2, h3⟩
      rcases List.mem_cons.1 h1 with rfl | h1
      · rw [hr] at h2; cases h2
      · exact ⟨x', h1, d, h2, h3⟩
  | @empty x xs ys hr _ ih =>
    rw [ih]
    constructor
    · rintro ⟨x', h1, h2⟩; exact ⟨x', by simp [h1], h2⟩
    · rintro ⟨x', h1, d, h2, h3, h4⟩
      rcases List.mem_cons.1 h1 with rfl | h1
      · rw [hr] at h2; cases h2; exact absurd rfl h3
      · exact ⟨x', h1, d, h2, h3, h4⟩

variable {κ : Type}

/-- C82, for the texts of the program and whatever is in the files: listed are those whose file can be read and is not empty, in
order; the link of each leads from the home page to the page that shows it, with what is in its file. -/
theorem C82_texts (read : Bytes → Option Bytes) (md : Bytes → Bytes) (get : Bytes → Option κ) {base : Bytes}
    (hb : base = b!"go-slog/" ∨ base = b!"go-slog/index.html") :
    Loads read md texts (TextCache.new read md texts).items ∧
    ∀ y ∈ (TextCache.new read md texts).items,
      (∃ x ∈ texts, y.name = x.name ∧ read x.path = some y.data ∧ y.data ≠ [] ∧ y.summary = md x.summary) ∧
      ∃ s, opens get (TextCache.new read md texts) base (textLink y.name) = some s ∧ s.page = .text ∧ s.item = some y := by
  obtain ⟨ys, h⟩ := loads_exists read md texts
  have hx : (texts.map (·.name)).Nodup := by decide
  have hn := (loads_sublist h).nodup hx
  obtain ⟨h1, h2, _⟩ := C82_distinct h hn
  rw [h1]
  refine ⟨h, fun y hy => ?_⟩
  obtain ⟨x, hx, data, hr, hd, e⟩ := (loads_mem h y).1 hy
  refine ⟨⟨x, hx, by rw [e], by rw [e]; exact hr, by rw [e]; exact hd, by rw [e]⟩, ?_⟩
  have hp : (∀ c ∈ x.name, c ≠ 0x2F ∧ c ≠ 0x3F ∧ c ≠ 0x23 ∧ c ≠ 0x25) ∧ x.name ≠ [] ∧ x.name ≠ b!"." ∧ x.name ≠ b!".." := by
    clear hr e
    revert x
    decide
  have hxn : x.name = y.name := by rw [e]
  rw [hxn] at hp
  refine ⟨shown get (TextCache.new read md texts) .text [(b!"tag", y.name)] [], ?_, shown_page .., ?_⟩
  · rw [opens_iff, shown_page]
    exact ⟨_, (C81_text hb y.name).2 ⟨plain_of hp.1, hp.2.1, hp.2.2.1, hp.2.2.2⟩, rfl⟩
  · have e1 : paramOf [(b!"tag", y.name)] b!"tag" = y.name := rfl
    simp only [shown, e1, if_pos hp.2.1, h2 y hy]

/-- C82: what is sent. If the template of the page succeeds, its text; otherwise the text of the error page, which is given
all errors, with that of the page as the last; nothing only if that fails too, or the error page itself was asked for. -/
theorem C82_pages (get : Bytes → Option κ) (tc : TextCache) (exec : Shown κ → Except Bytes Bytes) (page : Page)
    (ps : List (Bytes × Bytes)) (errs : List Bytes) :
    (∀ html, exec (shown get tc page ps errs) = .ok html → pageFunction get tc exec page ps errs = (some html, errs)) ∧
    (∀ e html, page ≠ .error → exec (shown get tc page ps errs) = .error e →
      exec { page := .error, keeper := get (paramOf ps b!"keeper"), errors := errs ++ [e] } = .ok html →
      pageFunction get tc exec page ps errs = (some html, errs ++ [e])) ∧
    ((pageFunction get tc exec page ps errs).1 = none → ∃ e, exec (shown get tc page ps errs) = .error e ∧
      (page = .error ∨ ∃ e', exec { page := .error, keeper := get (paramOf ps b!"keeper"), errors := errs ++ [e] } = .error e')) := by
  have hs : ∀ es, shown get tc .error ps es = { page := .error, keeper := get (paramOf ps b!"keeper"), errors := es } := fun _ => rfl
  refine ⟨fun html h => ?_, fun e html hp h he => ?_, fun hn => ?_⟩
  · unfold pageFunction; rw [h]
  · unfold pageFunction; rw [h]; simp only [hs, if_neg hp, he]
  · unfold pageFunction at hn
    cases h : exec (shown get tc page ps errs) with
    | ok html => rw [h] at hn; cases hn
    | error e =>
      rw [h] at hn
      refine ⟨e, rfl, ?_⟩
      by_cases hp : page = .error
      · exact .inl hp
      · right
        simp only [hs, if_neg hp] at hn
        split at hn
        · cases hn
        · rename_i e' he; exact ⟨e', he⟩

/-! ### Cases -/

/-- Files for the cases: one is missing, one has text. -/
def someFiles (path : Bytes) : Option Bytes :=
  if path = b!"docs/bench.txt" then some b!"goos: linux" else if path = b!"docs/tabular.txt" then some [] else none

/-- A case for `C82_texts`: one of three texts is listed, and shown. -/
example : (TextCache.new someFiles id texts).items = [⟨b!"bench.txt", b!"docs/bench.txt", b!"Benchmark test output file", b!"goos: linux"⟩] ∧
    ∃ s, opens (fun _ => (none : Option Unit)) (TextCache.new someFiles id texts) b!"go-slog/" (textLink b!"bench.txt") = some s ∧
      s.item.map (·.data) = some b!"goos: linux" := by
  have h : (TextCache.new someFiles id texts).items = [⟨b!"bench.txt", b!"docs/bench.txt", b!"Benchmark test output file", b!"goos: linux"⟩] := by
    decide +kernel
  refine ⟨h, ?_⟩
  obtain ⟨_, s, h1, _, h3⟩ := (C82_texts someFiles id (fun _ => (none : Option Unit)) (.inl rfl)).2
    ⟨b!"bench.txt", b!"docs/bench.txt", b!"Benchmark test output file", b!"goos: linux"⟩ (by rw [h]; simp)
  exact ⟨s, h1, by rw [h3]; rfl⟩

/-- A case for `C82_cache` that is none for `C82_distinct`: a name that is used twice. -/
example : ((TextCache.new (fun p => some p) id [⟨b!"a", b!"x", [], []⟩, ⟨b!"a", b!"y", [], []⟩]).items.map (·.data)) = [b!"y", b!"y"] := by
  decide +kernel

/-- A case for `C82_pages`: the page of a handler fails, and the error page says why. -/
example : pageFunction (fun _ => (none : Option Unit)) {} (fun s => if s.page = .error then .ok s.errors.flatten else .error b!"no data") .handler
    [(b!"tag", b!"x.html")] [] = (some b!"no data", [b!"no data"]) :=
  (C82_pages (fun _ => (none : Option Unit)) {} _ .handler [(b!"tag", b!"x.html")] []).2.1 b!"no data" b!"no data" (by simp) rfl rfl

end Verif.Props.Texts
