import Verif.Tools.Enum
import Verif.Spec.LowerCase
import Verif.Spec.Numeral

/-
C54: enumerations round-trip.
-/

namespace Verif.Props.Enum

open Verif Verif.Go Verif.Slog Verif.Tools Verif.Letters

/-! ### What is meant by an enumeration -/

/-- The generated code `e` is that of an enumeration with these names, in the order of the
values. -/
structure Is (e : Tools.Enum) (names : List Bytes) : Prop where
  length : e.index.length - 1 = names.length
  string : ∀ i : Fin names.length, e.string i = names[i]
  map : e.map = names.zipIdx.flatMap fun (n, i) => [(n, i), (n.map down, i)]
  nodup : e.map.keys.Nodup
  ascii : ∀ n ∈ names, Ascii n
  plain : ∀ n ∈ names, 0x28 ∉ n

/-- The names of benchmark items (internal/data/bench_items.go:12-20). -/
def benchNames : List Bytes := [b!"Runs", b!"Nanos", b!"MemAllocs", b!"MemBytes", b!"MbPerSec", b!"GbPerSec", b!"TbPerSec"]
/-- The names of score types (internal/scoring/score/type.go:10-15). -/
def typeNames : List Bytes := [b!"Default", b!"ByData", b!"Original", b!"ByTest"]
/-- The names of modes (creator/veqryndedup/creator.go:17-28). -/
def modeNames : List Bytes := [b!"None", b!"Append", b!"Ignore", b!"Increment", b!"Overwrite"]

theorem is_bench : Is benchItems benchNames where
  length := rfl
  string := by decide +kernel
  map := by decide +kernel
  nodup := by decide +kernel
  ascii := by unfold Ascii; decide +kernel
  plain := by decide +kernel

theorem is_type : Is scoreType typeNames where
  length := rfl
  string := by decide +kernel
  map := by decide +kernel
  nodup := by decide +kernel
  ascii := by unfold Ascii; decide +kernel
  plain := by decide +kernel

theorem is_mode : Is dedupMode modeNames where
  length := rfl
  string := by decide +kernel
  map := by decide +kernel
  nodup := by decide +kernel
  ascii := by unfold Ascii; decide +kernel
  plain := by decide +kernel

/-! ### Lemmas -/

theorem get_iff {e : Tools.Enum} {names : List Bytes} (h : Is e names) (s : Bytes) (v : Nat) :
    e.map.get s = some v ↔ ∃ n, names[v]? = some n ∧ (s = n ∨ s = n.map down) := by
  have hm : e.map.get s = some v ↔ (s, v) ∈ e.map := ⟨Map.mem_of_get, Map.get_of_mem h.nodup⟩
  rw [hm, h.map, List.mem_flatMap]
  constructor
  · rintro ⟨⟨n, i⟩, hn, hs⟩
    rw [List.mem_zipIdx_iff_getElem?] at hn
    simp only [List.mem_cons, Prod.mk.injEq, List.not_mem_nil, or_false] at hs
    rcases hs with ⟨rfl, rfl⟩ | ⟨rfl, rfl⟩
    · exact ⟨_, hn, .inl rfl⟩
    · exact ⟨_, hn, .inr rfl⟩
  · rintro ⟨n, hn, hs⟩
    refine ⟨(n, v), List.mem_zipIdx_iff_getElem?.2 hn, ?_⟩
    simp only [List.mem_cons, Prod.mk.injEq, List.not_mem_nil, or_false, and_true]
    exact hs

theorem ascii_down {n : Bytes} (h : Ascii n) : Ascii (n.map down) := (down_text n).1.ascii h

/-- What is the same text but for case reads as its lower case. -/
theorem readsAs_of_same {s t : Bytes} (h : SameText s t) : ReadsAs s t := by
  induction h with
  | nil => exact .nil
  | cons h _ ih => exact .letter h ih

/-- A lower case that is ASCII has no capital letter. -/
theorem lower_noUpper {L : Replace.Lib} {low : Nat → Bytes} (h : Lowers L low) (s : Bytes) (ha : Ascii (L.toLower s)) : NoUpper (L.toLower s) := by
  rw [h.map] at *
  generalize hn : s.length = n at *
  induction n using Nat.strongRecOn generalizing s with
  | ind n ih =>
    cases s with
    | nil =>
      rw [mapRunes_nil]
      intro b hb
      cases hb
    | cons a s =>
      cases hd : decodeRune (a :: s) with
      | none => cases hd
      | some pair =>
        obtain ⟨r, w⟩ := pair
        rw [mapRunes_step low hd] at ha ⊢
        have hw := decodeRune_width hd
        have hrest : NoUpper (mapRunes low ((a :: s).drop w)) := by
          refine ih ((a :: s).drop w).length (by simp at hn ⊢; omega) _ ?_ rfl
          intro b hb
          exact ha b (List.mem_append_right _ hb)
        have hfirst : NoUpper (low r) := by
          by_cases ha' : a < 0x80
          · have : (r, w) = (a.toNat, 1) := by
              unfold decodeRune at hd
              simp only [if_pos ha', Option.some.injEq] at hd
              exact hd.symm
            cases this
            rw [h.ascii a ha']
            intro b hb
            rw [List.mem_singleton] at hb
            rw [hb]
            exact (down_spec a).2
          · obtain ⟨h1, _, _⟩ := decode_high ha' hd
            by_cases hr : r = 0x130
            · rw [hr, h.dotted]; unfold NoUpper; decide
            · by_cases hk : r = 0x212A
              · rw [hk, h.kelvin]; unfold NoUpper; decide
              · obtain ⟨b, u, hb, hb'⟩ := h.other r h1 hr hk
                have := ha b (by rw [hb]; simp)
                simp only [UInt8.le_iff_toNat_le, UInt8.lt_iff_toNat_lt] at *
                simp at *; omega
        intro b hb
        rcases List.mem_append.1 hb with hb | hb
        · exact hfirst b hb
        · exact hrest b hb

theorem noUpper_down {n : Bytes} (h : NoUpper n) : n.map down = n := by
  induction n with
  | nil => rfl
  | cons a n ih =>
    rw [List.map_cons, ih fun b hb => h b (by simp [hb])]
    congr 1
    exact down_eq a a (.inl rfl) (h a (by simp))

theorem unique {e : Tools.Enum} {names : List Bytes} (h : Is e names) {v w : Nat} {n m : Bytes} (hn : names[v]? = some n) (hm : names[w]? = some m)
    (he : n.map down = m.map down) : v = w := by
  have h1 : e.map.get (n.map down) = some v := (get_iff h _ _).2 ⟨n, hn, .inr rfl⟩
  have h2 : e.map.get (m.map down) = some w := (get_iff h _ _).2 ⟨m, hm, .inr rfl⟩
  rw [he, h2] at h1
  exact (Option.some.inj h1).symm

/-! ### The claims -/

/-- A text is accepted for a value iff it reads as the name of the value in any letter case; all else is refused. Go counts
U+0130 as a capital `i` and U+212A as a capital `k`. -/
theorem C54_parse_iff {L : Replace.Lib} {low : Nat → Bytes} (hL : Lowers L low) {e : Tools.Enum} {names : List Bytes} (h : Is e names)
    (s : Bytes) (v : Nat) : e.parse L s = some v ↔ ∃ n, names[v]? = some n ∧ ReadsAs s (n.map down) := by
  have key : ∀ n, n ∈ names → (L.toLower s = n.map down ↔ ReadsAs s (n.map down)) := fun n hn =>
    lower_iff hL (n.map down) (ascii_down (h.ascii n hn)) (down_text n).2 s
  have mem : ∀ {v : Nat} {n : Bytes}, names[v]? = some n → n ∈ names := fun e => List.mem_of_getElem? e
  have direct : ∀ n, n ∈ names → (s = n ∨ s = n.map down) → L.toLower s = n.map down := by
    intro n hn hs
    rw [key n hn]
    rcases hs with rfl | rfl
    · exact readsAs_of_same (down_text s).1.symm
    · exact readsAs_of_same (.refl _)
  unfold Enum.parse
  cases e1 : e.map.get s with
  | some w =>
    obtain ⟨m, hm, hs⟩ := (get_iff h s w).1 e1
    have hd := direct m (mem hm) hs
    simp only [Option.some.injEq]
    constructor
    · rintro rfl
      exact ⟨m, hm, (key m (mem hm)).1 hd⟩
    · rintro ⟨n, hn, hr⟩
      rw [← key n (mem hn), hd] at hr
      exact unique h hm hn hr
  | none =>
    simp only
    cases e2 : e.map.get (L.toLower s) with
    | some w =>
      obtain ⟨m, hm, hs⟩ := (get_iff h _ w).1 e2
      have hd : L.toLower s = m.map down := by
        rcases hs with hs | hs
        · have hu := lower_noUpper hL s (by rw [hs]; exact h.ascii m (mem hm))
          rw [hs] at hu ⊢
          exact (noUpper_down hu).symm
        · exact hs
      simp only [Option.some.injEq]
      constructor
      · rintro rfl
        exact ⟨m, hm, (key m (mem hm)).1 hd⟩
      · rintro ⟨n, hn, hr⟩
        rw [← key n (mem hn), hd] at hr
        exact unique h hm hn hr
    | none =>
      simp only [reduceCtorEq, false_iff]
      rintro ⟨n, hn, hr⟩
      rw [← key n (mem hn)] at hr
      have := (get_iff h (L.toLower s) v).2 ⟨n, hn, .inr hr⟩
      rw [e2] at this
      cases this

theorem string_eq {e : Tools.Enum} {names : List Bytes} (h : Is e names) {v : Nat} (hv : v < names.length) : names[v]? = some (e.string v) := by
  rw [h.string ⟨v, hv⟩]
  exact List.getElem?_eq_getElem hv

/-- Parsing what is printed for a value of the enumeration returns the value. -/
theorem C54_round_trip {L : Replace.Lib} {low : Nat → Bytes} (hL : Lowers L low) {e : Tools.Enum} {names : List Bytes} (h : Is e names)
    (v : Nat) (hv : v < names.length) : e.parse L (e.string v) = some v :=
  (C54_parse_iff hL h _ _).2 ⟨_, string_eq h hv, readsAs_of_same (down_text _).1.symm⟩

theorem reads_paren {s t : Bytes} (h : ReadsAs s t) (hs : 0x28 ∈ s) : 0x28 ∈ t := by
  induction h with
  | nil => exact hs
  | @letter a b s t hl _ ih =>
    rcases List.mem_cons.1 hs with rfl | hs
    · have : b = 0x28 := by
        unfold SameLetter Pair at hl
        simp only [UInt8.le_iff_toNat_le, ← UInt8.toNat_inj] at *
        simp at *
        omega
      simp [this]
    · simp [ih hs]
  | dotted _ ih =>
    simp only [List.mem_cons] at hs
    rcases hs with hs | hs | hs
    · exact absurd hs (by decide)
    · exact absurd hs (by decide)
    · simp [ih hs]
  | kelvin _ ih =>
    simp only [List.mem_cons] at hs
    rcases hs with hs | hs | hs | hs
    · exact absurd hs (by decide)
    · exact absurd hs (by decide)
    · exact absurd hs (by decide)
    · simp [ih hs]

theorem string_other {e : Tools.Enum} {names : List Bytes} (h : Is e names) {v : Nat} (hv : ¬ v < names.length) :
    e.string v = e.type ++ b!"(" ++ decNat v ++ b!")" := by
  unfold Enum.string
  rw [if_pos]
  rw [h.length]
  omega

/-- What is printed for any other number is refused. -/
theorem C54_others_refused {L : Replace.Lib} {low : Nat → Bytes} (hL : Lowers L low) {e : Tools.Enum} {names : List Bytes} (h : Is e names)
    (v : Nat) (hv : ¬ v < names.length) : e.parse L (e.string v) = none := by
  cases hp : e.parse L (e.string v) with
  | none => rfl
  | some w =>
    obtain ⟨n, hn, hr⟩ := (C54_parse_iff hL h _ _).1 hp
    have h1 : 0x28 ∈ e.string v := by rw [string_other h hv]; simp
    have h2 := reads_paren hr h1
    have h3 := reads_paren (readsAs_of_same (down_text n).1) h2
    exact absurd h3 (h.plain n (List.mem_of_getElem? hn))

/-- Different numbers are printed differently, whether they are values of the enumeration or not. -/
theorem C54_printing_injective {e : Tools.Enum} {names : List Bytes} (h : Is e names) (v w : Nat) (he : e.string v = e.string w) : v = w := by
  have other : ∀ v w, v < names.length → ¬ w < names.length → e.string v ≠ e.string w := by
    intro v w hv hw he
    have h1 : 0x28 ∈ e.string w := by rw [string_other h hw]; simp
    rw [← he] at h1
    exact h.plain _ (List.mem_of_getElem? (string_eq h hv)) h1
  by_cases hv : v < names.length
  · by_cases hw : w < names.length
    · refine unique h (string_eq h hv) (string_eq h hw) (by rw [he])
    · exact absurd he (other v w hv hw)
  · by_cases hw : w < names.length
    · exact absurd he.symm (other w v hw hv)
    · rw [string_other h hv, string_other h hw, List.append_left_inj, List.append_assoc, List.append_assoc, List.append_cancel_left_eq,
        List.append_cancel_left_eq] at he
      have h1 := readNat_decNat v
      rw [he, readNat_decNat] at h1
      exact (Option.some.inj h1).symm

/-- The claims for the three enumerations of the program. -/
theorem C54_all {L : Replace.Lib} {low : Nat → Bytes} (hL : Lowers L low) :
    ∀ p ∈ [(benchItems, benchNames), (scoreType, typeNames), (dedupMode, modeNames)],
      (∀ s v, p.1.parse L s = some v ↔ ∃ n, p.2[v]? = some n ∧ ReadsAs s (n.map down)) ∧
      (∀ v, v < p.2.length → p.2[v]? = some (p.1.string v) ∧ p.1.parse L (p.1.string v) = some v) ∧
      (∀ v w, p.1.string v = p.1.string w → v = w) := by
  have one : ∀ {e : Tools.Enum} {names : List Bytes}, Is e names →
      (∀ s v, e.parse L s = some v ↔ ∃ n, names[v]? = some n ∧ ReadsAs s (n.map down)) ∧
      (∀ v, v < names.length → names[v]? = some (e.string v) ∧ e.parse L (e.string v) = some v) ∧
      (∀ v w, e.string v = e.string w → v = w) := fun h =>
    ⟨C54_parse_iff hL h, fun v hv => ⟨string_eq h hv, C54_round_trip hL h v hv⟩, C54_printing_injective h⟩
  intro p hp
  simp only [List.mem_cons, List.not_mem_nil, or_false] at hp
  rcases hp with rfl | rfl | rfl
  · exact one is_bench
  · exact one is_type
  · exact one is_mode

/-- The library of the examples. -/
def someLib : Replace.Lib := { asciiLib with toLower := mapRunes someLow }

/-- Names in other letter case, with the Turkish capital letter, and others. -/
example : scoreType.parse someLib b!"BYtest" = some 3 ∧ scoreType.parse someLib (b!"or" ++ [0xC4, 0xB0] ++ b!"GINAL") = some 2 :=
  ⟨(C54_parse_iff some_lowers is_type _ _).2 ⟨b!"ByTest", rfl, readsAs_of_same (by
      refine .cons ?_ (.cons ?_ (.cons ?_ (.cons ?_ (.cons ?_ (.cons ?_ .nil))))) <;> decide)⟩,
    (C54_parse_iff some_lowers is_type _ _).2 ⟨b!"Original", rfl,
      .letter (by decide) (.letter (by decide) (.dotted (.letter (by decide) (.letter (by decide) (.letter (by decide)
        (.letter (by decide) (.letter (by decide) .nil)))))))⟩⟩
example : scoreType.string 4 = b!"Type(4)" ∧ scoreType.string 2 = b!"Original" ∧ benchItems.string 6 = b!"TbPerSec" ∧
    benchItems.parse asciiLib b!"memALLOCS" = some 2 ∧ benchItems.parse asciiLib b!"Mem" = none := by decide +kernel

/-! ### What is written beside -/

/-- Columns of different score types have different headers. -/
theorem C54_headers_injective (v w : Nat) (h : colHeader v = colHeader w) : v = w := by
  have known : ∀ v, v < 4 → colNames.get v = some (colHeader v) ∧ (colHeader v).head? ≠ some 0x55 := by decide +kernel
  have other : ∀ v, ¬ v < 4 → colHeader v = b!"Unknown:" ++ scoreType.string v := by
    intro v hv
    unfold colHeader
    have : colNames.get v = none := by
      cases e : colNames.get v with
      | none => rfl
      | some x =>
        have := Map.mem_of_get e
        simp only [colNames, List.mem_cons, Prod.mk.injEq, List.not_mem_nil, or_false] at this
        omega
    rw [this]
  have mixed : ∀ v w, v < 4 → ¬ w < 4 → colHeader v ≠ colHeader w := by
    intro v w hv hw he
    have := (known v hv).2
    rw [he, other w hw] at this
    exact this rfl
  by_cases hv : v < 4
  · by_cases hw : w < 4
    · have all : ∀ v, v < 4 → ∀ w, w < 4 → colHeader v = colHeader w → v = w := by decide +kernel
      exact all v hv w hw h
    · exact absurd h (mixed v w hv hw)
  · by_cases hw : w < 4
    · exact absurd h.symm (mixed w v hw hv)
    · rw [other v hv, other w hw, List.append_cancel_left_eq] at h
      exact C54_printing_injective is_type v w h

/-- The list of score types made of names has the types of the names that are known, in order. -/
theorem C54_list {L : Replace.Lib} {low : Nat → Bytes} (hL : Lowers L low) (names : List Bytes) :
    ∃ known : List (Bytes × Nat), (known.map Prod.fst).Sublist names ∧ typeList L names = known.map Prod.snd ∧
      (∀ p ∈ known, ∃ n, typeNames[p.2]? = some n ∧ ReadsAs p.1 (n.map down)) ∧
      ∀ s ∈ names, (∃ (v : Nat) (n : Bytes), typeNames[v]? = some n ∧ ReadsAs s (n.map down)) → s ∈ known.map Prod.fst := by
  have acc : ∀ (names : List Bytes) (r : List Nat), names.foldl (fun result name =>
      match scoreType.parse L name with
      | none => result
      | some st => result ++ [st]) r = r ++ names.filterMap (scoreType.parse L) := by
    intro names
    induction names with
    | nil => intro r; simp
    | cons a names ih =>
      intro r
      rw [List.foldl_cons, ih]
      cases e : scoreType.parse L a <;> simp [e]
  refine ⟨names.filterMap fun s => (scoreType.parse L s).map fun v => (s, v), ?_, ?_, ?_, ?_⟩
  · induction names with
    | nil => exact .slnil
    | cons a names ih =>
      rw [List.filterMap_cons]
      cases e : scoreType.parse L a with
      | none => exact ih.cons _
      | some v => exact ih.cons_cons _
  · refine (acc names []).trans ?_
    rw [List.nil_append, List.map_filterMap]
    congr 1
    funext s
    cases scoreType.parse L s <;> rfl
  · intro p hp
    obtain ⟨s, hs, he⟩ := List.mem_filterMap.1 hp
    cases e : scoreType.parse L s with
    | none => rw [e] at he; cases he
    | some v =>
      rw [e] at he
      cases he
      exact (C54_parse_iff hL is_type _ _).1 e
  · rintro s hs ⟨v, hv⟩
    have e := (C54_parse_iff hL is_type s v).2 hv
    exact List.mem_map.2 ⟨(s, v), List.mem_filterMap.2 ⟨s, hs, by rw [e]; rfl⟩, rfl⟩

example : typeList asciiLib [b!"bydata", b!"Nothing", b!"DEFAULT"] = [1, 0] := by decide +kernel

/-- The benchmark items have different short names and different long names, none of them empty. Other
numbers have empty names. -/
theorem C54_item_names (v : Nat) :
    (v < 7 → shortName v ≠ [] ∧ longName v ≠ [] ∧ ∀ w, shortName v = shortName w ∨ longName v = longName w → v = w) ∧
      (¬ v < 7 → shortName v = [] ∧ longName v = []) := by
  have other : ∀ v, ¬ v < 7 → shortName v = [] ∧ longName v = [] := by
    intro v hv
    have : testItemData.get v = none := by
      cases e : testItemData.get v with
      | none => rfl
      | some x =>
        have := Map.mem_of_get e
        simp only [testItemData, List.mem_cons, Prod.mk.injEq, List.not_mem_nil, or_false] at this
        omega
    unfold shortName longName
    rw [this]
    exact ⟨rfl, rfl⟩
  have nonempty : ∀ v, v < 7 → shortName v ≠ [] ∧ longName v ≠ [] := by decide +kernel
  have inj : ∀ v, v < 7 → ∀ w, w < 7 → shortName v = shortName w ∨ longName v = longName w → v = w := by decide +kernel
  refine ⟨fun hv => ⟨(nonempty v hv).1, (nonempty v hv).2, fun w h => ?_⟩, other v⟩
  by_cases hw : w < 7
  · exact inj v hv w hw h
  · rw [(other w hw).1, (other w hw).2] at h
    rcases h with h | h
    · exact absurd h (nonempty v hv).1
    · exact absurd h (nonempty v hv).2

/-- A case. -/
example : shortName 0 ≠ shortName 6 ∧ longName 6 ≠ [] ∧ shortName 7 = [] :=
  ⟨fun h => absurd ((C54_item_names 0).1 (by decide) |>.2.2 6 (.inl h)) (by decide), ((C54_item_names 6).1 (by decide)).2.1,
    ((C54_item_names 7).2 (by decide)).1⟩

end Verif.Props.Enum
