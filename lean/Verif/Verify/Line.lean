import Verif.Spec.Contract
import Verif.Props.FieldCount
import Verif.Props.BenchFlash

/-
Lemmas: what the verification suite makes of a line with a JSON object: the decoded map and the
field counter.
-/

namespace Verif.Verify
open Go Warning Slog Bench Json LogTree Flash

variable {F : Type} [DecidableEq F]

mutual
/-- No member inside is named `fields`. -/
def fieldless : Tree → Bool
  | .arr es => fieldlessAll es
  | .obj ms => fieldlessMembers ms
  | _ => true
/-- The same for elements. -/
def fieldlessAll : List Tree → Bool
  | [] => true
  | t :: ts => fieldless t && fieldlessAll ts
/-- The same for members. -/
def fieldlessMembers : List (Bytes × Tree) → Bool
  | [] => true
  | (k, t) :: ms => k != b!"fields" && fieldless t && fieldlessMembers ms
end

theorem fieldless_append {a b : List (Bytes × Tree)} (ha : fieldlessMembers a = true) (hb : fieldlessMembers b = true) :
    fieldlessMembers (a ++ b) = true := by
  induction a with
  | nil => exact hb
  | cons e a ih =>
    obtain ⟨k, t⟩ := e
    simp only [List.cons_append, fieldlessMembers, Bool.and_eq_true] at ha ⊢
    exact ⟨ha.1, ih ha.2⟩

open Props.FieldCount in
mutual
theorem plain_of_fieldless : ∀ (c : Cst) (t : Tree), c.decode = some t → fieldless t = true → Plain c
  | .null, _, _, _ => by simp [Plain]
  | .tru, _, _, _ => by simp [Plain]
  | .fls, _, _, _ => by simp [Plain]
  | .num _, _, _, _ => by simp [Plain]
  | .str _, _, _, _ => by simp [Plain]
  | .arr es, t, h, hf => by
    simp only [Cst.decode, Option.map_eq_some_iff] at h
    obtain ⟨ts, h1, rfl⟩ := h
    rw [Plain]
    exact plainElems_of es ts h1 (by simpa only [fieldless] using hf)
  | .obj ms, t, h, hf => by
    simp only [Cst.decode, Option.map_eq_some_iff] at h
    obtain ⟨ts, h1, rfl⟩ := h
    rw [Plain]
    exact plainMembers_of ms ts h1 (by simpa only [fieldless] using hf)
theorem plainElems_of : ∀ (es : List Cst) (ts : List Tree), decodeElems es = some ts → fieldlessAll ts = true → PlainElems es
  | [], _, _, _ => by simp [PlainElems]
  | c :: es, ts, h, hf => by
    simp only [decodeElems] at h
    split at h
    · rename_i t ts' h1 h2
      cases h
      simp only [fieldlessAll, Bool.and_eq_true] at hf
      rw [PlainElems]
      exact ⟨plain_of_fieldless c t h1 hf.1, plainElems_of es ts' h2 hf.2⟩
    · cases h
theorem plainMembers_of : ∀ (ms : List (Bytes × Cst)) (ts : List (Bytes × Tree)), decodeMembers ms = some ts →
    fieldlessMembers ts = true → PlainMembers ms
  | [], _, _, _ => by simp [PlainMembers]
  | (k, c) :: ms, ts, h, hf => by
    simp only [decodeMembers] at h
    split at h
    · rename_i k' t ts' h0 h1 h2
      cases h
      simp only [fieldlessMembers, Bool.and_eq_true, bne_iff_ne] at hf
      rw [PlainMembers]
      refine ⟨fun e => ?_, plain_of_fieldless c t h1 hf.1.2, plainMembers_of ms ts' h2 hf.2⟩
      subst e
      have : decodeBody b!"fields" = some b!"fields" := by decide +kernel
      rw [this] at h0
      exact absurd (Option.some.inj h0).symm hf.1.1
    · cases h
end

/-- A text of the grammar and the end of the line. -/
theorem parse_line {b : Bytes} {c : Cst} (h : Val b c) : Json.parse (b ++ [0x0A]) = some c := by
  have key := parseVal_of_val h (2 * (b ++ [0x0A]).length + 2) [0x0A] (by simp; omega) (show numChar 0x0A = false by decide)
  obtain ⟨a, t, rfl, ha, _⟩ := h.head
  rw [Json.parse, List.cons_append, skipWs_of_not ha, ← List.cons_append, key]
  rfl

theorem decode_keys : ∀ {ms : List (Bytes × Cst)} {ts : List (Bytes × Tree)}, decodeMembers ms = some ts →
    (ms.map fun e => Props.FieldCount.keyText e.1) = ts.map Prod.fst
  | [], _, h => by cases h; rfl
  | (k, c) :: ms, ts, h => by
    simp only [decodeMembers] at h
    split at h
    · rename_i k' t ts' h0 h1 h2
      cases h
      rw [List.map_cons, List.map_cons, decode_keys h2]
      simp only [Props.FieldCount.keyText, h0, Option.getD_some]
    · cases h

/-- A line with a JSON object that can be decoded, in which nothing is named `fields`. -/
structure Line (num : Bytes → Option F) (b : Bytes) (ms : List (Bytes × Tree)) : Prop where
  text : ∃ t, b = t ++ [0x0A] ∧ Denotes t (.obj ms)
  fits : fitsMembers 9999 ms = true
  nums : NumsOk num ms
  names : fieldlessMembers ms = true

omit [DecidableEq F] in
/-- The syntax tree of a line, and what the field counter says. -/
theorem Line.reports {num : Bytes → Option F} {b : Bytes} {ms : List (Bytes × Tree)} (h : Line num b ms)
    {U : Count.Uni} (hU : Count.Latin U) : ∃ cs c, Json.parse b = some (.obj cs) ∧ decodeMembers cs = some ms ∧
      Count.parse U b = some (c, .ok) ∧ Props.FieldCount.Reports c id cs := by
  obtain ⟨t, rfl, c, hc, hd⟩ := h.text
  cases c with
  | obj cs =>
    simp only [Cst.decode, Option.map_eq_some_iff, Tree.obj.injEq] at hd
    obtain ⟨ts, hd, rfl⟩ := hd
    obtain ⟨c, h1, h2⟩ := Props.FieldCount.C34_reports_partial hU (parse_line hc) (plainMembers_of cs ts hd h.names)
    exact ⟨cs, c, parse_line hc, hd, h1, h2⟩
  | _ => simp [Cst.decode] at hd

omit [DecidableEq F] in
/-- With different names all is counted once. -/
theorem Line.counted {num : Bytes → Option F} {b : Bytes} {ms : List (Bytes × Tree)} (h : Line num b ms)
    {U : Count.Uni} (hU : Count.Latin U) (hn : (ms.map Prod.fst).Nodup) : ∃ c, Count.parse U b = some (c, .ok) ∧
      c.numFields = ms.length ∧ c.duplicates = [] := by
  obtain ⟨cs, c, _, hd, hc, hr⟩ := h.reports hU
  have hk := decode_keys hd
  have hn' : (cs.map Prod.fst).Nodup := by
    have : (List.map Props.FieldCount.keyText (cs.map Prod.fst)).Nodup := by
      rw [List.map_map]
      rw [← hk] at hn
      exact hn
    exact List.Nodup.of_map _ this
  have hl : cs.length = ms.length := by
    have := congrArg List.length hk
    simpa using this
  refine ⟨c, hc, ?_, ?_⟩
  · rw [hr.number]
    show (List.map (fun e => e.1) cs).dedup.length = _
    rw [List.dedup_eq_self.2 hn', List.length_map, hl]
  · refine List.eq_nil_iff_forall_not_mem.2 fun e he => ?_
    obtain ⟨h1, h2⟩ := (hr.duplicates e.1 e.2).1 he
    have := List.nodup_iff_count_le_one.1 hn' e.1
    rw [h1] at h2
    exact absurd h2 (by simpa using this)

/-! ### The decoded map -/

section
variable {num : Bytes → Option F} {ms : List (Bytes × Tree)} {m : AMap F}

omit [DecidableEq F] in
theorem field_is (h : IsAny num (.obj ms) (.map m)) {k : Bytes} {t : Tree} (ht : lastOf ms k = some t) :
    IsAny num t (field m k) := by
  obtain ⟨a, h1, h2⟩ := isAny_get h ht
  rw [field, h1]
  exact h2

omit [DecidableEq F] in
theorem get_none (h : IsAny num (.obj ms) (.map m)) {k : Bytes} (ht : lastOf ms k = none) : Map.get m k = none := by
  obtain ⟨_, h2, _⟩ := isAny_obj h
  have := h2 k
  rw [ht] at this
  simpa using this

omit [DecidableEq F] in
theorem get_some (h : IsAny num (.obj ms) (.map m)) {k : Bytes} {t : Tree} (ht : lastOf ms k = some t) :
    (Map.get m k).isSome = true := by
  obtain ⟨_, h2, _⟩ := isAny_obj h
  rw [h2, ht]; rfl

omit [DecidableEq F] in
theorem field_none (h : IsAny num (.obj ms) (.map m)) {k : Bytes} (ht : lastOf ms k = none) : field m k = .nil := by
  rw [field, get_none h ht]; rfl

omit [DecidableEq F] in
theorem field_str (h : IsAny num (.obj ms) (.map m)) {k s : Bytes} (ht : lastOf ms k = some (.str s)) :
    field m k = .str s := by
  have := field_is h ht
  generalize field m k = v at this
  cases this
  rfl

omit [DecidableEq F] in
theorem field_num (h : IsAny num (.obj ms) (.map m)) {k t : Bytes} (ht : lastOf ms k = some (.num t)) {x : F}
    (hx : num t = some x) : field m k = .num x := by
  have := field_is h ht
  generalize field m k = v at this
  cases this with
  | num h => rw [hx] at h; cases h; rfl

omit [DecidableEq F] in
theorem field_obj (h : IsAny num (.obj ms) (.map m)) {k : Bytes} {ms' : List (Bytes × Tree)}
    (ht : lastOf ms k = some (.obj ms')) : ∃ g, field m k = .map g ∧ IsAny num (.obj ms') (.map g) := by
  have := field_is h ht
  generalize field m k = v at this
  cases this with
  | obj h1 h2 h3 => exact ⟨_, rfl, .obj h1 h2 h3⟩

theorem field_eq (h : IsAny num (.obj ms) (.map m)) {k : Bytes} {t : Tree} (ht : lastOf ms k = some t) {x : Any F}
    (hx : IsAny num t x) : deepEqual x (field m k) = true :=
  (deep_iff _ _ (isAny_ok hx) (isAny_ok (field_is h ht))).2 (isAny_same hx (field_is h ht))

omit [DecidableEq F] in
/-- As many fields as different names. -/
theorem map_length (h : IsAny num (.obj ms) (.map m)) (hn : (ms.map Prod.fst).Nodup) : m.length = ms.length := by
  obtain ⟨h1, h2, _⟩ := isAny_obj h
  have : (Map.keys m).Perm (ms.map Prod.fst) := by
    refine (List.perm_ext_iff_of_nodup h1 hn).2 fun k => ?_
    rw [Map.mem_keys, h2, lastOf_isSome]
  have := this.length_eq
  simpa [Map.keys] using this

end

end Verif.Verify
