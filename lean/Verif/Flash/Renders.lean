import Verif.Spec.LogTree
import Verif.Flash.Shift

/-
Lemmas: renderable attributes have member texts (no ReplaceAttr).
-/

set_option linter.unusedSimpArgs false

namespace Verif.Flash
open Slog LogTree

theorem shut_key {k t : Bytes} (h : t.getLast? ≠ some 0x7B) : Shut [keyText k ++ t] := by
  intro x hx
  simp at hx; subst hx
  refine ⟨by simp [keyText_ne_nil], ?_⟩
  by_cases ht : t = []
  · subst ht
    have : keyText k ++ [] = strText k ++ [0x3A, 0x20] := by simp [keyText]
    rw [this, endsOpen_append (by simp)]; decide
  · rw [endsOpen_append ht]
    simp [endsOpen, h]

theorem last_concat (s : Bytes) (b : UInt8) (hb : b ≠ 0x7B) : (s ++ [b]).getLast? ≠ some 0x7B := by
  simp [hb]

theorem last_str (s : Bytes) : (strText s).getLast? ≠ some 0x7B := by
  have : strText s = (0x22 :: addEscaped s) ++ [0x22] := by simp [strText]
  rw [this]; exact last_concat _ _ (by decide)

theorem anyText_renders {a : AnyVal} (h : AnyRenders a) :
    ∃ t, anyText a = some t ∧ t.getLast? ≠ some 0x7B := by
  cases a with
  | nil => exact ⟨_, rfl, by decide⟩
  | obj o =>
    obtain ⟨_, s, e, j, x, m⟩ := o
    cases s with
    | some s => exact ⟨_, rfl, last_str _⟩
    | none =>
      cases e with
      | some e => exact ⟨_, rfl, last_str _⟩
      | none =>
        cases j with
        | some r => cases r with
          | ok t => exact ⟨_, rfl, last_str _⟩
          | error _ => exact h.elim
        | none =>
          cases x with
          | some r => cases r with
            | ok t => exact ⟨_, rfl, last_str _⟩
            | error _ => exact h.elim
          | none => cases m with
            | ok b => exact ⟨b, rfl, h⟩
            | error _ => exact h.elim

theorem last_of_ne {s : Bytes} (h : ∀ b ∈ s, b ≠ 0x7B) : s.getLast? ≠ some 0x7B := by
  intro e
  exact h _ (List.mem_of_getLast? e) rfl

theorem digits_ne {s : Bytes} (h : s.all Json.isDigit = true) : ∀ b ∈ s, b ≠ 0x7B := by
  intro b hb e
  have := List.all_eq_true.1 h b hb
  rw [e] at this; revert this; decide

theorem decNat_all (n : Nat) : (decNat n).all Json.isDigit = true := by
  induction n using Nat.strongRecOn with
  | _ n ih =>
    have hd : ∀ m : Nat, m < 10 → Json.isDigit (UInt8.ofNat (0x30 + m)) = true := by decide
    rw [decNat]
    split
    · rename_i h; simp only [List.all_cons, hd n h, List.all_nil, Bool.and_self]
    · rename_i h
      simp only [List.all_append, ih (n / 10) (by omega), List.all_cons,
        hd (n % 10) (Nat.mod_lt _ (by omega)), List.all_nil, Bool.and_self]

theorem last_decNat (n : Nat) : (decNat n).getLast? ≠ some 0x7B :=
  last_of_ne (digits_ne (decNat_all n))

theorem last_decInt (i : Int) : (decInt i).getLast? ≠ some 0x7B := by
  cases i with
  | ofNat n => exact last_decNat n
  | negSucc n =>
    apply last_of_ne
    intro b hb
    simp [decInt] at hb
    rcases hb with rfl | hb
    · decide
    · exact digits_ne (decNat_all _) b hb

theorem last_float (f : F64) : f.text.getLast? ≠ some 0x7B := by
  cases f with
  | fin neg ip fr =>
    apply last_of_ne
    intro b hb
    have hd : ∀ d : Fin 10, UInt8.ofNat (0x30 + d.val) ≠ 0x7B := by decide
    simp only [F64.text, List.mem_append] at hb
    rcases hb with (hb | hb) | hb
    · cases neg <;> simp at hb; subst hb; decide
    · exact digits_ne (decNat_all _) b hb
    · split at hb
      · simp at hb
      · simp only [List.mem_cons, List.mem_map] at hb
        rcases hb with rfl | ⟨d, _, rfl⟩
        · decide
        · exact hd d
  | nan => decide
  | posInf => decide
  | negInf => decide

theorem listTexts_renders {cfg : Cfg} {n : Nat}
    (ih : ∀ a, AttrRenders cfg.env a → attrDepth a < n →
      ∃ ts, attrTexts cfg n a = some ts ∧ Shut ts ∧ (emptyMember a = true ↔ ts = [])) :
    ∀ as, ListRenders cfg.env as → listDepth as < n →
      ∃ ts, allTexts (attrTexts cfg n) as = some ts ∧ Shut ts ∧ (emptyGroup as = true ↔ ts = []) := by
  intro as
  induction as with
  | nil => intro _ _; exact ⟨[], rfl, by intro t ht; simp at ht, by simp [emptyGroup]⟩
  | cons a as iha =>
    intro hc hd
    simp only [ListRenders, listDepth] at hc hd
    obtain ⟨t1, e1, f1, g1⟩ := ih a hc.1 (by omega)
    obtain ⟨t2, e2, f2, g2⟩ := iha hc.2 (by omega)
    refine ⟨t1 ++ t2, by simp [allTexts, e1, e2], ?_, by simp [emptyGroup, g1, g2]⟩
    intro t ht
    simp at ht
    rcases ht with ht | ht
    · exact f1 t ht
    · exact f2 t ht

theorem attrTexts_renders {cfg : Cfg} (hr : cfg.replace = none) (n : Nat) : ∀ a,
    AttrRenders cfg.env a → attrDepth a < n →
      ∃ ts, attrTexts cfg n a = some ts ∧ Shut ts ∧ (emptyMember a = true ↔ ts = []) := by
  induction n with
  | zero => intro a _ h; omega
  | succ n ih =>
    intro a hc hd
    obtain ⟨k, v⟩ := a
    simp only [AttrRenders] at hc
    have leaf : v.isLogValuer = false → v.isGroup = false → emptyValue v = false →
        (∃ t, leafText cfg false v = some t ∧ t.getLast? ≠ some 0x7B) →
        ∃ ts, attrTexts cfg (n + 1) (.mk k v) = some ts ∧ Shut ts ∧
          (emptyMember (.mk k v) = true ↔ ts = []) := by
      intro h1 h2 h3 ⟨t, h4, h5⟩
      by_cases he : (Attr.mk k v).isEmpty = true
      · refine ⟨[], ?_, by intro t ht; simp at ht, by simp [emptyMember, he]⟩
        simp [attrTexts, prep, hr, h1, he]
      · refine ⟨[keyText k ++ t], ?_, shut_key h5, by simp [emptyMember, he, h3]⟩
        simp only [attrTexts, prep, hr, h1, he, Bool.false_eq_true, if_false, Attr.key_mk,
            Attr.value_mk]
        cases v <;> simp_all [Value.isGroup]
    match v with
    | .group as =>
      simp only [ValRenders] at hc
      simp only [attrDepth, valDepth] at hd
      obtain ⟨ts, e1, e2, e3⟩ := listTexts_renders ih as hc (by omega)
      have hlv : (Value.group as).isLogValuer = false := rfl
      have hem : (Attr.mk k (.group as)).isEmpty = false := by cases k <;> rfl
      by_cases hg : emptyGroup as = true
      · refine ⟨[], ?_, by intro t ht; simp at ht, by simp [emptyMember, emptyValue, hg]⟩
        simp [attrTexts, prep, hr, hlv, hem, hg]
      · have hts : ts ≠ [] := fun h => hg (e3.2 h)
        by_cases hke : k = []
        · subst hke
          refine ⟨ts, ?_, e2, by simp [emptyMember, emptyValue, hem, hg, hts]⟩
          simp [attrTexts, prep, hr, hlv, hem, hg, e1]
        · refine ⟨[keyText k ++ objText ts], ?_, ?_, by simp [emptyMember, emptyValue, hem, hg]⟩
          · simp [attrTexts, prep, hr, hlv, hem, hg, e1, hke, hts, objText]
          · apply shut_key
            exact last_concat (0x7B :: sepText false ts) 0x7D (by decide)
    | .logValuer o r =>
      simp only [ValRenders] at hc
      obtain ⟨t, h1, h2⟩ := anyText_renders hc.1
      have hlv : (Value.logValuer o r).isLogValuer = true := rfl
      have hres : (Value.logValuer o r).resolve = r.resolve := by simp [Value.resolve]
      have hem2 : (Attr.mk k (.logValuer o r)).isEmpty = false := by cases k <;> rfl
      refine ⟨[keyText k ++ t], ?_, shut_key h2, by simp [emptyMember, emptyValue, hem2]⟩
      simp [attrTexts, prep, hr, hlv, hres, hc.2, leafText, h1]
    | .any a => exact leaf rfl rfl rfl (anyText_renders hc)
    | .bool a => exact leaf rfl rfl rfl (by cases a <;> exact ⟨_, rfl, by decide⟩)
    | .duration a => exact leaf rfl rfl rfl ⟨_, rfl, last_decInt a⟩
    | .float64 a => exact leaf rfl rfl rfl ⟨_, rfl, last_float a⟩
    | .int64 a => exact leaf rfl rfl rfl ⟨_, rfl, last_decInt a⟩
    | .string a => exact leaf rfl rfl rfl ⟨_, rfl, last_str a⟩
    | .time a => exact leaf rfl rfl rfl ⟨_, rfl, last_concat (0x22 :: _) 0x22 (by decide)⟩
    | .uint64 a => exact leaf rfl rfl rfl ⟨_, rfl, last_decNat a⟩

theorem allTexts_renders {cfg : Cfg} (hr : cfg.replace = none) {as : List Attr}
    (hc : ListRenders cfg.env as) {n : Nat} (hd : listDepth as < n) :
    ∃ ts, allTexts (attrTexts cfg n) as = some ts ∧ Shut ts ∧ (emptyGroup as = true ↔ ts = []) :=
  listTexts_renders (attrTexts_renders hr n) as hc hd

theorem settled_texts {ts : List Bytes} (h : Shut ts) : Settled (St.addTexts st0 ts) := by
  by_cases hne : ts = []
  · subst hne; left; rfl
  · right
    have := sepText_ends ts false h hne
    have hne' : ts.isEmpty = false := by simpa using hne
    simp [St.addTexts, st0, hne', this.2]

mutual
theorem emptyMember_hasLeaf : ∀ a : Attr, emptyMember a = !attrHasLeaf a
  | .mk k v => by
    simp only [emptyMember, attrHasLeaf, emptyValue_hasLeaf v]
    cases (Attr.mk k v).isEmpty <;> simp
theorem emptyValue_hasLeaf : ∀ v : Value, emptyValue v = !valHasLeaf v
  | .group as => by simp only [emptyValue, valHasLeaf, emptyGroup_hasLeaf as]
  | .any _ => rfl
  | .bool _ => rfl
  | .duration _ => rfl
  | .float64 _ => rfl
  | .int64 _ => rfl
  | .string _ => rfl
  | .time _ => rfl
  | .uint64 _ => rfl
  | .logValuer _ _ => rfl
/-- Flash's test for empty groups. -/
theorem emptyGroup_hasLeaf : ∀ as : List Attr, emptyGroup as = !listHasLeaf as
  | [] => rfl
  | a :: as => by
    simp only [emptyGroup, listHasLeaf, emptyMember_hasLeaf a, emptyGroup_hasLeaf as]
    cases attrHasLeaf a <;> simp
end

theorem loud_of_leaf {as : List Attr} (h : listHasLeaf as = true) : as.all Attr.isEmpty = false := by
  induction as with
  | nil => simp [listHasLeaf] at h
  | cons a as ih =>
    simp only [listHasLeaf, Bool.or_eq_true] at h
    rcases h with h | h
    · obtain ⟨k, v⟩ := a
      simp only [attrHasLeaf, Bool.and_eq_true] at h
      simp only [List.all_cons]
      have : (Attr.mk k v).isEmpty = false := by simpa using h.1
      simp [this]
    · simp [List.all_cons, ih h]

/-- Without a replacement function texts do not depend on the groups. -/
theorem attrTexts_indep {c1 c2 : Cfg} (h1 : c1.replace = none) (h2 : c2.replace = none)
    (he : c1.env = c2.env) (hx : c1.extras = c2.extras) (n : Nat) (a : Attr) :
    attrTexts c1 n a = attrTexts c2 n a := by
  have p : ∀ a, prep c1 a = prep c2 a := by intro a; simp [prep, h1, h2]
  have l : ∀ f v, leafText c1 f v = leafText c2 f v := by
    intro f v; unfold leafText; rw [he, hx]
  induction n generalizing a with
  | zero => rfl
  | succ n ih =>
    have hall : attrTexts c1 n = attrTexts c2 n := funext ih
    simp only [attrTexts, p, l, hall]

end Verif.Flash
