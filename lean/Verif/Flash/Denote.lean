import Mathlib.Data.List.Forall2
import Verif.Spec.JsonSound
import Verif.Spec.LogTree
import Verif.Spec.Numeral
import Verif.Flash.EscapeLemmas
import Verif.Flash.Render

/-
Lemmas: the member texts of clean attributes denote the members of the
specification.
-/

set_option linter.unusedSimpArgs false

namespace Verif.Flash
open Slog Json LogTree

/-! ### Texts of single values -/

/-- The text `kb` of a name; small letters are not escaped. -/
def NameText (kb k : Bytes) : Prop := decodeBody kb = some k ∧ (Letters k → kb = k)

/-- A member `"key": value` on one line. -/
def MemberText (t : Bytes) (m : Bytes × Tree) : Prop :=
  ∃ kb b, t = 0x22 :: (kb ++ 0x22 :: 0x3A :: 0x20 :: b) ∧ NameText kb m.1 ∧ LineText b m.2

set_option maxRecDepth 100000 in
theorem simpleEscape_noCtl (e : UInt8) : (simpleEscape e).isSome = true → 0x20 ≤ e := by
  revert e; apply forall_byte; decide +kernel

set_option maxRecDepth 100000 in
theorem hexVal_noCtl (e : UInt8) : (hexVal e).isSome = true → 0x20 ≤ e := by
  revert e; apply forall_byte; decide +kernel

/-- String bodies contain no control bytes. -/
theorem _root_.Verif.Json.Body.noCtl {b s : Bytes} (h : Body b s) : ∀ a ∈ b, 0x20 ≤ a := by
  induction h with
  | nil => simp
  | @esc e x b s h1 h2 ih =>
    intro a ha
    simp at ha
    rcases ha with rfl | rfl | ha
    · decide
    · exact simpleEscape_noCtl _ (by simp [h1])
    · exact ih a ha
  | @uni h1 h2 h3 h4 n b s hh hb ih =>
    intro a ha
    have key : (hexVal h1).isSome = true ∧ (hexVal h2).isSome = true ∧ (hexVal h3).isSome = true ∧
        (hexVal h4).isSome = true := by
      unfold hex4 at hh
      split at hh
      · simp_all
      · simp at hh
    simp at ha
    rcases ha with rfl | rfl | rfl | rfl | rfl | rfl | ha
    · decide
    · decide
    · exact hexVal_noCtl _ key.1
    · exact hexVal_noCtl _ key.2.1
    · exact hexVal_noCtl _ key.2.2.1
    · exact hexVal_noCtl _ key.2.2.2
    · exact ih a ha
  | chr hc hp hb ih => 
    intro a ha
    simp at ha
    rcases ha with ha | ha
    · exact hp a ha |>.1
    · exact ih a ha

theorem noNl_of_body {b s : Bytes} (h : decodeBody b = some s) : (0x0A : UInt8) ∉ b := by
  intro hm
  have := (body_iff.2 h).noCtl _ hm
  revert this; decide

theorem strBody_text {b s : Bytes} (h : decodeBody b = some s) :
    LineText (0x22 :: (b ++ [0x22])) (.str s) := by
  refine ⟨⟨.str b, .str (by simp [BodyOk, h]), by simp [Cst.decode, h]⟩, ?_⟩
  have := noNl_of_body h
  simp [this]

theorem strText_text {s : Bytes} (hs : Utf8.Valid s) : LineText (strText s) (.str s) :=
  strBody_text (body_iff.1 (addEscaped_body hs))

theorem num_text {t : Bytes} (h : isNumber t = true) : LineText t (.num t) := by
  refine ⟨⟨.num t, .num h, rfl⟩, ?_⟩
  intro hm
  have := List.all_eq_true.1 (isNumber_all h) _ hm
  revert this; decide

theorem anyText_text {a : AnyVal} (h : AnyClean a) :
    ∃ b t, anyText a = some b ∧ anyTree a = some t ∧ LineText b t := by
  cases a with
  | nil => exact ⟨_, _, rfl, rfl, ⟨_, .null, rfl⟩, by decide⟩
  | obj o =>
    obtain ⟨_, s, e, j, x, m⟩ := o
    cases s with
    | some s => exact ⟨_, _, rfl, rfl, strText_text h⟩
    | none =>
      cases e with
      | some e => exact ⟨_, _, rfl, rfl, strText_text h⟩
      | none =>
        cases j with
        | some r =>
          cases r with
          | ok t => exact ⟨_, _, rfl, rfl, strText_text h⟩
          | error _ => exact h.elim
        | none =>
          cases x with
          | some r =>
            cases r with
            | ok t => exact ⟨_, _, rfl, rfl, strText_text h⟩
            | error _ => exact h.elim
          | none =>
            cases m with
            | error _ => exact h.elim
            | ok b =>
              obtain ⟨t, ht⟩ := h
              exact ⟨b, t, rfl, parseTree_of_denotes ht.1, ht⟩

theorem leafText_text {cfg : Cfg} {v : Value} (h : LeafClean cfg.env cfg.extras.timeFormat v) :
    ∃ b t, leafText cfg false v = some b ∧ leafTree cfg.env cfg.extras.timeFormat v = some t ∧
      LineText b t := by
  cases v with
  | any a => exact anyText_text h
  | bool b => cases b
              · exact ⟨_, _, rfl, rfl, ⟨_, .fls, rfl⟩, by decide⟩
              · exact ⟨_, _, rfl, rfl, ⟨_, .tru, rfl⟩, by decide⟩
  | duration d => exact ⟨_, _, rfl, rfl, num_text (isNumber_decInt d)⟩
  | float64 f =>
    cases f with
    | fin n i fr => exact ⟨_, _, rfl, rfl, num_text (isNumber_float n i fr)⟩
    | _ => exact h.elim
  | int64 i => exact ⟨_, _, rfl, rfl, num_text (isNumber_decInt i)⟩
  | string s => exact ⟨_, _, rfl, rfl, strText_text h⟩
  | time t => exact ⟨_, _, rfl, rfl, strBody_text h⟩
  | uint64 n => exact ⟨_, _, rfl, rfl, num_text (isNumber_decNat n)⟩
  | group as => exact h.elim
  | logValuer o r => exact h.elim

set_option maxRecDepth 100000 in
theorem escOf_letter (a : UInt8) : 0x61 ≤ a ∧ a ≤ 0x7A → escOf a = none ∧ leadMore a = 0 := by
  revert a; apply forall_byte; decide +kernel

theorem escAll_letters : ∀ {k : Bytes}, Letters k → ∀ run, escAll run k = run ++ k
  | [], _, run => by simp [escAll]
  | a :: k, h, run => by
    obtain ⟨h1, h2⟩ := escOf_letter a (h a (by simp))
    rw [escAll, h1]
    dsimp only
    rw [if_pos h2, escAll_letters fun b hb => h b (by simp [hb])]
    simp

theorem escaped_letters {k : Bytes} (h : Letters k) : addEscaped k = k := by
  rw [addEscaped_eq, escAll_letters h]; rfl

theorem keyText_member {k b : Bytes} {t : Tree} (hk : Utf8.Valid k) (h : LineText b t) :
    MemberText (keyText k ++ b) (k, t) :=
  ⟨addEscaped k, b, by simp [keyText, strText], ⟨body_iff.1 (addEscaped_body hk), escaped_letters⟩, h⟩

/-! ### Objects -/

theorem MemberText.noNl {t : Bytes} {m : Bytes × Tree} (h : MemberText t m) : (0x0A : UInt8) ∉ t := by
  obtain ⟨kb, b, rfl, ⟨hk, _⟩, _, hn⟩ := h
  have := noNl_of_body hk
  simp [this, hn]

theorem sepText_noNl {ts : List Bytes} {ms : List (Bytes × Tree)} (h : List.Forall₂ MemberText ts ms) :
    ∀ s, (0x0A : UInt8) ∉ sepText s ts := by
  induction h with
  | nil => simp [sepText]
  | cons hm _ ih =>
    intro s
    have h1 := hm.noNl
    have h2 := ih true
    cases s <;> simp [sepText, h1, h2]

theorem members_of_texts {ts : List Bytes} {ms : List (Bytes × Tree)}
    (h : List.Forall₂ MemberText ts ms) : ∀ w, Ws w → ts ≠ [] →
      ∃ cs, Members (w ++ sepText false ts) cs ∧ decodeMembers cs = some ms ∧
        ∀ e ∈ cs, ∀ k, decodeBody e.1 = some k → Letters k → e.1 = k := by
  induction h with
  | nil => intro w _ hne; exact absurd rfl hne
  | @cons t m ts ms hm hr ih =>
    intro w hw _
    obtain ⟨kb, b, rfl, ⟨hk, hkl⟩, ⟨⟨c, hv, hc⟩, _⟩⟩ := hm
    have hsp : ∀ k, decodeBody kb = some k → Letters k → kb = k := by
      intro k h hl
      rw [hk] at h
      cases h
      exact hkl hl
    have hbo : BodyOk kb := by simp [BodyOk, hk]
    have w0 : Ws [] := by intro b hb; simp at hb
    have w1 : Ws [0x20] := by intro b hb; simp at hb; subst hb; rfl
    cases ts with
    | nil =>
      cases hr
      refine ⟨[(kb, c)], ?_, by simp [decodeMembers, hk, hc], by simpa using hsp⟩
      have := Members.one hw hbo w0 w1 hv w0
      simpa [sepText] using this
    | cons t' ts' =>
      obtain ⟨cs, h1, h2, h3⟩ := ih [0x20] w1 (by simp)
      refine ⟨(kb, c) :: cs, ?_, by simp [decodeMembers, hk, hc, h2], List.forall_mem_cons.2 ⟨hsp, h3⟩⟩
      have := Members.cons hw hbo w0 w1 hv w0 h1
      simpa [sepText] using this

theorem objText_text {ts : List Bytes} {ms : List (Bytes × Tree)}
    (h : List.Forall₂ MemberText ts ms) : LineText (objText ts) (.obj ms) := by
  refine ⟨?_, ?_⟩
  · cases h with
    | nil => exact ⟨.obj [], .obj0 (w := []) (by intro b hb; simp at hb), rfl⟩
    | cons hm hr =>
      obtain ⟨cs, h1, h2, _⟩ := members_of_texts (.cons hm hr) [] (by intro b hb; simp at hb) (by simp)
      exact ⟨.obj cs, .obj h1, by simp [Cst.decode, h2]⟩
  · have := sepText_noNl h false
    simp [objText, this]

theorem objText_spelled {ts : List Bytes} {ms : List (Bytes × Tree)}
    (h : List.Forall₂ MemberText ts ms) : Spelled (objText ts) := by
  intro cs hv
  cases h with
  | nil => cases val_unique hv (.obj0 (w := []) (by intro b hb; simp at hb)); simp
  | cons hm hr =>
    obtain ⟨cs', h1, _, h3⟩ := members_of_texts (.cons hm hr) [] (by intro b hb; simp at hb) (by simp)
    cases val_unique hv (.obj h1)
    exact h3

/-! ### Attributes -/

theorem isEmpty_iff {a : Attr} : a.isEmpty = true ↔ a = emptyAttr := by
  obtain ⟨k, v⟩ := a
  constructor
  · intro h
    unfold Attr.isEmpty at h
    split at h
    · rename_i e; rw [e]; rfl
    · simp at h
  · rintro h; rw [h]; rfl

theorem forall2_append {α β} {R : α → β → Prop} {a c : List α} {b d : List β}
    (h1 : List.Forall₂ R a b) (h2 : List.Forall₂ R c d) : List.Forall₂ R (a ++ c) (b ++ d) := by
  induction h1 with
  | nil => simpa using h2
  | cons h _ ih => exact .cons h ih

theorem listTexts_clean {cfg : Cfg} {n : Nat}
    (ih : ∀ a, AttrClean cfg.env cfg.extras.timeFormat a → attrDepth a < n →
      ∃ ts ms, attrTexts cfg n a = some ts ∧
        attrMembers cfg.env cfg.extras.timeFormat .viaAny a = some ms ∧
        List.Forall₂ MemberText ts ms ∧ (emptyMember a = true ↔ ms = [])) :
    ∀ as, ListClean cfg.env cfg.extras.timeFormat as → listDepth as < n →
      ∃ ts ms, allTexts (attrTexts cfg n) as = some ts ∧
        listMembers cfg.env cfg.extras.timeFormat .viaAny as = some ms ∧
        List.Forall₂ MemberText ts ms ∧ (emptyGroup as = true ↔ ms = []) := by
  intro as
  induction as with
  | nil => intro _ _; exact ⟨[], [], rfl, rfl, .nil, by simp [emptyGroup]⟩
  | cons a as iha =>
    intro hc hd
    simp only [ListClean, listDepth] at hc hd
    obtain ⟨t1, m1, e1, f1, g1, k1⟩ := ih a hc.1 (by omega)
    obtain ⟨t2, m2, e2, f2, g2, k2⟩ := iha hc.2 (by omega)
    refine ⟨t1 ++ t2, m1 ++ m2, by simp [allTexts, e1, e2], by simp [listMembers, f1, f2],
      forall2_append g1 g2, ?_⟩
    simp [emptyGroup, k1, k2]

/-- For a clean attribute (no ReplaceAttr) the composer's member texts denote
exactly the members of the specification. -/
theorem attrTexts_clean {cfg : Cfg} (hr : cfg.replace = none) (n : Nat) : ∀ a,
    AttrClean cfg.env cfg.extras.timeFormat a → attrDepth a < n →
      ∃ ts ms, attrTexts cfg n a = some ts ∧
        attrMembers cfg.env cfg.extras.timeFormat .viaAny a = some ms ∧
        List.Forall₂ MemberText ts ms ∧ (emptyMember a = true ↔ ms = []) := by
  induction n with
  | zero => intro a _ h; omega
  | succ n ih =>
    intro a hc hd
    obtain ⟨k, v⟩ := a
    simp only [AttrClean] at hc
    obtain ⟨hk, hv⟩ := hc
    have leaf : v.isLogValuer = false → v.isGroup = false →
        LeafClean cfg.env cfg.extras.timeFormat v →
        valMembers cfg.env cfg.extras.timeFormat .viaAny k v =
          single k v (leafTree cfg.env cfg.extras.timeFormat v) →
        emptyValue v = false →
        ∃ ts ms, attrTexts cfg (n + 1) (.mk k v) = some ts ∧
          attrMembers cfg.env cfg.extras.timeFormat .viaAny (.mk k v) = some ms ∧
          List.Forall₂ MemberText ts ms ∧ (emptyMember (.mk k v) = true ↔ ms = []) := by
      intro h1 h2 h3 h4 h5
      obtain ⟨b, t, e1, e2, e3⟩ := leafText_text h3
      by_cases he : (Attr.mk k v).isEmpty = true
      · refine ⟨[], [], ?_, ?_, .nil, ?_⟩
        · simp [attrTexts, prep, hr, h1, he]
        · simp [attrMembers, h4, single, he]
        · simp [emptyMember, he]
      · refine ⟨[keyText k ++ b], [(k, t)], ?_, ?_, .cons (keyText_member hk e3) .nil, ?_⟩
        · simp only [attrTexts, prep, hr, h1, he, Bool.false_eq_true, if_false, Attr.key_mk,
            Attr.value_mk]
          cases v <;> simp_all [Value.isGroup]
        · simp [attrMembers, h4, single, he, e2]
        · simp [emptyMember, he, h5]
    match v with
    | .group as =>
      simp only [ValClean] at hv
      simp only [attrDepth, valDepth] at hd
      obtain ⟨ts, ms, e1, e2, e3, e4⟩ := listTexts_clean ih as hv (by omega)
      have hlv : (Value.group as).isLogValuer = false := rfl
      have hem : (Attr.mk k (.group as)).isEmpty = false := by
        cases k <;> rfl
      by_cases hg : emptyGroup as = true
      · have := e4.1 hg; subst this
        refine ⟨[], [], ?_, ?_, .nil, ?_⟩
        · simp [attrTexts, prep, hr, hlv, hem, hg]
        · simp [attrMembers, valMembers, e2, grouped]
        · simp [emptyMember, emptyValue, hg]
      · have hne : ms ≠ [] := fun h => hg (e4.2 h)
        have hts : ts ≠ [] := by
          rintro rfl; cases e3; exact hne rfl
        have hte : ts.isEmpty = false := by simpa using hts
        have hme : ms.isEmpty = false := by simpa using hne
        by_cases hke : k = []
        · subst hke
          refine ⟨ts, ms, ?_, ?_, e3, ?_⟩
          · simp [attrTexts, prep, hr, hlv, hem, hg, e1]
          · simp [attrMembers, valMembers, e2, grouped, hme]
          · simp [emptyMember, emptyValue, hem, hg, hne]
        · refine ⟨[keyText k ++ objText ts], [(k, .obj ms)], ?_, ?_,
            .cons (keyText_member hk (objText_text e3)) .nil, ?_⟩
          · simp [attrTexts, prep, hr, hlv, hem, hg, e1, hke, hts, objText]
          · simp [attrMembers, valMembers, e2, grouped, hke, hme]
          · simp [emptyMember, emptyValue, hem, hg]
    | .logValuer o r =>
      simp only [ValClean] at hv
      obtain ⟨hv, hem⟩ := hv
      obtain ⟨b, t, e1, e2, e3⟩ := anyText_text hv
      have hlv : (Value.logValuer o r).isLogValuer = true := rfl
      have hres : (Value.logValuer o r).resolve = r.resolve := by simp [Value.resolve]
      have hem2 : (Attr.mk k (.logValuer o r)).isEmpty = false := by cases k <;> rfl
      refine ⟨[keyText k ++ b], [(k, t)], ?_, ?_, .cons (keyText_member hk e3) .nil, ?_⟩
      · simp [attrTexts, prep, hr, hlv, hres, hem, leafText, e1]
      · simp [attrMembers, valMembers, single, hem, e2]
      · simp [emptyMember, emptyValue, hem2]
    | .any a => exact leaf rfl rfl hv rfl rfl
    | .bool a => exact leaf rfl rfl hv rfl rfl
    | .duration a => exact leaf rfl rfl hv rfl rfl
    | .float64 a => exact leaf rfl rfl hv rfl rfl
    | .int64 a => exact leaf rfl rfl hv rfl rfl
    | .string a => exact leaf rfl rfl hv rfl rfl
    | .time a => exact leaf rfl rfl hv rfl rfl
    | .uint64 a => exact leaf rfl rfl hv rfl rfl

/-- The same for attribute lists. -/
theorem allTexts_clean {cfg : Cfg} (hr : cfg.replace = none) {as : List Attr}
    (hc : ListClean cfg.env cfg.extras.timeFormat as) {n : Nat} (hd : listDepth as < n) :
    ∃ ts ms, allTexts (attrTexts cfg n) as = some ts ∧
      listMembers cfg.env cfg.extras.timeFormat .viaAny as = some ms ∧
      List.Forall₂ MemberText ts ms ∧ (emptyGroup as = true ↔ ms = []) :=
  listTexts_clean (attrTexts_clean hr n) as hc hd

end Verif.Flash
