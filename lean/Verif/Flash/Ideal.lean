import Verif.Flash.Content

/-
Lemmas: where flash's placement and treatment of LogValuers agree with slog's.
-/

set_option linter.unusedSimpArgs false

namespace Verif.Flash
open Slog Json LogTree

theorem valMembers_resolve (env : Env) (l k : Bytes) : ∀ r : Value,
    valMembers env l .ideal k r = valMembers env l .ideal k r.resolve
  | .logValuer _ r => by
    have := valMembers_resolve env l k r
    simpa [valMembers, Value.resolve] using this
  | .any _ => rfl
  | .bool _ => rfl
  | .duration _ => rfl
  | .float64 _ => rfl
  | .int64 _ => rfl
  | .string _ => rfl
  | .time _ => rfl
  | .uint64 _ => rfl
  | .group _ => rfl

theorem plainKind_tree {env : Env} (he : EnvClean env) {l : Bytes} {v : Value} (h : PlainKind env v) :
    anyTree (v.anyOf env) = leafTree env l v := by
  cases v with
  | any a => rfl
  | bool b =>
    cases b
    · exact parseTree_of_denotes ⟨_, .fls, rfl⟩
    · exact parseTree_of_denotes ⟨_, .tru, rfl⟩
  | int64 i => exact parseTree_of_denotes (num_text (isNumber_decInt i)).1
  | uint64 i => exact parseTree_of_denotes (num_text (isNumber_decNat i)).1
  | string s => exact parseTree_of_denotes (he s h).1
  | float64 f =>
    obtain ⟨h1, h2⟩ := h
    cases f with
    | fin n i fr =>
      simp only [Value.anyOf, h1, anyTree, leafTree]
      exact parseTree_of_denotes (num_text (isNumber_float n i fr)).1
    | _ => exact h2.elim
  | _ => exact h.elim

theorem valMembers_plainKind {env : Env} {l k : Bytes} {v : Value} (h : PlainKind env v) :
    valMembers env l .ideal k v = single k v (leafTree env l v) := by
  cases v <;> first | rfl | exact h.elim

mutual
theorem attrMembers_plain {env : Env} (he : EnvClean env) {l : Bytes} : ∀ a : Attr,
    AttrPlain env a → attrMembers env l .viaAny a = attrMembers env l .ideal a
  | .mk k v => by
    intro h
    rw [AttrPlain] at h
    rw [attrMembers, attrMembers]
    exact valMembers_plain he k v h
theorem valMembers_plain {env : Env} (he : EnvClean env) {l : Bytes} (k : Bytes) : ∀ v : Value,
    ValPlain env v → valMembers env l .viaAny k v = valMembers env l .ideal k v
  | .logValuer o r => by
    intro h
    rw [ValPlain] at h
    rw [valMembers_resolve env l k (.logValuer o r)]
    simp only [valMembers, Value.resolve]
    rw [valMembers_plainKind h, plainKind_tree he h]
  | .group as => by
    intro h
    rw [ValPlain] at h
    rw [valMembers, valMembers, listMembers_plain he as h]
  | .any _ => fun _ => rfl
  | .bool _ => fun _ => rfl
  | .duration _ => fun _ => rfl
  | .float64 _ => fun _ => rfl
  | .int64 _ => fun _ => rfl
  | .string _ => fun _ => rfl
  | .time _ => fun _ => rfl
  | .uint64 _ => fun _ => rfl
theorem listMembers_plain {env : Env} (he : EnvClean env) {l : Bytes} : ∀ as : List Attr,
    ListPlain env as → listMembers env l .viaAny as = listMembers env l .ideal as
  | [] => fun _ => rfl
  | a :: as => by
    intro h
    rw [ListPlain] at h
    simp only [listMembers]
    rw [attrMembers_plain he a h.1, listMembers_plain he as h.2]
end

theorem place_ideal {env : Env} (he : EnvClean env) {l : Bytes} {as : List Attr}
    (hp : ListPlain env as) (hq : as.all Attr.isEmpty = true ∨ listMembers env l .ideal as ≠ some []) :
    ∀ ops, OpsPlain env l ops →
      place env l .viaAny ops as = placeIdeal env l .ideal ops as ∧
      ((as.all Attr.isEmpty && groupsOnly ops) = true → placeIdeal env l .ideal ops as = some []) ∧
      ((as.all Attr.isEmpty && groupsOnly ops) = false → placeIdeal env l .ideal ops as ≠ some []) := by
  intro ops
  induction ops with
  | nil =>
    intro _
    refine ⟨listMembers_plain he as hp, ?_, ?_⟩
    · intro h
      simp only [Bool.and_eq_true] at h
      exact listMembers_quiet h.1
    · intro h
      have : as.all Attr.isEmpty = false := by simpa [groupsOnly] using h
      rcases hq with h' | h'
      · rw [this] at h'; cases h'
      · exact h'
  | cons op ops ih =>
    intro ho
    cases op with
    | attrs bs =>
      simp only [OpsPlain] at ho
      obtain ⟨i1, i2, i3⟩ := ih ho.2.2
      refine ⟨?_, ?_, ?_⟩
      · simp only [place, placeIdeal, listMembers_plain he bs ho.1, i1]
      · intro h; simp [groupsOnly] at h
      · intro _
        simp only [placeIdeal]
        have := ho.2.1
        cases h1 : listMembers env l .ideal bs with
        | none => simp
        | some x =>
          cases h2 : placeIdeal env l .ideal ops as with
          | none => simp
          | some y =>
            rw [h1] at this
            simp at this ⊢
            intro hx; exact absurd hx this
    | group n =>
      simp only [OpsPlain] at ho
      obtain ⟨i1, i2, i3⟩ := ih ho.2
      have hn : n.isEmpty = false := by simpa using ho.1
      have hg : groupsOnly (Op.group n :: ops) = groupsOnly ops := by simp [groupsOnly, hn]
      rw [hg]
      cases hc : as.all Attr.isEmpty && groupsOnly ops with
      | true =>
        have := i2 hc
        refine ⟨?_, ?_, ?_⟩
        · simp [place, placeIdeal, hn, hc, this, grouped]
        · intro _; simp [placeIdeal, this, grouped]
        · intro h; cases h
      | false =>
        have := i3 hc
        refine ⟨?_, ?_, ?_⟩
        · simp only [place, placeIdeal, hn, hc, i1, Bool.false_eq_true, if_false]
          cases h : placeIdeal env l .ideal ops as with
          | none => rfl
          | some ms =>
            rw [h] at this
            simp at this
            simp [grouped, this, ho.1]
        · intro h; cases h
        · intro _
          simp only [placeIdeal]
          cases h : placeIdeal env l .ideal ops as with
          | none => simp
          | some ms =>
            rw [h] at this
            simp at this
            simp [grouped, this, ho.1]

end Verif.Flash
