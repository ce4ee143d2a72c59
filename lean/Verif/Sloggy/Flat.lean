import Verif.Sloggy.Handler
import Verif.Flash.Renders
import Verif.Spec.Solid

/-
Lemmas: without a replacement function sloggy treats a LogValuer exactly like
the value it stands for, as long as that value has something to show.
-/

set_option linter.unusedSimpArgs false

namespace Verif.Sloggy
open Slog Json LogTree

theorem flatVal_resolve : ∀ v : Value, (flatVal v).resolve = flatVal v.resolve ∧
    (flatVal v).isLogValuer = false
  | .logValuer _ r => by
    have := flatVal_resolve r
    simpa [flatVal, Value.resolve] using this
  | .group as => by simp [flatVal, Value.resolve, Value.isLogValuer]
  | .any _ | .bool _ | .duration _ | .float64 _ | .int64 _ | .string _ | .time _ | .uint64 _ => ⟨rfl, rfl⟩

theorem solid_resolve {k : Bytes} : ∀ {v : Value}, ValSolid k v → ValSolid k v.resolve
  | .logValuer _ r, h => by
    rw [ValSolid] at h
    simp only [Value.resolve]
    exact solid_resolve h.2
  | .group as, h => h
  | .any _, h | .bool _, h | .duration _, h | .float64 _, h | .int64 _, h | .string _, h | .time _, h
  | .uint64 _, h => h

mutual
theorem flat_leaf : ∀ a : Attr, AttrSolid a →
    (flat a).isEmpty = a.isEmpty ∧ attrHasLeaf (flat a) = attrHasLeaf a
  | .mk k v, h => by
    rw [AttrSolid] at h
    obtain ⟨h1, h2⟩ := flatVal_leaf k v h
    rw [flat, attrHasLeaf, attrHasLeaf, h1, h2]
    exact ⟨rfl, rfl⟩
theorem flatVal_leaf (k : Bytes) : ∀ v : Value, ValSolid k v →
    (Attr.mk k (flatVal v)).isEmpty = (Attr.mk k v).isEmpty ∧ valHasLeaf (flatVal v) = valHasLeaf v
  | .logValuer o r, h => by
    rw [ValSolid] at h
    obtain ⟨⟨s1, s2⟩, h⟩ := h
    obtain ⟨h1, h2⟩ := flatVal_leaf k r h
    have e1 : (Attr.mk k (.logValuer o r)).isEmpty = false := by cases k <;> rfl
    have e2 : valHasLeaf (.logValuer o r) = true := rfl
    rw [flatVal, h1, h2, e1, e2]
    cases r with
    | logValuer o r => exact ⟨by cases k <;> rfl, rfl⟩
    | group as => exact ⟨s1, s2⟩
    | _ => exact ⟨s1, s2⟩
  | .group as, h => by
    rw [ValSolid] at h
    have := flatList_leaf as h
    rw [flatVal]
    exact ⟨by cases k <;> rfl, by rw [valHasLeaf, valHasLeaf, this]⟩
  | .any _, _ | .bool _, _ | .duration _, _ | .float64 _, _ | .int64 _, _ | .string _, _ | .time _, _
  | .uint64 _, _ => ⟨rfl, rfl⟩
theorem flatList_leaf : ∀ as : List Attr, ListSolid as → listHasLeaf (flatList as) = listHasLeaf as
  | [], _ => rfl
  | a :: as, h => by
    rw [ListSolid] at h
    rw [flatList, listHasLeaf, listHasLeaf, (flat_leaf a h.1).2, flatList_leaf as h.2]
end

theorem flatList_empty {as : List Attr} (h : ListSolid as) :
    (flatList as).all Attr.isEmpty = as.all Attr.isEmpty := by
  induction as with
  | nil => rfl
  | cons a as ih =>
    rw [ListSolid] at h
    rw [flatList, List.all_cons, List.all_cons, (flat_leaf a h.1).1, ih h.2]

theorem emptyGroup_leaf (as : List Attr) : emptyGroup as = !listHasLeaf as :=
  Flash.emptyGroup_hasLeaf as

theorem addAll_flat {f : St → Attr → Out} (hf : ∀ st a, AttrSolid a → f st (flat a) = f st a) :
    ∀ (as : List Attr) (st : St), ListSolid as → addAll f st (flatList as) = addAll f st as
  | [], _, _ => rfl
  | a :: as, st, h => by
    rw [ListSolid] at h
    simp only [flatList, addAll, hf st a h.1]
    cases f st a with
    | ok st => exact addAll_flat hf as st h.2
    | err st => rfl
    | overflow => rfl

theorem addAttribute_flat {cfg : Cfg} (hr : cfg.replace = none) : ∀ (n : Nat) (st : St) (a : Attr),
    AttrSolid a → addAttribute cfg n st (flat a) = addAttribute cfg n st a
  | 0, _, _, _ => rfl
  | n + 1, st, .mk k v, h => by
    have he := (flat_leaf _ h).1
    rw [AttrSolid] at h
    have hs := solid_resolve h
    rw [addAttribute, addAttribute, he]
    split
    · rfl
    · rename_i hne
      have p1 : prep cfg (flat (.mk k v)) = (flat (.mk k v), flatVal v.resolve) := by
        simp only [prep, hr, flat, Attr.value_mk, (flatVal_resolve v).1]
      have p2 : prep cfg (.mk k v) = (.mk k v, v.resolve) := by simp only [prep, hr, Attr.value_mk]
      rw [p1, p2]
      simp only [he, hne, if_false, Bool.false_eq_true]
      simp only [flat, Attr.key_mk]
      generalize hw : v.resolve = w at *
      cases w with
      | group as =>
        rw [ValSolid] at hs
        have hE : emptyGroup (flatList as) = emptyGroup as := by
          rw [emptyGroup_leaf, emptyGroup_leaf, flatList_leaf as hs]
        simp only [flatVal]
        rw [hE]
        have ih := addAll_flat (f := addAttribute cfg n)
          (fun st a h => addAttribute_flat hr n st a h) as
        simp only [fun st => ih st hs]
        rfl
      | logValuer o r =>
        exfalso
        have : ∀ v : Value, v.resolve.isLogValuer = false := by
          intro v
          induction v using Value.resolve.induct with
          | case1 o r ih => exact ih
          | case2 v h => cases v <;> first | rfl | exact (h _ _ rfl).elim
        have := this v
        rw [hw] at this
        cases this
      | _ => rfl

theorem addAttributes_flat {cfg : Cfg} (hr : cfg.replace = none) (as : List Attr) (st : St)
    (h : ListSolid as) : addAttributes cfg (flatList as) st = addAttributes cfg as st :=
  addAll_flat (fun st a h => addAttribute_flat hr _ st a h) as st h

theorem derive_flat : ∀ (ops : List Op) (h : H), h.core.options.replace = none → OpsSolid ops →
    h.derive (ops.map flatOp) = h.derive ops
  | [], _, _, _ => rfl
  | .attrs as :: ops, h, hr, ho => by
    simp only [OpsSolid] at ho
    have e : h.withAttrs (flatList as) = h.withAttrs as := by
      simp only [H.withAttrs, Handler.withAttrs]
      rw [addAttributes_flat (cfg := h.core.cfg sure) hr as _ ho.1]
    simp only [List.map_cons, flatOp, H.derive, H.step, e]
    cases hw : h.withAttrs as with
    | none => rfl
    | some h' =>
      refine derive_flat ops h' ?_ ho.2
      simp only [H.withAttrs, Handler.withAttrs, Option.map_eq_some_iff] at hw
      obtain ⟨p, hp, rfl⟩ := hw
      split at hp <;> cases hp <;> exact hr
  | .group n :: ops, h, hr, ho => by
    simp only [OpsSolid] at ho
    simp only [List.map_cons, flatOp, H.derive, H.step, Option.bind_some]
    refine derive_flat ops _ ?_ ho
    unfold H.withGroup
    split <;> exact hr

end Verif.Sloggy
