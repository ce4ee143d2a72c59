import Verif.Spec.SloggyTree
import Verif.Spec.Resolve

/-
Specification: LogValuers that stand for something to show, and where flash and
sloggy show single values alike.
-/

namespace Verif.LogTree
open Slog Json

mutual
/-- Every LogValuer in the attribute, at any depth, stands for something to show. -/
def AttrSolid : Attr → Prop
  | .mk k v => ValSolid k v
/-- The same for key and value. -/
def ValSolid (k : Bytes) : Value → Prop
  | .logValuer _ r => Solid k r.resolve ∧ ValSolid k r
  | .group as => ListSolid as
  | _ => True
/-- The same for a list. -/
def ListSolid : List Attr → Prop
  | [] => True
  | a :: as => AttrSolid a ∧ ListSolid as
end

/-- The same for the attributes given along a chain. -/
def OpsSolid : List Op → Prop
  | [] => True
  | .attrs as :: ops => ListSolid as ∧ OpsSolid ops
  | .group _ :: ops => OpsSolid ops

/-- An object that flash and sloggy show by the same method: a network address
is also a Stringer, an error that is a Stringer says the same both ways, and no
marshaler fails. -/
def ObjAlike (o : Obj) : Prop :=
  (∀ s, o.net = some s → o.stringer = some s) ∧
  (∀ s e, o.stringer = some s → o.error = some e → e = s) ∧
  (∀ r, o.jsonM = some r → ∃ t, r = .ok t) ∧ (∀ r, o.textM = some r → ∃ t, r = .ok t)

/-- The same for values. -/
def LeafAlike : Value → Prop
  | .any (.obj o) => ObjAlike o
  | _ => True

mutual
/-- All objects in an attribute are shown alike. -/
def AttrAlike : Attr → Prop
  | .mk _ v => ValAlike v
/-- The same for a value. -/
def ValAlike : Value → Prop
  | .logValuer _ r => ValAlike r
  | .group as => ListAlike as
  | v => LeafAlike v
/-- The same for a list. -/
def ListAlike : List Attr → Prop
  | [] => True
  | a :: as => AttrAlike a ∧ ListAlike as
end

/-- The same for the attributes given along a chain. -/
def OpsAlike : List Op → Prop
  | [] => True
  | .attrs as :: ops => ListAlike as ∧ OpsAlike ops
  | .group _ :: ops => OpsAlike ops

theorem leaf_alike (env : Env) {v : Value} (h : LeafAlike v) :
    leafTree env sLayout v = sLeafTree env v := by
  cases v with
  | any a =>
    cases a with
    | nil => rfl
    | obj o =>
      obtain ⟨nt, s, e, j, x, m⟩ := o
      simp only [LeafAlike, ObjAlike] at h
      obtain ⟨h1, h2, h3, h4⟩ := h
      simp only [leafTree, sLeafTree, anyTree, sAnyTree]
      cases nt with
      | some t => rw [h1 t rfl]
      | none =>
        cases s with
        | some s =>
          cases e with
          | some e => rw [h2 s e rfl rfl]
          | none => rfl
        | none =>
          cases e with
          | some e => rfl
          | none =>
            cases j with
            | some r => obtain ⟨t, rfl⟩ := h3 r rfl; rfl
            | none =>
              cases x with
              | some r => obtain ⟨t, rfl⟩ := h4 r rfl; rfl
              | none => cases m <;> rfl
  | _ => rfl

mutual
theorem attr_alike (env : Env) : ∀ a : Attr, AttrAlike a →
    attrMembers env sLayout .ideal a = imageBy (sLeafTree env) a
  | .mk k v, h => by
    rw [AttrAlike] at h
    rw [attrMembers, imageBy]
    exact val_alike env k v h
theorem val_alike (env : Env) (k : Bytes) : ∀ v : Value, ValAlike v →
    valMembers env sLayout .ideal k v = valImageBy (sLeafTree env) k v
  | .logValuer _ r, h => by
    rw [ValAlike] at h
    rw [valMembers, valImageBy]
    exact val_alike env k r h
  | .group as, h => by
    rw [ValAlike] at h
    rw [valMembers, valImageBy, list_alike env as h]
  | .any a, h | .bool a, h | .duration a, h | .float64 a, h | .int64 a, h | .string a, h
  | .time a, h | .uint64 a, h => by
    simp only [ValAlike] at h
    simp only [valMembers, valImageBy, leaf_alike env h]
theorem list_alike (env : Env) : ∀ as : List Attr, ListAlike as →
    listMembers env sLayout .ideal as = imagesBy (sLeafTree env) as
  | [], _ => rfl
  | a :: as, h => by
    rw [ListAlike] at h
    rw [listMembers, imagesBy, attr_alike env a h.1, list_alike env as h.2]
    cases imageBy (sLeafTree env) a <;> cases imagesBy (sLeafTree env) as <;> rfl
end

theorem place_alike (env : Env) {as : List Attr} (ha : ListAlike as) : ∀ ops, OpsAlike ops →
    place env sLayout .ideal ops as = placeBy (sLeafTree env) ops as
  | [], _ => list_alike env as ha
  | .attrs bs :: ops, h => by
    simp only [OpsAlike] at h
    simp only [place, placeBy, list_alike env bs h.1, place_alike env ha ops h.2]
    cases imagesBy (sLeafTree env) bs <;> cases placeBy (sLeafTree env) ops as <;> rfl
  | .group n :: ops, h => by
    simp only [OpsAlike] at h
    simp only [place, placeBy, place_alike env ha ops h]

end Verif.LogTree
