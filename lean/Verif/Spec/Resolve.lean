import Verif.Spec.LogTree

/-
Specification: attributes with LogValuers replaced by the values they stand for.
-/

namespace Verif.LogTree
open Slog

/-- An attribute whose own value is resolved. -/
def top : Attr → Attr
  | .mk k v => .mk k v.resolve

/-- A step with the values of its attributes resolved. -/
def topOp : Op → Op
  | .attrs as => .attrs (as.map top)
  | .group n => .group n

mutual
/-- An attribute with all LogValuers in it resolved. -/
def flat : Attr → Attr
  | .mk k v => .mk k (flatVal v)
/-- The same for a value. -/
def flatVal : Value → Value
  | .logValuer _ r => flatVal r
  | .group as => .group (flatList as)
  | v => v
/-- The same for a list. -/
def flatList : List Attr → List Attr
  | [] => []
  | a :: as => flat a :: flatList as
end

/-- A step with all LogValuers resolved. -/
def flatOp : Op → Op
  | .attrs as => .attrs (flatList as)
  | .group n => .group n

mutual
theorem attrMembers_flat (env : Env) (l : Bytes) : ∀ a : Attr,
    attrMembers env l .ideal (flat a) = attrMembers env l .ideal a
  | .mk k v => by
    rw [flat, attrMembers, attrMembers]
    exact valMembers_flat env l k v
theorem valMembers_flat (env : Env) (l k : Bytes) : ∀ v : Value,
    valMembers env l .ideal k (flatVal v) = valMembers env l .ideal k v
  | .logValuer _ r => by
    rw [flatVal, valMembers]
    exact valMembers_flat env l k r
  | .group as => by
    rw [flatVal, valMembers, valMembers, listMembers_flat env l as]
  | .any _ | .bool _ | .duration _ | .float64 _ | .int64 _ | .string _ | .time _ | .uint64 _ => rfl
theorem listMembers_flat (env : Env) (l : Bytes) : ∀ as : List Attr,
    listMembers env l .ideal (flatList as) = listMembers env l .ideal as
  | [] => rfl
  | a :: as => by
    rw [flatList, listMembers, listMembers, attrMembers_flat env l a, listMembers_flat env l as]
end

mutual
theorem attrMembers_mode (env : Env) (l : Bytes) (m : Mode) : ∀ a : Attr,
    attrMembers env l m (flat a) = attrMembers env l .ideal (flat a)
  | .mk k v => by
    rw [flat, attrMembers, attrMembers]
    exact valMembers_mode env l m k v
theorem valMembers_mode (env : Env) (l : Bytes) (m : Mode) (k : Bytes) : ∀ v : Value,
    valMembers env l m k (flatVal v) = valMembers env l .ideal k (flatVal v)
  | .logValuer _ r => by
    rw [flatVal]
    exact valMembers_mode env l m k r
  | .group as => by
    rw [flatVal, valMembers, valMembers, listMembers_mode env l m as]
  | .any _ | .bool _ | .duration _ | .float64 _ | .int64 _ | .string _ | .time _ | .uint64 _ => rfl
theorem listMembers_mode (env : Env) (l : Bytes) (m : Mode) : ∀ as : List Attr,
    listMembers env l m (flatList as) = listMembers env l .ideal (flatList as)
  | [] => rfl
  | a :: as => by
    rw [flatList, listMembers, listMembers, attrMembers_mode env l m a, listMembers_mode env l m as]
end

theorem groupsOnly_flat (ops : List Op) : groupsOnly (ops.map flatOp) = groupsOnly ops := by
  induction ops with
  | nil => rfl
  | cons op ops ih =>
    simp only [groupsOnly] at ih
    cases op <;> simp [groupsOnly, flatOp, ih]

/-- Placement is the same before and after resolving everything, if the record
has the same empty attributes. -/
theorem place_flat (env : Env) (l : Bytes) (m : Mode) (ops : List Op) (as : List Attr)
    (hq : (flatList as).all Attr.isEmpty = as.all Attr.isEmpty) :
    place env l m (ops.map flatOp) (flatList as) = place env l .ideal ops as := by
  induction ops with
  | nil => simp only [List.map_nil, place]; rw [listMembers_mode, listMembers_flat]
  | cons op ops ih =>
    cases op with
    | attrs bs =>
      simp only [List.map_cons, flatOp, place]
      rw [listMembers_mode, listMembers_flat, ih]
    | group n =>
      simp only [List.map_cons, flatOp, place]
      rw [groupsOnly_flat, hq, ih]

end Verif.LogTree
