import Verif.GoLib

/-
The register of score keepers: internal/scoring/score/keeper.go and
internal/scoring/keeper/setup.go.

Simplified: what a keeper is apart from its tag is a value of any type; a nil keeper is not passed to
`AddKeeper`; callers do not write to the list they get from `Keepers`.
-/

namespace Verif.Score

open Verif.Go

variable {α : Type}

/-- The variables `keepers` and `keeperTags` (internal/scoring/score/keeper.go:140-143). A nil map
is the empty one; a nil list is `none`. -/
structure Keepers (α : Type) where
  keepers : Map Bytes α := []
  tags : Option (List Bytes) := none

/-- `AddKeeper` (internal/scoring/score/keeper.go:145-156): the variables and whether an error is
returned. -/
def Keepers.add (s : Keepers α) (tag : Bytes) (k : α) : Keepers α × Bool :=
  match s.keepers.get tag with
  | some _ => (s, true)
  | none => ({ keepers := s.keepers.set tag k, tags := none }, false)

/-- `GetKeeper` (internal/scoring/score/keeper.go:158-160). -/
def Keepers.get (s : Keepers α) (tag : Bytes) : Option α := s.keepers.get tag

/-- The comparison of tags (internal/scoring/score/keeper.go:168-177), where it does not panic. -/
def tagLess (a b : Bytes) : Bool :=
  if a.head? = some 0x2B then
    if b.head? ≠ some 0x2B then false else less a b
  else if b.head? = some 0x2B then true
  else less a b

/-- The comparison reads the first byte of tags. Sorting compares every element if there are at least
two, so there is a panic if one is empty then (internal/scoring/score/keeper.go:169-173). -/
def tagsPanic (tags : List Bytes) : Bool := 2 ≤ tags.length && tags.contains []

/-- `Keepers` (internal/scoring/score/keeper.go:162-180): the variables, and the list or a panic.
The map is visited in the order `pick`; after a panic the variable holds the tags in the order
`part` to which sorting has come. -/
def Keepers.list (S : Sorter) (pick part : List Bytes → List Bytes) (s : Keepers α) : Keepers α × Option (List Bytes) :=
  match s.tags with
  | some l => (s, some l)
  | none =>
    let l := pick s.keepers.keys
    if tagsPanic l then ({ s with tags := some (part l) }, none)
    else
      let l := S.sort tagLess l
      ({ s with tags := some l }, some l)

/-- `setupDefault`, `setupSimple`, `setupReplAttr`, `setupDedup` and `setupSize` one after the other, up to
the first error (internal/scoring/keeper/setup.go:11-25, with default.go:12, replattr.go:12, dedup.go:12,
simple.go:14 and size.go:13). -/
def Keepers.addAll (s : Keepers α) : List (Bytes × α) → Keepers α × Bool
  | [] => (s, false)
  | (t, k) :: l =>
    match s.add t k with
    | (s, true) => (s, true)
    | (s, false) => s.addAll l

/-- The tags in the order of registration (internal/scoring/keeper/setup.go:11-25). -/
def configuredTags : List Bytes := [b!"Default", b!"Simple", b!"+ReplAttr", b!"+Dedup", b!"Size"]

end Verif.Score
