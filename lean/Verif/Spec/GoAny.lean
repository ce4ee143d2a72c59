import Verif.GoLib
import Verif.Spec.JsonParse

/-
Specification: the values `encoding/json` makes of JSON texts when it decodes into a
`map[string]any`, when two of them are the same, and when an unmarshaling function is
faithful to the texts.
-/

namespace Verif.Go

/-- What a Go `any` can hold after `json.Unmarshal` into an `any` (encoding/json, package
documentation of `Unmarshal`), and what the maps of expected values hold
(bench/tests/data.go:17-22, 83-100, 116-133): nil, a bool, a float64 (of an abstract type
`F`), a string, a `[]any` or a `map[string]any`. The entries of a map come in the order in
which a `range` loop happens to visit them. -/
inductive Any (F : Type)
  | nil
  | bool (b : Bool)
  | num (x : F)
  | str (s : Bytes)
  | list (l : List (Any F))
  | map (m : List (Bytes × Any F))

variable {F : Type}

/-- A `map[string]any`. -/
abbrev AMap (F : Type) := Map Bytes (Any F)

namespace Any

/-- The value found by following a path of keys. -/
def find : Any F → List Bytes → Option (Any F)
  | a, [] => some a
  | .map m, k :: p => (Map.get m k).bind (Any.find · p)
  | _, _ :: _ => none

/-- A group. -/
def isMap : Any F → Bool
  | .map _ => true
  | _ => false

/-- Every map inside has each key once. -/
inductive Ok : Any F → Prop
  | nil : Ok .nil
  | bool (b) : Ok (.bool b)
  | num (x) : Ok (.num x)
  | str (s) : Ok (.str s)
  | list {l} : (∀ a ∈ l, Ok a) → Ok (.list l)
  | map {m} : (Map.keys m).Nodup → (∀ e ∈ m, Ok e.2) → Ok (.map m)

/-- The same value: lists by position, maps by key. -/
inductive Same : Any F → Any F → Prop
  | nil : Same .nil .nil
  | bool (b) : Same (.bool b) (.bool b)
  | num (x) : Same (.num x) (.num x)
  | str (s) : Same (.str s) (.str s)
  | list {l l'} : l.length = l'.length →
      (∀ (i : Nat) a a', l[i]? = some a → l'[i]? = some a' → Same a a') → Same (.list l) (.list l')
  | map {m m'} : (∀ k, (Map.get m k).isSome = (Map.get m' k).isSome) →
      (∀ k a a', Map.get m k = some a → Map.get m' k = some a' → Same a a') →
      Same (.map m) (.map m')

/-- The path `p` leads to a value of `e` that `a` does not have: on the way there `a` has
groups, too; the two values are not both groups (which are compared field by field), and
they are not the same, nil standing for a missing field. -/
def Fault (e a : Any F) (p : List Bytes) : Prop :=
  ∃ v, e.find p = some v ∧
    (∀ q, q <+: p → q ≠ p → ∃ x, a.find q = some x ∧ x.isMap = true) ∧
    ¬ (v.isMap = true ∧ ((a.find p).getD .nil).isMap = true) ∧
    ¬ Same v ((a.find p).getD .nil)

/-- There is a group at the end of the path. -/
def MapAt (a : Any F) (p : List Bytes) : Prop := ∃ v, a.find p = some v ∧ v.isMap = true

/-- Every group inside has a name that continues the name of the group around it (`stem`
for the outermost ones), and everything else is one of the fields `names`. -/
def Stemmed (names : List Bytes) (stem : Bytes) (a : Any F) : Prop :=
  ∀ p k v, a.find (p ++ [k]) = some v →
    if v.isMap = true then p.getLast?.getD stem <+: k else k ∈ names

end Any

/-- The last member of a name. -/
def lastOf {V : Type} (ms : List (Bytes × V)) (k : Bytes) : Option V := Map.get ms.reverse k

/-- `IsAny num t a`: the value `a` is what decoding a JSON text for the tree `t` gives, if
`num` decodes numerals; of members of the same name the last one counts. -/
inductive IsAny (num : Bytes → Option F) : Json.Tree → Any F → Prop
  | null : IsAny num .null .nil
  | bool (b) : IsAny num (.bool b) (.bool b)
  | num {t x} : num t = some x → IsAny num (.num t) (.num x)
  | str (s) : IsAny num (.str s) (.str s)
  | arr {es l} : es.length = l.length →
      (∀ (i : Nat) t a, es[i]? = some t → l[i]? = some a → IsAny num t a) → IsAny num (.arr es) (.list l)
  | obj {ms m} : (Map.keys m).Nodup → (∀ k, (Map.get m k).isSome = (lastOf ms k).isSome) →
      (∀ k t a, lastOf ms k = some t → Map.get m k = some a → IsAny num t a) →
      IsAny num (.obj ms) (.map m)

/-- The replacement character does not occur. -/
def NoRepl : Bytes → Bool
  | 0xEF :: 0xBF :: 0xBD :: _ => false
  | _ :: s => NoRepl s
  | [] => true

mutual
/-- A tree nested at most `n` deep whose strings and keys do not contain the replacement
character. -/
def fits : Nat → Json.Tree → Bool
  | _, .null => true
  | _, .bool _ => true
  | _, .num _ => true
  | _, .str s => NoRepl s
  | 0, .arr _ => false
  | 0, .obj _ => false
  | n + 1, .arr es => fitsAll n es
  | n + 1, .obj ms => fitsMembers n ms
/-- All elements fit. -/
def fitsAll : Nat → List Json.Tree → Bool
  | _, [] => true
  | n, t :: ts => fits n t && fitsAll n ts
/-- All members fit. -/
def fitsMembers : Nat → List (Bytes × Json.Tree) → Bool
  | _, [] => true
  | n, (k, t) :: ms => NoRepl k && fits n t && fitsMembers n ms
end

/-- `unmarshal` decodes the texts of JSON objects into maps, as `json.Unmarshal` does: a
text nested at most 10000 deep (the limit of encoding/json), possibly followed by white
space, whose numerals can be decoded. Texts in which the replacement character occurs are
left open: the specification of strings does not combine escaped surrogates, which it
takes for replacement characters. The result is the map and the error text. -/
def Faithful (num : Bytes → Option F) (unmarshal : Bytes → Option (AMap F) × Option Bytes) : Prop :=
  ∀ b ms w a, Json.Denotes b (.obj ms) → Json.Ws w → fits 10000 (.obj ms) = true →
    IsAny num (.obj ms) a →
    ∃ m, unmarshal (b ++ w) = (some m, none) ∧ IsAny num (.obj ms) (.map m)

end Verif.Go
