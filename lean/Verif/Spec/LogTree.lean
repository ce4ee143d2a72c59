import Verif.Slog
import Verif.Spec.JsonParse

/-
Specification: the JSON members a record should produce, independent of how
the handlers compute text.

* `leafTree`: JSON image of a single value.
* `listMembers`: members of an attribute list (empty attributes and empty
  groups left out, unnamed groups inlined).
* `place`: members of a record logged through a chain of WithAttrs/WithGroup.
-/

namespace Verif.LogTree
open Slog Json

/-- How a `LogValuer` is shown: like the value it stands for (`ideal`), or as
the JSON image of the resolved value taken as an `any` (`viaAny`; what flash
does if there is no ReplaceAttr function). -/
inductive Mode
  | ideal
  | viaAny
deriving DecidableEq

/-- A JSON text on one line denoting `t`. -/
def LineText (b : Bytes) (t : Tree) : Prop := Denotes b t ∧ (0x0A : UInt8) ∉ b

/-- Small letters only. -/
def Letters (k : Bytes) : Prop := ∀ a ∈ k, 0x61 ≤ a ∧ a ≤ 0x7A

/-- In the text of an object no member with a name of small letters has its name escaped. -/
def Spelled (b : Bytes) : Prop :=
  ∀ cs, Val b (.obj cs) → ∀ e ∈ cs, ∀ k, decodeBody e.1 = some k → Letters k → e.1 = k

/-- Marshaler text becomes a string. -/
def resTree : Res → Option Tree
  | .ok t => some (.str t)
  | .error _ => none

/-- Image of an `any`: null, the text of a Stringer, error or marshaler, or
whatever `json.Marshal` says. -/
def anyTree : AnyVal → Option Tree
  | .nil => some .null
  | .obj o =>
    match o.stringer, o.error, o.jsonM, o.textM, o.marshal with
    | some s, _, _, _, _ => some (.str s)
    | none, some s, _, _, _ => some (.str s)
    | none, none, some r, _, _ => resTree r
    | none, none, none, some r, _ => resTree r
    | none, none, none, none, .ok b => parseTree b
    | none, none, none, none, .error _ => none

/-- Image of a value that is neither group nor LogValuer. -/
def leafTree (env : Env) (layout : Bytes) : Value → Option Tree
  | .any a => anyTree a
  | .bool b => some (.bool b)
  | .duration d => some (.num (decInt d))
  | .float64 f => some (.num f.text)
  | .int64 i => some (.num (decInt i))
  | .string s => some (.str s)
  | .time t => some (.str (env.formatTime layout t))
  | .uint64 n => some (.num (decNat n))
  | .group _ => none
  | .logValuer _ _ => none

/-- A member, or none for the empty attribute. -/
def single (k : Bytes) (v : Value) (t : Option Tree) : Option (List (Bytes × Tree)) :=
  if (Attr.mk k v).isEmpty then some [] else t.map fun t => [(k, t)]

/-- A group of members: nothing if empty, inlined if unnamed. -/
def grouped (k : Bytes) (ms : List (Bytes × Tree)) : List (Bytes × Tree) :=
  if ms.isEmpty then [] else if k.isEmpty then ms else [(k, .obj ms)]

mutual
/-- Members an attribute stands for; `none` if a value has no JSON image. -/
def attrMembers (env : Env) (layout : Bytes) (m : Mode) : Attr → Option (List (Bytes × Tree))
  | .mk k v => valMembers env layout m k v
/-- The same for key and value. -/
def valMembers (env : Env) (layout : Bytes) (m : Mode) (k : Bytes) :
    Value → Option (List (Bytes × Tree))
  | .logValuer _ r =>
    match m with
    | .ideal => valMembers env layout m k r
    | .viaAny => single k r.resolve (anyTree (r.resolve.anyOf env))
  | .group as => (listMembers env layout m as).map (grouped k)
  | v => single k v (leafTree env layout v)
/-- Members of an attribute list. -/
def listMembers (env : Env) (layout : Bytes) (m : Mode) : List Attr → Option (List (Bytes × Tree))
  | [] => some []
  | a :: as =>
    match attrMembers env layout m a, listMembers env layout m as with
    | some x, some y => some (x ++ y)
    | _, _ => none
end

/-! ### Derivation chains -/

/-- Nothing but `WithGroup` calls (with a name). -/
def groupsOnly (ops : List Op) : Bool :=
  ops.all fun | .group n => !n.isEmpty | .attrs _ => false

/-- Members of a record with attributes `as` logged through a handler derived
by `ops`, in slog's terms: a group that ends up empty is left out. -/
def placeIdeal (env : Env) (layout : Bytes) (m : Mode) :
    List Op → List Attr → Option (List (Bytes × Tree))
  | [], as => listMembers env layout m as
  | .attrs bs :: ops, as =>
    match listMembers env layout m bs, placeIdeal env layout m ops as with
    | some x, some y => some (x ++ y)
    | _, _ => none
  | .group n :: ops, as => (placeIdeal env layout m ops as).map (grouped n)

/-- The same, except that a group is left out only if nothing but named groups
follow and all attributes of the record are empty attributes; otherwise it is
printed even if it ends up empty. -/
def place (env : Env) (layout : Bytes) (m : Mode) :
    List Op → List Attr → Option (List (Bytes × Tree))
  | [], as => listMembers env layout m as
  | .attrs bs :: ops, as =>
    match listMembers env layout m bs, place env layout m ops as with
    | some x, some y => some (x ++ y)
    | _, _ => none
  | .group n :: ops, as =>
    if n.isEmpty then place env layout m ops as
    else if as.all Attr.isEmpty && groupsOnly ops then some []
    else (place env layout m ops as).map fun ms => [(n, .obj ms)]

/-! ### Conditions under which a handler can be expected to print JSON -/

/-- A marshaler result is good text. -/
def ResClean : Res → Prop
  | .ok t => Utf8.Valid t
  | .error _ => False

/-- The texts an `any` is shown by are valid UTF-8; there is no marshaler
error, and what `json.Marshal` returns is JSON on one line. -/
def AnyClean : AnyVal → Prop
  | .nil => True
  | .obj o =>
    match o.stringer, o.error, o.jsonM, o.textM, o.marshal with
    | some s, _, _, _, _ => Utf8.Valid s
    | none, some s, _, _, _ => Utf8.Valid s
    | none, none, some r, _, _ => ResClean r
    | none, none, none, some r, _ => ResClean r
    | none, none, none, none, .ok b => ∃ t, LineText b t
    | none, none, none, none, .error _ => False

/-- Finite. -/
def F64.finite : F64 → Prop
  | .fin _ _ _ => True
  | _ => False

/-- A leaf value is printable: valid UTF-8, finite, a time text that needs no
escapes. -/
def LeafClean (env : Env) (layout : Bytes) : Value → Prop
  | .any a => AnyClean a
  | .float64 f => F64.finite f
  | .string s => Utf8.Valid s
  | .time t => decodeBody (env.formatTime layout t) = some (env.formatTime layout t)
  | .group _ => False
  | .logValuer _ _ => False
  | _ => True

mutual
/-- An attribute all of whose keys and values are printable. A LogValuer must
not resolve to nil under an empty key (it would count as present and yet
disappear). -/
def AttrClean (env : Env) (layout : Bytes) : Attr → Prop
  | .mk k v => Utf8.Valid k ∧ ValClean env layout k v
/-- The same for key and value. -/
def ValClean (env : Env) (layout : Bytes) (k : Bytes) : Value → Prop
  | .logValuer _ r => AnyClean (r.resolve.anyOf env) ∧ (Attr.mk k r.resolve).isEmpty = false
  | .group as => ListClean env layout as
  | v => LeafClean env layout v
/-- All attributes of a list are printable. -/
def ListClean (env : Env) (layout : Bytes) : List Attr → Prop
  | [] => True
  | a :: as => AttrClean env layout a ∧ ListClean env layout as
end

/-- Marshaling gives no error. -/
def ResRenders : Res → Prop
  | .ok _ => True
  | .error _ => False

/-- Showing an `any` gives no error; what `json.Marshal` returns does not end in
an opening brace (no JSON text does). -/
def AnyRenders : AnyVal → Prop
  | .nil => True
  | .obj o =>
    match o.stringer, o.error, o.jsonM, o.textM, o.marshal with
    | some _, _, _, _, _ => True
    | none, some _, _, _, _ => True
    | none, none, some r, _, _ => ResRenders r
    | none, none, none, some r, _ => ResRenders r
    | none, none, none, none, .ok b => b.getLast? ≠ some 0x7B
    | none, none, none, none, .error _ => False

mutual
/-- An attribute can be rendered without error, whatever bytes it contains. A
LogValuer must not resolve to nil under an empty key. -/
def AttrRenders (env : Env) : Attr → Prop
  | .mk k v => ValRenders env k v
/-- The same for key and value. -/
def ValRenders (env : Env) (k : Bytes) : Value → Prop
  | .logValuer _ r => AnyRenders (r.resolve.anyOf env) ∧ (Attr.mk k r.resolve).isEmpty = false
  | .group as => ListRenders env as
  | .any a => AnyRenders a
  | _ => True
/-- The same for a list. -/
def ListRenders (env : Env) : List Attr → Prop
  | [] => True
  | a :: as => AttrRenders env a ∧ ListRenders env as
end

/-! ### Errors -/

/-- The error of a marshaling call. -/
def resError : Res → Option Bytes
  | .ok _ => none
  | .error e => some e

/-- The error met when an `any` is shown: only what is actually called counts. -/
def anyError : AnyVal → Option Bytes
  | .nil => none
  | .obj o =>
    if o.stringer.isSome || o.error.isSome then none
    else match o.jsonM, o.textM with
      | some r, _ => resError r
      | none, some r => resError r
      | none, none => resError o.marshal

mutual
/-- The first error met when an attribute is shown. A LogValuer is resolved and
shown as an `any`, unless nothing but the empty attribute is left. -/
def attrError (env : Env) : Attr → Option Bytes
  | .mk k v => valError env k v
/-- The same for key and value. -/
def valError (env : Env) (k : Bytes) : Value → Option Bytes
  | .logValuer _ r =>
    if (Attr.mk k r.resolve).isEmpty then none else anyError (r.resolve.anyOf env)
  | .group as => listError env as
  | .any a => anyError a
  | _ => none
/-- The first error in a list. -/
def listError (env : Env) : List Attr → Option Bytes
  | [] => none
  | a :: as => (attrError env a).or (listError env as)
end

mutual
/-- Does an attribute carry something to print: a non-empty attribute that is
not a group, possibly inside groups? -/
def attrHasLeaf : Attr → Bool
  | .mk k v => !(Attr.mk k v).isEmpty && valHasLeaf v
/-- Groups are looked into. -/
def valHasLeaf : Value → Bool
  | .group as => listHasLeaf as
  | _ => true
/-- Some attribute of a list does. -/
def listHasLeaf : List Attr → Bool
  | [] => false
  | a :: as => attrHasLeaf a || listHasLeaf as
end

mutual
/-- How deeply groups are nested in an attribute. -/
def attrDepth : Attr → Nat
  | .mk _ v => valDepth v
/-- The same for a value. -/
def valDepth : Value → Nat
  | .group as => listDepth as + 1
  | _ => 0
/-- Maximum over a list. -/
def listDepth : List Attr → Nat
  | [] => 0
  | a :: as => max (attrDepth a) (listDepth as)
end

/-- All attributes of a chain are clean and all group names can stand in a
JSON string as they are. -/
def OpsClean (env : Env) (layout : Bytes) : List Op → Prop
  | [] => True
  | .attrs as :: ops => ListClean env layout as ∧ OpsClean env layout ops
  | .group n :: ops => decodeBody n = some n ∧ OpsClean env layout ops

/-- Group nesting of the attributes of a chain. -/
def opsDepth : List Op → Nat
  | [] => 0
  | .attrs as :: ops => max (listDepth as) (opsDepth ops)
  | .group _ :: ops => opsDepth ops

/-! ### Where the two readings agree -/

/-- Kinds of value that look the same as values and as `any`. -/
def PlainKind (env : Env) : Value → Prop
  | .any _ => True
  | .bool _ => True
  | .int64 _ => True
  | .uint64 _ => True
  | .string s => Utf8.Valid s
  | .float64 f => env.marshalFloat f = .ok f.text ∧ F64.finite f
  | _ => False

mutual
/-- Every LogValuer resolves to a plain kind of value. -/
def AttrPlain (env : Env) : Attr → Prop
  | .mk _ v => ValPlain env v
/-- The same for a value. -/
def ValPlain (env : Env) : Value → Prop
  | .logValuer _ r => PlainKind env r.resolve
  | .group as => ListPlain env as
  | _ => True
/-- The same for a list. -/
def ListPlain (env : Env) : List Attr → Prop
  | [] => True
  | a :: as => AttrPlain env a ∧ ListPlain env as
end

/-- Every WithAttrs of the chain contributes a member and every WithGroup has a
name; LogValuers resolve to plain kinds. -/
def OpsPlain (env : Env) (layout : Bytes) : List Op → Prop
  | [] => True
  | .attrs as :: ops =>
    ListPlain env as ∧ listMembers env layout .ideal as ≠ some [] ∧ OpsPlain env layout ops
  | .group n :: ops => n ≠ [] ∧ OpsPlain env layout ops

end Verif.LogTree
