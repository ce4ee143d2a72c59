import Verif.Flash.Handler

set_option linter.unusedSimpArgs false

/-
Lemmas: what the flash composer appends, as a list of member texts joined by
separators.
-/

namespace Verif.Flash
open Slog

/-- Member texts with separators; the flag tells that something precedes. -/
def sepText : Bool → List Bytes → Bytes
  | _, [] => []
  | false, t :: ts => t ++ sepText true ts
  | true, t :: ts => 0x2C :: 0x20 :: (t ++ sepText true ts)

theorem sepText_append (s : Bool) (xs ys : List Bytes) :
    sepText s (xs ++ ys) = sepText s xs ++ sepText (s || !xs.isEmpty) ys := by
  induction xs generalizing s with
  | nil => simp [sepText]
  | cons x xs ih => cases s <;> simp [sepText, ih]

/-- Text of an object with the given member texts. -/
def objText (ts : List Bytes) : Bytes := 0x7B :: (sepText false ts ++ [0x7D])

/-- A quoted, escaped string. -/
def strText (s : Bytes) : Bytes := 0x22 :: (addEscaped s ++ [0x22])

/-- The text of a key with its colon. -/
def keyText (k : Bytes) : Bytes := strText k ++ [0x3A, 0x20]

/-- Text of a marshaler result, if there is no error. -/
def resText : Res → Option Bytes
  | .ok t => some (strText t)
  | .error _ => none

/-- Text appended by `addAny`, if there is no error. -/
def anyText : AnyVal → Option Bytes
  | .nil => some b!"null"
  | .obj o =>
    match o.stringer with
    | some s => some (strText s)
    | none =>
      match o.error with
      | some e => some (strText e)
      | none =>
        match o.jsonM with
        | some r => resText r
        | none =>
          match o.textM with
          | some r => resText r
          | none =>
            match o.marshal with
            | .ok b => some b
            | .error _ => none

/-- Text appended by the value switch, if there is no error. -/
def leafText (cfg : Cfg) (forceAny : Bool) (v : Value) : Option Bytes :=
  match forceAny, v with
  | false, .bool true => some b!"true"
  | false, .bool false => some b!"false"
  | false, .duration d => some (decInt d)
  | false, .float64 f => some f.text
  | false, .int64 i => some (decInt i)
  | false, .string s => some (strText s)
  | false, .time t => some (0x22 :: (cfg.env.formatTime cfg.extras.timeFormat t ++ [0x22]))
  | false, .uint64 n => some (decNat n)
  | _, v => anyText (v.anyOf cfg.env)

/-- Texts of all attributes of a list, if there is no error. -/
def allTexts (f : Attr → Option (List Bytes)) : List Attr → Option (List Bytes)
  | [] => some []
  | a :: as =>
    match f a, allTexts f as with
    | some x, some y => some (x ++ y)
    | _, _ => none

/-- Member texts an attribute contributes. `none` if there is an error, the
recursion is too deep, or a named group that `emptyGroup` takes for non-empty
turns out to have no members (then flash prints no comma after it). -/
def attrTexts (cfg : Cfg) : Nat → Attr → Option (List Bytes)
  | 0, _ => none
  | n + 1, attr =>
    let (attr, forceAny) := prep cfg attr
    if attr.isEmpty then some []
    else match forceAny, attr.value with
      | false, .group as =>
        if emptyGroup as then some []
        else match allTexts (attrTexts cfg n) as with
          | none => none
          | some ts =>
            if attr.key = [] then some ts
            else if ts.isEmpty then none
            else some [keyText attr.key ++ (0x7B :: (sepText false ts ++ [0x7D]))]
      | forceAny, v => (leafText cfg forceAny v).map fun t => [keyText attr.key ++ t]

/-- The state after appending member texts. -/
def St.addTexts (st : St) (ts : List Bytes) : St :=
  { buffer := st.buffer ++ sepText st.started ts, started := st.started || !ts.isEmpty }

theorem St.addTexts_append (st : St) (xs ys : List Bytes) :
    (st.addTexts xs).addTexts ys = st.addTexts (xs ++ ys) := by
  have := sepText_append st.started xs ys
  cases xs <;> simp_all [St.addTexts, sepText]

theorem St.addTexts_nil (st : St) : st.addTexts [] = st := by
  simp [St.addTexts, sepText]

theorem addString_eq (st : St) (s : Bytes) : st.addString s = st.add (strText s) := by
  simp [St.addString, St.add, strText]

theorem sepKey_eq (st : St) (k t : Bytes) :
    (st.addSeparator.addKey k).add t = st.addTexts [keyText k ++ t] := by
  obtain ⟨b, s⟩ := st
  cases s <;> simp [St.addSeparator, St.addKey, addString_eq, St.add, St.addTexts, sepText, keyText]

theorem addMarshaler_eq {st : St} {r : Res} {t : Bytes} (h : resText r = some t) :
    st.addMarshaler r = .ok (st.add t) := by
  cases r with
  | error e => simp [resText] at h
  | ok x => simp [resText] at h; subst h; simp [St.addMarshaler, addString_eq]

theorem addAny_eq {st : St} {a : AnyVal} {t : Bytes} (h : anyText a = some t) :
    st.addAny a = .ok (st.add t) := by
  cases a with
  | nil => simp [anyText] at h; subst h; rfl
  | obj o =>
    obtain ⟨_, s, e, j, t, m⟩ := o
    cases s <;> cases e <;> cases j <;> cases t <;> cases m <;>
      simp only [anyText, St.addAny, Option.some.injEq, reduceCtorEq] at * <;>
      first
        | exact addMarshaler_eq h
        | (subst h; simp [addString_eq])

theorem addLeaf_eq {cfg : Cfg} {fa : Bool} {st : St} {v : Value} {t : Bytes}
    (h : leafText cfg fa v = some t) : addLeaf cfg fa st v = .ok (st.add t) := by
  unfold leafText at h
  split at h <;> first
    | (simp only [Option.some.injEq] at h; subst h
       simp [addLeaf, addString_eq, St.addTime, St.add, strText])
    | skip
  unfold addLeaf
  split <;> first | exact addAny_eq h | simp_all

theorem addAll_eq {f : St → Attr → Out} {g : Attr → Option (List Bytes)}
    (hf : ∀ st a ts, g a = some ts → f st a = .ok (st.addTexts ts)) :
    ∀ (as : List Attr) (st : St) (ts : List Bytes), allTexts g as = some ts →
      addAll f st as = .ok (st.addTexts ts) := by
  intro as
  induction as with
  | nil => intro st ts h; simp [allTexts] at h; subst h; simp [addAll, St.addTexts_nil]
  | cons a as ih =>
    intro st ts h
    simp only [allTexts] at h
    split at h
    · rename_i x y hx hy
      simp at h; subst h
      simp only [addAll, hf st a x hx]
      rw [ih _ y hy, St.addTexts_append]
    · simp at h

/-- If an attribute has member texts, `addAttribute` appends them. -/
theorem addAttribute_eq (cfg : Cfg) (n : Nat) : ∀ (st : St) (a : Attr) (ts : List Bytes),
    attrTexts cfg n a = some ts → addAttribute cfg n st a = .ok (st.addTexts ts) := by
  induction n with
  | zero => intro st a ts h; simp [attrTexts] at h
  | succ n ih =>
    intro st a ts h
    simp only [attrTexts, addAttribute] at *
    split at h
    · rename_i he
      simp only [Option.some.injEq] at h; subst h
      simp [he, St.addTexts_nil]
    · rename_i he
      simp only [he]
      simp only [Bool.false_eq_true, if_false]
      split at h
      · rename_i as hv1 hv2
        rw [hv1, hv2]
        simp only
        split at h
        · rename_i hg
          simp only [Option.some.injEq] at h; subst h
          simp [hg, St.addTexts_nil]
        · rename_i hg
          simp only [hg]
          simp only [Bool.false_eq_true, if_false]
          split at h
          · simp at h
          · rename_i xs hxs
            split at h
            · rename_i hk
              simp only [Option.some.injEq] at h; subst h
              simp only [hk, if_true]
              exact addAll_eq ih as st _ hxs
            · rename_i hk
              simp only [hk, if_false]
              split at h
              · simp at h
              · rename_i hne
                simp only [Option.some.injEq] at h; subst h
                rw [addAll_eq ih as _ xs hxs]
                simp only [St.addTexts, St.add]
                have hne' : xs.isEmpty = false := by simpa using hne
                obtain ⟨b, s⟩ := st
                cases s <;>
                  simp [St.addSeparator, St.addKey, addString_eq, St.add, sepText, keyText, hne']
      · simp only [Option.map_eq_some_iff] at h
        obtain ⟨t, ht, rfl⟩ := h
        split
        · simp_all
        · rw [addLeaf_eq ht, sepKey_eq]

theorem addAttributes_eq {cfg : Cfg} {as : List Attr} {ts : List Bytes}
    (h : allTexts (attrTexts cfg cfg.env.stack) as = some ts) (st : St) :
    addAttributes cfg st as = .ok (st.addTexts ts) :=
  addAll_eq (addAttribute_eq cfg _) as st ts h

theorem allTexts_append {g : Attr → Option (List Bytes)} {as bs : List Attr} {x y : List Bytes}
    (h1 : allTexts g as = some x) (h2 : allTexts g bs = some y) :
    allTexts g (as ++ bs) = some (x ++ y) := by
  induction as generalizing x with
  | nil => simp [allTexts] at h1; subst h1; simpa using h2
  | cons a as ih =>
    simp only [allTexts] at h1
    split at h1
    · rename_i u v hu hv
      simp at h1; subst h1
      simp [allTexts, hu, ih hv]
    · simp at h1

end Verif.Flash
