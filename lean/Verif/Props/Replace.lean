import Verif.Spec.Letters
import Verif.Flash.Sample

/-
Properties C24 and C25: the functions of the replace package.
-/

namespace Verif.Props.Replace
open Slog Verif.Replace Letters

/-! ### C24 -/

/-- When a replace function applies: the key is the wanted one (up to the case of
ASCII letters if asked for), and the group test, if there is one, accepts. -/
def Applies (key : Bytes) (caseInsensitive : Bool) (chk : GroupCheck) (groups : List Bytes) (a : Attr) : Prop :=
  (if caseInsensitive then SameText a.key key else a.key = key) ∧ ∀ c, chk = some c → c groups = true

/-- ASCII keys, if letter case is to be ignored. -/
def KeysOk (caseInsensitive : Bool) (key : Bytes) (a : Attr) : Prop :=
  caseInsensitive = true → Ascii key ∧ Ascii a.key

theorem check_iff {L : Lib} (hL : Good L) {key : Bytes} {ci : Bool} {chk : GroupCheck} {groups : List Bytes}
    {a : Attr} (hk : KeysOk ci key a) :
    checkFieldGroups L groups a key ci chk = true ↔ Applies key ci chk groups a := by
  unfold checkFieldGroups Applies
  cases ci with
  | false => cases chk <;> simp
  | true =>
    have h := hL.fold a.key key (hk rfl).2 (hk rfl).1
    cases chk <;> simp [h]

/-- C24, ChangeKey: an attribute to which it applies gets the new key and keeps its
value, every other one is unchanged. -/
theorem C24_changeKey {L : Lib} (hL : Good L) (src dst : Bytes) (ci : Bool) (chk : GroupCheck)
    (groups : List Bytes) (a : Attr) (hk : KeysOk ci src a) :
    (Applies src ci chk groups a → (changeKey L src dst ci chk groups a).key = dst ∧
      (changeKey L src dst ci chk groups a).value = a.value) ∧
    (¬ Applies src ci chk groups a → changeKey L src dst ci chk groups a = a) := by
  rw [← check_iff hL hk]
  unfold changeKey
  constructor
  · intro h; rw [if_pos h]; exact ⟨rfl, rfl⟩
  · intro h; rw [if_neg h]

/-- C24, ChangeValue: the key stays, the value is what the function makes of it. -/
theorem C24_changeValue {L : Lib} (hL : Good L) (key : Bytes) (f : ChangeFn) (ci : Bool) (chk : GroupCheck)
    (groups : List Bytes) (a : Attr) (hk : KeysOk ci key a) :
    (Applies key ci chk groups a → (changeValue L key f ci chk groups a).key = a.key ∧
      (changeValue L key f ci chk groups a).value = f a.value) ∧
    (¬ Applies key ci chk groups a → changeValue L key f ci chk groups a = a) := by
  rw [← check_iff hL hk]
  unfold changeValue
  constructor
  · intro h; rw [if_pos h]; exact ⟨rfl, rfl⟩
  · intro h; rw [if_neg h]

/-- C24, RemoveKey. -/
theorem C24_removeKey {L : Lib} (hL : Good L) (key : Bytes) (ci : Bool) (chk : GroupCheck)
    (groups : List Bytes) (a : Attr) (hk : KeysOk ci key a) :
    (Applies key ci chk groups a → (removeKey L key ci chk groups a).isEmpty = true) ∧
    (¬ Applies key ci chk groups a → removeKey L key ci chk groups a = a) := by
  rw [← check_iff hL hk]
  unfold removeKey
  constructor
  · intro h; rw [if_pos h]; rfl
  · intro h; rw [if_neg h]

/-- C24, ChangeCase to lower or upper case: the key stays; the value becomes the
string with the same letters and none of the other case; other attributes are
unchanged. -/
theorem C24_changeCase {L : Lib} (hL : Good L) (key : Bytes) (upper : Bool) (ci : Bool) (chk : GroupCheck)
    (groups : List Bytes) (a : Attr) (hk : KeysOk ci key a) (hv : Ascii (L.valueString a.value)) :
    (Applies key ci chk groups a → ∃ t,
      changeCase L key (if upper then 2 else 1) ci chk groups a = .mk a.key (.string t) ∧
      SameText t (L.valueString a.value) ∧ if upper then NoLower t else NoUpper t) ∧
    (¬ Applies key ci chk groups a → changeCase L key (if upper then 2 else 1) ci chk groups a = a) := by
  rw [← check_iff hL hk]
  cases upper
  · have e : changeCase L key 1 ci chk =
        changeValue L key (fun v => .string (L.toLower (L.valueString v))) ci chk := rfl
    simp only [Bool.false_eq_true, if_false, e]
    unfold changeValue
    constructor
    · intro h; rw [if_pos h]; exact ⟨_, rfl, hL.lower _ hv⟩
    · intro h; rw [if_neg h]
  · have e : changeCase L key 2 ci chk =
        changeValue L key (fun v => .string (L.toUpper (L.valueString v))) ci chk := rfl
    simp only [if_true, e]
    unfold changeValue
    constructor
    · intro h; rw [if_pos h]; exact ⟨_, rfl, hL.upper _ hv⟩
    · intro h; rw [if_neg h]

/-- C24, ChangeCase with `CaseNone` or a setting that does not exist. -/
theorem C24_changeCase_other (L : Lib) (key : Bytes) (c : ChangeCases) (hc : c ≠ 1 ∧ c ≠ 2) (ci : Bool)
    (chk : GroupCheck) (groups : List Bytes) (a : Attr) : changeCase L key c ci chk groups a = a := by
  unfold changeCase
  split
  · simp [caseFn, hc.1, hc.2]
  · rfl

/-- C24, group tests: `TopCheck` accepts the empty list of groups only. -/
theorem C24_topCheck (groups : List Bytes) : topCheck groups = true ↔ groups = [] := by
  simp [topCheck]

/-- C24, group tests: `Current(name)` accepts the lists that end in `name`. -/
theorem C24_current (name : Bytes) (groups : List Bytes) :
    current name groups = true ↔ ∃ outer, groups = outer ++ [name] := by
  unfold current
  constructor
  · intro h
    simp only [Bool.and_eq_true, decide_eq_true_eq, beq_iff_eq] at h
    obtain ⟨h1, h2⟩ := h
    refine ⟨groups.dropLast, ?_⟩
    rw [← List.getLast?_eq_getElem?] at h2
    exact (List.dropLast_append_getLast? name h2).symm
  · rintro ⟨outer, rfl⟩
    simp

/-- A case: "LVL" in the group list ["a"], looked for as "lvl" in any case. -/
example : Applies b!"lvl" true (some (current b!"a")) [b!"a"] (.mk b!"LVL" (.string b!"Info")) ∧
    KeysOk true b!"lvl" (.mk b!"LVL" (.string b!"Info")) ∧ Good asciiLib ∧
    ¬ Applies b!"lvl" false (some (current b!"a")) [b!"a"] (.mk b!"LVL" (.string b!"Info")) ∧
    Ascii (asciiLib.valueString (.string b!"Info")) := by
  refine ⟨⟨?_, ?_⟩, ?_, ascii_good, ?_, ?_⟩
  · exact .cons (by decide) (.cons (by decide) (.cons (by decide) .nil))
  · intro c hc; cases hc; rfl
  · intro _; exact ⟨by unfold Ascii; decide, by unfold Ascii; decide⟩
  · intro h
    have h : b!"LVL" = b!"lvl" := h.1
    revert h
    decide
  · unfold Ascii; decide

/-- C24: applying one of the functions twice is applying it once. -/
theorem C24_idempotent {L : Lib} (src dst : Bytes) (v : Value) (ci : Bool) (chk : GroupCheck)
    (groups : List Bytes) (a : Attr) :
    changeKey L src dst ci chk groups (changeKey L src dst ci chk groups a) =
      changeKey L src dst ci chk groups a ∧
    removeKey L src ci chk groups (removeKey L src ci chk groups a) = removeKey L src ci chk groups a ∧
    changeValue L src (setValueTo v) ci chk groups (changeValue L src (setValueTo v) ci chk groups a) =
      changeValue L src (setValueTo v) ci chk groups a := by
  refine ⟨?_, ?_, ?_⟩
  · unfold changeKey
    split
    · split <;> rfl
    · rfl
  · unfold removeKey
    split
    · split <;> rfl
    · rfl
  · unfold changeValue setValueTo
    split
    · split <;> rfl
    · rfl

/-- C24: changing the case twice is changing it once, for ASCII values. -/
theorem C24_changeCase_idempotent {L : Lib} (hL : Good L) (key : Bytes) (c : ChangeCases) (ci : Bool)
    (chk : GroupCheck) (groups : List Bytes) (a : Attr) (hv : Ascii (L.valueString a.value)) :
    changeCase L key c ci chk groups (changeCase L key c ci chk groups a) =
      changeCase L key c ci chk groups a := by
  have twice : ∀ (f : Bytes → Bytes), f (L.valueString (.string (f (L.valueString a.value)))) = f (L.valueString a.value) →
      ∀ b, b = changeValue L key (fun v => .string (f (L.valueString v))) ci chk groups a →
      changeValue L key (fun v => .string (f (L.valueString v))) ci chk groups b = b := by
    intro f hf b hb
    unfold changeValue at hb ⊢
    split at hb
    · subst hb
      split
      · simp only [Attr.value_mk, Attr.key_mk, hf]
      · rfl
    · rename_i h
      subst hb
      rw [if_neg h]
  by_cases h1 : c = 1
  · subst h1
    refine twice L.toLower ?_ _ rfl
    obtain ⟨s1, n1⟩ := hL.lower _ hv
    rw [hL.string]
    obtain ⟨s2, n2⟩ := hL.lower _ (s1.ascii hv)
    exact s2.eq_of_noUpper n2 n1
  · by_cases h2 : c = 2
    · subst h2
      refine twice L.toUpper ?_ _ rfl
      obtain ⟨s1, n1⟩ := hL.upper _ hv
      rw [hL.string]
      obtain ⟨s2, n2⟩ := hL.upper _ (s1.ascii hv)
      exact s2.eq_of_noLower n2 n1
    · rw [C24_changeCase_other L key c ⟨h1, h2⟩, C24_changeCase_other L key c ⟨h1, h2⟩]

example : changeCase asciiLib b!"k" 2 false none [] (.mk b!"k" (.string b!"aB1")) =
    .mk b!"k" (.string b!"AB1") := by rfl

/-! ### C25 -/

/-- What running functions one after the other gives, stopping at the empty attribute. -/
inductive Runs (groups : List Bytes) : List AttrFn → Attr → Attr → Prop
  | done (a) : Runs groups [] a a
  | stop {f fs a} : (f groups a).isEmpty = true → Runs groups (f :: fs) a (f groups a)
  | next {f fs a r} : (f groups a).isEmpty = false → Runs groups fs (f groups a) r → Runs groups (f :: fs) a r

/-- C25: `Multiple` gives that, and nothing else is possible. -/
theorem C25_multiple_runs (fs : List AttrFn) (groups : List Bytes) (a r : Attr) :
    Runs groups fs a r ↔ r = multiple fs groups a := by
  induction fs generalizing a with
  | nil =>
    show _ ↔ r = a
    constructor
    · intro h; cases h; rfl
    · intro h; rw [h]; exact .done a
  | cons f fs ih =>
    simp only [multiple]
    constructor
    · intro h
      cases h with
      | stop h => rw [if_pos h]
      | next h h' => rw [if_neg (by simp [h])]; exact (ih _).1 h'
    · intro e
      split at e
      · rename_i h; rw [e]; exact .stop h
      · rename_i h; exact .next (by simpa using h) ((ih _).2 e)

/-- C25: `Multiple()` is the identity and `Multiple(f)` is `f`. -/
theorem C25_multiple_units (f : AttrFn) (groups : List Bytes) (a : Attr) :
    multiple [] groups a = a ∧ multiple [f] groups a = f groups a := by
  refine ⟨rfl, ?_⟩
  simp only [multiple]
  split <;> rfl

theorem multiple_stop {f : AttrFn} {groups : List Bytes} {a : Attr} (fs : List AttrFn)
    (h : (f groups a).isEmpty = true) : multiple (f :: fs) groups a = f groups a := by
  simp only [multiple]; rw [if_pos h]

theorem multiple_next {f : AttrFn} {groups : List Bytes} {a : Attr} (fs : List AttrFn)
    (h : ¬ (f groups a).isEmpty = true) : multiple (f :: fs) groups a = multiple fs groups (f groups a) := by
  simp only [multiple]; rw [if_neg h]

/-- C25: running a longer list is running its first part and, unless that gave the
empty attribute, the rest. -/
theorem C25_multiple_append (fs gs : List AttrFn) (hfs : fs ≠ []) (groups : List Bytes) (a : Attr) :
    multiple (fs ++ gs) groups a =
      (if (multiple fs groups a).isEmpty then multiple fs groups a
       else multiple gs groups (multiple fs groups a)) := by
  induction fs generalizing a with
  | nil => exact absurd rfl hfs
  | cons f fs ih =>
    rw [List.cons_append]
    by_cases h : (f groups a).isEmpty = true
    · rw [multiple_stop _ h, multiple_stop _ h, if_pos h]
    · rw [multiple_next _ h, multiple_next _ h]
      cases fs with
      | nil => rw [(C25_multiple_units f groups _).1, if_neg h]; rfl
      | cons g fs => exact ih (by simp) _

/-- C25, nesting: `Multiple(Multiple(fs...), Multiple(gs...))` is
`Multiple(fs..., gs...)`, if `fs` is not empty or the attribute is not. -/
theorem C25_multiple_nested (fs gs : List AttrFn) (groups : List Bytes) (a : Attr)
    (h : fs ≠ [] ∨ a.isEmpty = false) :
    multiple [multiple fs, multiple gs] groups a = multiple (fs ++ gs) groups a := by
  have e : multiple [multiple fs, multiple gs] groups a =
      (if (multiple fs groups a).isEmpty then multiple fs groups a
       else multiple gs groups (multiple fs groups a)) := by
    simp only [multiple]
    split
    · rfl
    · split <;> rfl
  by_cases hf : fs = []
  · subst hf
    rw [e, (C25_multiple_units (fun _ a => a) groups a).1]
    rcases h with h | h
    · exact absurd rfl h
    · rw [if_neg (by simp [h])]; rfl
  · rw [e, C25_multiple_append fs gs hf]

/-- C25: associativity of the two-place form, without exception. -/
theorem C25_multiple_assoc (f g h : AttrFn) (groups : List Bytes) (a : Attr) :
    multiple [multiple [f, g], h] groups a = multiple [f, multiple [g, h]] groups a := by
  simp only [multiple]
  by_cases h1 : (f groups a).isEmpty = true
  · simp [h1]
  · by_cases h2 : (g groups (f groups a)).isEmpty = true
    · simp [h1, h2]
    · simp [h1, h2]

/-- The exception is real: `Multiple(Multiple(), f)` does not call `f` on the empty
attribute, `Multiple(f)` does. -/
theorem C25_multiple_nested_exception : ∃ (gs : List AttrFn) (a : Attr),
    multiple [multiple [], multiple gs] [] a ≠ multiple ([] ++ gs) [] a := by
  refine ⟨[fun _ _ => .mk b!"k" (.bool true)], emptyAttr, ?_⟩
  simp [multiple, Attr.isEmpty, emptyAttr]

/-- C25: on an attribute that is not empty, no function ever sees the empty one:
functions that agree elsewhere give the same result. -/
theorem C25_multiple_never_empty (fs gs : List AttrFn) (hlen : fs.length = gs.length) (groups : List Bytes)
    (h : ∀ (i : Nat) (f g : AttrFn), fs[i]? = some f → gs[i]? = some g → ∀ a : Attr, a.isEmpty = false → f groups a = g groups a)
    (a : Attr) (ha : a.isEmpty = false) : multiple fs groups a = multiple gs groups a := by
  induction fs generalizing gs a with
  | nil =>
    cases gs with
    | nil => rfl
    | cons g gs => simp at hlen
  | cons f fs ih =>
    cases gs with
    | nil => simp at hlen
    | cons g gs =>
      simp only [multiple]
      rw [← h 0 f g rfl rfl a ha]
      by_cases he : (f groups a).isEmpty = true
      · rw [if_pos he, if_pos he]
      · rw [if_neg he, if_neg he]
        exact ih gs (by simpa using hlen) (fun i f g hf hg => h (i + 1) f g hf hg) _ (by simpa using he)

/-- C25: functions that leave the empty attribute alone are simply composed. -/
theorem C25_multiple_composes (fs : List AttrFn) (groups : List Bytes)
    (h : ∀ f ∈ fs, ∀ a, a.isEmpty = true → f groups a = a) (a : Attr) :
    multiple fs groups a = fs.foldl (fun a f => f groups a) a := by
  induction fs generalizing a with
  | nil => rfl
  | cons f fs ih =>
    simp only [multiple, List.foldl_cons]
    have ih := ih (fun g hg => h g (by simp [hg]))
    split
    · rename_i he
      rw [← ih]
      have : ∀ gs : List AttrFn, (∀ g ∈ gs, ∀ a, a.isEmpty = true → g groups a = a) →
          ∀ b, b.isEmpty = true → multiple gs groups b = b := by
        intro gs
        induction gs with
        | nil => intros; rfl
        | cons g gs ihg =>
          intro hg b hb
          simp only [multiple]
          rw [hg g (by simp) b hb, if_pos hb]
      exact (this fs (fun g hg => h g (by simp [hg])) _ he).symm
    · exact ih _

/-- The functions of this package are such ones, for non-empty keys. -/
theorem C25_package_keeps_empty {L : Lib} (hL : Good L) (key dst : Bytes) (hk : key ≠ []) (ha : Ascii key)
    (f : ChangeFn) (ci : Bool) (chk : GroupCheck) (groups : List Bytes) (a : Attr) (he : a.isEmpty = true) :
    changeKey L key dst ci chk groups a = a ∧ changeValue L key f ci chk groups a = a ∧
    removeKey L key ci chk groups a = a := by
  have hke : a.key = [] := by
    obtain ⟨k, v⟩ := a
    unfold Attr.isEmpty at he
    split at he
    · rename_i e; cases e; rfl
    · cases he
  have hno : ¬ Applies key ci chk groups a := by
    intro h
    have h := h.1
    rw [hke] at h
    cases ci with
    | false => exact hk h.symm
    | true =>
      have := SameText.length h
      exact hk (List.length_eq_zero_iff.1 (by simpa using this.symm))
  have hok : KeysOk ci key a := fun _ => ⟨ha, by rw [hke]; intro b hb; cases hb⟩
  exact ⟨(C24_changeKey hL key dst ci chk groups a hok).2 hno,
    (C24_changeValue hL key f ci chk groups a hok).2 hno, (C24_removeKey hL key ci chk groups a hok).2 hno⟩

/-- A case: rename, then remove, then a function that would bring the attribute back. -/
example : multiple [changeKey asciiLib b!"a" b!"b" false none, removeKey asciiLib b!"b" false none,
      fun _ _ => .mk b!"c" (.bool true)] [] (.mk b!"a" (.bool true)) = emptyAttr ∧
    (Attr.mk b!"a" (.bool true)).isEmpty = false := ⟨rfl, rfl⟩

end Verif.Props.Replace
