import Verif.Server.Dict

/-
C103: the template function `dict` makes the map that its arguments say.
-/

namespace Verif.Props.Dict
open Go Server

variable {α : Type}

/-- The `i`th pair of arguments gives `k` the value `x`. -/
def Gives (v : List (TArg α)) (k : Bytes) (i : Nat) (x : TArg α) : Prop := v[2 * i]? = some (.str k) ∧ v[2 * i + 1]? = some x

/-- The last pair for `k` gives it the value `x`. -/
def Last (v : List (TArg α)) (k : Bytes) (x : TArg α) : Prop := ∃ i, Gives v k i x ∧ ∀ j y, i < j → ¬ Gives v k j y

theorem gives_zero {a b : TArg α} {r : List (TArg α)} {k : Bytes} {x : TArg α} :
    Gives (a :: b :: r) k 0 x ↔ a = .str k ∧ b = x := by
  simp [Gives]

theorem gives_succ {a b : TArg α} {r : List (TArg α)} {k : Bytes} {i : Nat} {x : TArg α} :
    Gives (a :: b :: r) k (i + 1) x ↔ Gives r k i x := by
  have e1 : 2 * (i + 1) = 2 * i + 1 + 1 := by omega
  have e2 : 2 * (i + 1) + 1 = (2 * i + 1) + 1 + 1 := by omega
  unfold Gives
  rw [e2, e1]
  simp only [List.getElem?_cons_succ]

theorem gives_short {v : List (TArg α)} (h : v.length ≤ 1) {k : Bytes} {i : Nat} {x : TArg α} : ¬ Gives v k i x := by
  rintro ⟨_, h2⟩
  rw [List.getElem?_eq_none (by omega)] at h2
  cases h2

theorem get_put {m : Map Bytes (TArg α)} {a b : TArg α} {k : Bytes} {x : TArg α} :
    (dictPut m a b).get k = some x ↔ (a = .str k ∧ b = x) ∨ (a ≠ .str k ∧ m.get k = some x) := by
  unfold dictPut
  cases a with
  | other v => simp
  | str s =>
    simp only [Map.get_set, TArg.str.injEq, ne_eq]
    by_cases h : s = k
    · subst h; simp
    · have h' : k ≠ s := fun e => h e.symm
      simp [h, h']

theorem dictFrom_get (k : Bytes) (x : TArg α) : ∀ (v : List (TArg α)) (m : Map Bytes (TArg α)),
    (dictFrom m v).get k = some x ↔ Last v k x ∨ ((∀ i y, ¬ Gives v k i y) ∧ m.get k = some x)
  | [], m => by
    have : ∀ i y, ¬ Gives ([] : List (TArg α)) k i y := fun i y => gives_short (by simp)
    simp only [dictFrom, Last]
    exact ⟨fun h => .inr ⟨this, h⟩, fun h => h.elim (fun ⟨i, h, _⟩ => absurd h (this i x)) fun h => h.2⟩
  | [a], m => by
    have : ∀ i y, ¬ Gives [a] k i y := fun i y => gives_short (by simp)
    simp only [dictFrom, Last]
    exact ⟨fun h => .inr ⟨this, h⟩, fun h => h.elim (fun ⟨i, h, _⟩ => absurd h (this i x)) fun h => h.2⟩
  | a :: b :: r, m => by
    rw [dictFrom, dictFrom_get k x r, get_put]
    constructor
    · rintro (⟨i, h1, h2⟩ | ⟨h1, ⟨h2, h3⟩ | ⟨h2, h3⟩⟩)
      · refine .inl ⟨i + 1, gives_succ.2 h1, fun j y hj => ?_⟩
        obtain ⟨j, rfl⟩ : ∃ j', j = j' + 1 := ⟨j - 1, by omega⟩
        rw [gives_succ]
        exact h2 j y (by omega)
      · refine .inl ⟨0, gives_zero.2 ⟨h2, h3⟩, fun j y hj => ?_⟩
        obtain ⟨j, rfl⟩ : ∃ j', j = j' + 1 := ⟨j - 1, by omega⟩
        rw [gives_succ]
        exact h1 j y
      · refine .inr ⟨fun i y => ?_, h3⟩
        cases i with
        | zero => rw [gives_zero]; exact fun h => h2 h.1
        | succ i => rw [gives_succ]; exact h1 i y
    · rintro (⟨i, h1, h2⟩ | ⟨h1, h2⟩)
      · cases i with
        | succ i =>
          refine .inl ⟨i, gives_succ.1 h1, fun j y hj hg => h2 (j + 1) y (by omega) (gives_succ.2 hg)⟩
        | zero =>
          exact .inr ⟨fun j y hg => h2 (j + 1) y (by omega) (gives_succ.2 hg), .inl (gives_zero.1 h1)⟩
      · refine .inr ⟨fun i y hg => h1 (i + 1) y (gives_succ.2 hg), .inr ⟨fun e => h1 0 b (gives_zero.2 ⟨e, rfl⟩), h2⟩⟩

/-- C103: for all arguments, a key has the value that the last pair for it gives, and a key
that no pair gives a value has none. Keys that are not strings and a key without a value are
passed over. -/
theorem C103_dict (v : List (TArg α)) (k : Bytes) :
    (∀ x, (dict v).get k = some x ↔ Last v k x) ∧ ((dict v).get k = none ↔ ∀ i x, ¬ Gives v k i x) := by
  have h : ∀ x, (dict v).get k = some x ↔ Last v k x := by
    intro x
    unfold dict
    rw [dictFrom_get]
    simp [Map.get_nil]
  refine ⟨h, ?_⟩
  constructor
  · intro hn i x hg
    -- the last of the pairs after the `i`th
    have hb : ∀ n i x, Gives v k i x → v.length ≤ i + n → ∃ y, Last v k y := by
      intro n
      induction n with
      | zero =>
        intro i x hg hl
        have := (List.getElem?_eq_some_iff.1 hg.2).1
        omega
      | succ n ih =>
        intro i x hg hl
        by_cases hm : ∃ j y, i < j ∧ Gives v k j y
        · obtain ⟨j, y, hj, hy⟩ := hm
          exact ih j y hy (by omega)
        · exact ⟨x, i, hg, fun j y hj hy => hm ⟨j, y, hj, hy⟩⟩
    obtain ⟨y, hy⟩ := hb v.length i x hg (by omega)
    rw [(h y).2 hy] at hn
    cases hn
  · intro hn
    cases e : (dict v).get k with
    | none => rfl
    | some x =>
      obtain ⟨i, hg, _⟩ := (h x).1 e
      exact absurd hg (hn i x)

/-- C103: every key is there once. -/
theorem C103_once (v : List (TArg α)) : (dict v).keys.Nodup := by
  have put : ∀ (m : Map Bytes (TArg α)) a b, m.keys.Nodup → (dictPut m a b).keys.Nodup := by
    intro m a b hm
    cases a with
    | str s => exact Map.nodup_set hm s b
    | other => exact hm
  have gen : ∀ (v : List (TArg α)) (m : Map Bytes (TArg α)), m.keys.Nodup → (dictFrom m v).keys.Nodup := by
    intro v m hm
    fun_induction dictFrom m v with
    | case1 => exact hm
    | case2 => exact hm
    | case3 m a b r ih => exact ih (put m a b hm)
  exact gen v [] List.nodup_nil

/-- A case: a title given twice, a key that is no string, and a key without value. -/
example : dict [.str b!"top", .other 1, .str b!"title", .str b!"Home", .other 7, .str b!"x", .str b!"title", .str b!"Scores", .str b!"end"] =
    [(b!"top", .other 1), (b!"title", .str b!"Scores")] := by decide +kernel

end Verif.Props.Dict
