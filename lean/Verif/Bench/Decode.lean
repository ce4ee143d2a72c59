import Verif.Bench.Finder

/-
Lemmas on the relation between JSON trees and decoded values, and a decoder.
-/

namespace Verif.Go

variable {F : Type}

theorem lastOf_cons {V : Type} (k : Bytes) (t : V) (ms : List (Bytes × V)) (x : Bytes) :
    lastOf ((k, t) :: ms) x = (lastOf ms x).or (if k = x then some t else none) := by
  unfold lastOf Map.get
  rw [List.reverse_cons, List.find?_append]
  cases h : List.find? (fun e => decide (e.1 = x)) ms.reverse with
  | some e => simp
  | none => by_cases hk : k = x <;> simp [hk]

theorem lastOf_nil {V : Type} (x : Bytes) : lastOf ([] : List (Bytes × V)) x = none := rfl

theorem lastOf_mem {V : Type} {ms : List (Bytes × V)} {k : Bytes} {t : V} (h : lastOf ms k = some t) :
    (k, t) ∈ ms := by
  have := Map.mem_of_get h
  simpa using this

theorem lastOf_isSome {V : Type} {ms : List (Bytes × V)} {k : Bytes} :
    (lastOf ms k).isSome = true ↔ k ∈ ms.map Prod.fst := by
  unfold lastOf
  rw [← Map.mem_keys]
  simp [Map.keys]

theorem lastOf_filter {V : Type} (ms : List (Bytes × V)) (k x : Bytes) :
    lastOf (ms.filter fun e => e.1 ≠ k) x = if x = k then none else lastOf ms x := by
  induction ms with
  | nil => simp [lastOf_nil]
  | cons e ms ih =>
    obtain ⟨k', t⟩ := e
    rw [List.filter_cons]
    by_cases hk : k' = k
    · subst hk
      simp only [ne_eq, not_true, decide_false, Bool.false_eq_true, if_false]
      rw [ih, lastOf_cons]
      by_cases hx : x = k'
      · simp [hx]
      · simp [hx, Ne.symm hx]
    · simp only [ne_eq, hk, not_false_eq_true, decide_true, if_true]
      rw [lastOf_cons, ih, lastOf_cons]
      by_cases hx : x = k
      · subst hx; simp [hk]
      · simp [hx]

theorem isAny_ok {num : Bytes → Option F} {t : Json.Tree} {a : Any F} (h : IsAny num t a) : a.Ok := by
  induction h with
  | null => exact .nil
  | bool b => exact .bool b
  | num h => exact .num _
  | str s => exact .str s
  | @arr es l hlen _ ih =>
    refine .list fun a ha => ?_
    obtain ⟨i, hi, rfl⟩ := List.mem_iff_getElem.1 ha
    exact ih i (es[i]'(by omega)) _ (List.getElem?_eq_getElem (by omega)) (List.getElem?_eq_getElem hi)
  | @obj ms m hn hs _ ih =>
    refine .map hn fun e he => ?_
    have g := Map.get_of_mem hn (k := e.1) (v := e.2) he
    have := hs e.1
    rw [g] at this
    obtain ⟨t, ht⟩ := Option.isSome_iff_exists.1 this.symm
    exact ih _ _ _ ht g

theorem isAny_same {num : Bytes → Option F} {t : Json.Tree} {a b : Any F} (h : IsAny num t a)
    (h' : IsAny num t b) : Any.Same a b := by
  induction h generalizing b with
  | null => cases h'; exact .nil
  | bool x => cases h'; exact .bool x
  | num h => cases h' with | num h2 => rw [h] at h2; cases h2; exact .num _
  | str s => cases h'; exact .str s
  | @arr es l hlen _ ih =>
    cases h' with
    | @arr _ l' hlen' h2 =>
      refine .list (by omega) fun i a a' g g' => ?_
      obtain ⟨hi, _⟩ := List.getElem?_eq_some_iff.1 g
      have ht := List.getElem?_eq_getElem (l := es) (i := i) (by omega)
      exact ih i _ _ ht g (h2 i _ _ ht g')
  | @obj ms m hn hs _ ih =>
    cases h' with
    | @obj _ m' hn' hs' h2 =>
      refine .map (fun k => by rw [hs, hs']) fun k a a' g g' => ?_
      have := hs k
      rw [g] at this
      obtain ⟨t, ht⟩ := Option.isSome_iff_exists.1 this.symm
      exact ih _ _ _ ht g (h2 _ _ _ ht g')

mutual
/-- A decoder. -/
def toAny (num : Bytes → Option F) : Json.Tree → Option (Any F)
  | .null => some .nil
  | .bool b => some (.bool b)
  | .num t => (num t).map .num
  | .str s => some (.str s)
  | .arr es => (toList num es).map .list
  | .obj ms => (toMap num ms).map .map
/-- Elements. -/
def toList (num : Bytes → Option F) : List Json.Tree → Option (List (Any F))
  | [] => some []
  | t :: ts =>
    match toAny num t, toList num ts with
    | some a, some as => some (a :: as)
    | _, _ => none
/-- Members, the last of a name winning. -/
def toMap (num : Bytes → Option F) : List (Bytes × Json.Tree) → Option (List (Bytes × Any F))
  | [] => some []
  | (k, t) :: ms =>
    match toAny num t, toMap num ms with
    | some a, some m => some (if (Map.get m k).isSome then m else (k, a) :: m)
    | _, _ => none
end

mutual
theorem toAny_isAny (num : Bytes → Option F) : (t : Json.Tree) → ∀ a, toAny num t = some a → IsAny num t a
  | .null, a, h => by simp only [toAny, Option.some.injEq] at h; subst h; exact .null
  | .bool b, a, h => by simp only [toAny, Option.some.injEq] at h; subst h; exact .bool b
  | .num t, a, h => by
    simp only [toAny] at h
    obtain ⟨x, hx, rfl⟩ := Option.map_eq_some_iff.1 h
    exact .num hx
  | .str s, a, h => by simp only [toAny, Option.some.injEq] at h; subst h; exact .str s
  | .arr es, a, h => by
    simp only [toAny] at h
    obtain ⟨l, hl, rfl⟩ := Option.map_eq_some_iff.1 h
    obtain ⟨h1, h2⟩ := toList_isAny num es l hl
    exact .arr h1 h2
  | .obj ms, a, h => by
    simp only [toAny] at h
    obtain ⟨m, hm, rfl⟩ := Option.map_eq_some_iff.1 h
    obtain ⟨h1, h2, h3⟩ := toMap_isAny num ms m hm
    exact .obj h1 h2 h3
theorem toList_isAny (num : Bytes → Option F) : (es : List Json.Tree) → ∀ l, toList num es = some l →
    es.length = l.length ∧ ∀ (i : Nat) t a, es[i]? = some t → l[i]? = some a → IsAny num t a
  | [], l, h => by
    simp only [toList, Option.some.injEq] at h; subst h
    exact ⟨rfl, fun i t a h => by simp at h⟩
  | t :: ts, l, h => by
    simp only [toList] at h
    split at h
    · rename_i a as h1 h2
      cases h
      obtain ⟨e1, e2⟩ := toList_isAny num ts as h2
      refine ⟨by simp [e1], fun i x y g g' => ?_⟩
      cases i with
      | zero => simp at g g'; subst g; subst g'; exact toAny_isAny num t a h1
      | succ i => exact e2 i x y (by simpa using g) (by simpa using g')
    · cases h
theorem toMap_isAny (num : Bytes → Option F) : (ms : List (Bytes × Json.Tree)) → ∀ m, toMap num ms = some m →
    (Map.keys m).Nodup ∧ (∀ k, (Map.get m k).isSome = (lastOf ms k).isSome) ∧
    ∀ k t a, lastOf ms k = some t → Map.get m k = some a → IsAny num t a
  | [], m, h => by
    simp only [toMap, Option.some.injEq] at h; subst h
    exact ⟨.nil, fun _ => rfl, fun k t a h => by cases h⟩
  | (k, t) :: ms, m, h => by
    simp only [toMap] at h
    split at h
    · rename_i a m' h1 h2
      cases h
      obtain ⟨e1, e2, e3⟩ := toMap_isAny num ms m' h2
      by_cases hk : (Map.get m' k).isSome = true
      · rw [if_pos hk]
        refine ⟨e1, fun x => ?_, fun x u b g g' => ?_⟩
        · rw [lastOf_cons, e2]
          by_cases hx : k = x
          · subst hx; rw [← e2, hk]
            have := e2 k; rw [hk] at this
            obtain ⟨z, hz⟩ := Option.isSome_iff_exists.1 this.symm
            rw [hz]; rfl
          · rw [if_neg hx]; simp
        · rw [lastOf_cons] at g
          have := e2 x; rw [g'] at this
          obtain ⟨z, hz⟩ := Option.isSome_iff_exists.1 this.symm
          rw [hz] at g; cases g
          exact e3 x u b hz g'
      · rw [if_neg hk]
        have hn : Map.get m' k = none := by simpa using hk
        have hl : lastOf ms k = none := by
          have := e2 k; rw [hn] at this; simpa using this.symm
        refine ⟨?_, fun x => ?_, fun x u b g g' => ?_⟩
        · refine List.nodup_cons.2 ⟨?_, e1⟩
          intro hm
          have : k ∈ Map.keys m' := hm
          rw [Map.mem_keys, hn] at this; cases this
        · rw [Map.get_cons, lastOf_cons]
          by_cases hx : k = x
          · subst hx; simp [hl]
          · simp [hx, e2]
        · rw [Map.get_cons] at g'
          rw [lastOf_cons] at g
          by_cases hx : k = x
          · subst hx
            rw [hl] at g
            simp at g g'
            subst g; subst g'
            exact toAny_isAny num t a h1
          · rw [if_neg hx] at g g'
            rw [Option.or_none] at g
            exact e3 x u b g g'
    · cases h
end

mutual
/-- The numerals of a tree. -/
def numerals : Json.Tree → List Bytes
  | .num t => [t]
  | .arr es => numeralsAll es
  | .obj ms => numeralsMembers ms
  | _ => []
/-- The numerals of elements. -/
def numeralsAll : List Json.Tree → List Bytes
  | [] => []
  | t :: ts => numerals t ++ numeralsAll ts
/-- The numerals of members. -/
def numeralsMembers : List (Bytes × Json.Tree) → List Bytes
  | [] => []
  | (_, t) :: ms => numerals t ++ numeralsMembers ms
end

mutual
theorem toAny_some (num : Bytes → Option F) : (t : Json.Tree) →
    (∀ s ∈ numerals t, (num s).isSome = true) → (toAny num t).isSome = true
  | .null, _ => rfl
  | .bool _, _ => rfl
  | .num t, h => by
    have := h t (by simp [numerals])
    simp only [toAny, Option.isSome_map, this]
  | .str _, _ => rfl
  | .arr es, h => by
    simp only [toAny, Option.isSome_map]
    exact toList_some num es (by simpa only [numerals] using h)
  | .obj ms, h => by
    simp only [toAny, Option.isSome_map]
    exact toMap_some num ms (by simpa only [numerals] using h)
theorem toList_some (num : Bytes → Option F) : (es : List Json.Tree) →
    (∀ s ∈ numeralsAll es, (num s).isSome = true) → (toList num es).isSome = true
  | [], _ => rfl
  | t :: ts, h => by
    simp only [numeralsAll, List.mem_append] at h
    obtain ⟨a, ha⟩ := Option.isSome_iff_exists.1 (toAny_some num t fun s hs => h s (.inl hs))
    obtain ⟨l, hl⟩ := Option.isSome_iff_exists.1 (toList_some num ts fun s hs => h s (.inr hs))
    simp only [toList, ha, hl, Option.isSome_some]
theorem toMap_some (num : Bytes → Option F) : (ms : List (Bytes × Json.Tree)) →
    (∀ s ∈ numeralsMembers ms, (num s).isSome = true) → (toMap num ms).isSome = true
  | [], _ => rfl
  | (k, t) :: ms, h => by
    simp only [numeralsMembers, List.mem_append] at h
    obtain ⟨a, ha⟩ := Option.isSome_iff_exists.1 (toAny_some num t fun s hs => h s (.inl hs))
    obtain ⟨m, hm⟩ := Option.isSome_iff_exists.1 (toMap_some num ms fun s hs => h s (.inr hs))
    simp only [toMap, ha, hm, Option.isSome_some]
end

end Verif.Go

namespace Verif.Bench
open Go

variable {F : Type} [DecidableEq F]

omit [DecidableEq F] in
theorem isAny_obj {num : Bytes → Option F} {ms : List (Bytes × Json.Tree)} {m : AMap F}
    (h : IsAny num (.obj ms) (.map m)) : (Map.keys m).Nodup ∧
      (∀ k, (Map.get m k).isSome = (lastOf ms k).isSome) ∧
      ∀ k t a, lastOf ms k = some t → Map.get m k = some a → IsAny num t a := by
  cases h with | obj h1 h2 h3 => exact ⟨h1, h2, h3⟩

omit [DecidableEq F] in
theorem isAny_get {num : Bytes → Option F} {ms : List (Bytes × Json.Tree)} {m : AMap F}
    (h : IsAny num (.obj ms) (.map m)) {k : Bytes} {t : Json.Tree} (ht : lastOf ms k = some t) :
    ∃ a, Map.get m k = some a ∧ IsAny num t a := by
  obtain ⟨_, h2, h3⟩ := isAny_obj h
  have := h2 k
  rw [ht] at this
  obtain ⟨a, ha⟩ := Option.isSome_iff_exists.1 this
  exact ⟨a, ha, h3 _ _ _ ht ha⟩

omit [DecidableEq F] in
/-- `fixLogMap` on a line whose level is in upper case and whose message is not under
"message": the time is left out. -/
theorem isAny_fix (L : Lib F) {num : Bytes → Option F} {ms : List (Bytes × Json.Tree)} {m : AMap F}
    (h : IsAny num (.obj ms) (.map m)) {l : Bytes} (hl : lastOf ms b!"level" = some (.str l))
    (hu : L.upper l = l) (hm : lastOf ms b!"message" = none) :
    IsAny num (.obj (ms.filter fun e => e.1 ≠ b!"time")) (.map (fixLogMap L m)) := by
  obtain ⟨h1, h2, h3⟩ := isAny_obj h
  have n1 : Map.get m b!"message" = none := by
    have := h2 b!"message"; rw [hm] at this; simpa using this
  obtain ⟨a, ga, ha⟩ := isAny_get h hl
  cases ha
  have g1 : Map.get (m.del b!"time") b!"level" = some (.str l) := by
    rw [Map.get_del, if_neg (by decide), ga]
  have e1 : fixLevel L (m.del b!"time") = (m.del b!"time").set b!"level" (.str l) := by
    unfold fixLevel; rw [g1]; dsimp only; rw [hu]
  have g2 : Map.get ((m.del b!"time").set b!"level" (.str l)) b!"message" = none := by
    rw [Map.get_set, if_neg (by decide), Map.get_del, if_neg (by decide), n1]
  have e2 : fixLogMap L m = (m.del b!"time").set b!"level" (.str l) := by
    unfold fixLogMap fixMessage; rw [e1, g2]
  have hg : ∀ k, Map.get (fixLogMap L m) k = if k = b!"time" then none else Map.get m k := by
    intro k
    rw [e2, Map.get_set]
    by_cases hk : k = b!"level"
    · rw [if_pos hk, hk, if_neg (by decide), ga]
    · rw [if_neg hk, Map.get_del]
  refine .obj ?_ ?_ ?_
  · rw [e2]; exact Map.nodup_set (Map.nodup_del h1 _) _ _
  · intro k
    rw [hg, lastOf_filter]
    split
    · rfl
    · exact h2 k
  · intro k t a ht hka
    rw [hg] at hka; rw [lastOf_filter] at ht
    split at ht
    · cases ht
    · rename_i hk; rw [if_neg hk] at hka; exact h3 k t a ht hka

/-- An expected value a tree has: the same scalar, or a map all of whose values an object
has. -/
inductive Covers (num : Bytes → Option F) : Any F → Json.Tree → Prop
  | bool (b) : Covers num (.bool b) (.bool b)
  | str (s) : Covers num (.str s) (.str s)
  | num {t x} : num t = some x → Covers num (.num x) (.num t)
  | map {e : AMap F} {ms : List (Bytes × Json.Tree)} :
      (∀ k v, (k, v) ∈ e → (lastOf ms k).isSome = true) →
      (∀ k v t, (k, v) ∈ e → lastOf ms k = some t → Covers num v t) →
      Covers num (.map e) (.obj ms)

theorem loop_clean (L : Lib F) {e : List (Bytes × Any F)} {a : AMap F}
    (h : ∀ k v, (k, v) ∈ e → finderField L k v ((Map.get a k).getD .nil) = some ([], [])) :
    finderLoop L e a = some ([], []) := by
  induction e with
  | nil => rfl
  | cons x e ih =>
    obtain ⟨k, v⟩ := x
    rw [finderLoop, h k v List.mem_cons_self, ih fun k v hm => h k v (List.mem_cons_of_mem _ hm)]
    rfl

omit [DecidableEq F] in
theorem sort_nil (L : Lib F) : sortStrings L [] = [] := by
  have := L.sorter.perm less []
  exact List.perm_nil.1 this

theorem field_clean (L : Lib F) {num : Bytes → Option F} {v : Any F} {t : Json.Tree}
    (h : Covers num v t) : ∀ (a : Any F), IsAny num t a → ∀ field,
    finderField L field v a = some ([], []) := by
  induction h with
  | bool b => intro a ha field; cases ha; simp only [finderField, differs, deepEqual]; simp
  | str s => intro a ha field; cases ha; simp only [finderField, differs, deepEqual]; simp
  | num h =>
    intro a ha field
    cases ha with
    | num h2 => rw [h] at h2; cases h2; simp only [finderField, differs, deepEqual]; simp
  | @map e ms h1 _ ih =>
    intro a ha field
    cases ha with
    | @obj _ m hn hs hi =>
      have : finderLoop L e m = some ([], []) := by
        apply loop_clean
        intro k v hm
        obtain ⟨t, ht⟩ := Option.isSome_iff_exists.1 (h1 k v hm)
        obtain ⟨a, ga, hia⟩ := isAny_get (.obj hn hs hi) ht
        rw [ga]
        exact ih k v t hm ht a hia k
      simp only [finderField, this, sort_nil]

theorem deep_clean (L : Lib F) {num : Bytes → Option F} {e m : AMap F} {ms : List (Bytes × Json.Tree)}
    (h : Covers num (.map e) (.obj ms)) (hm : IsAny num (.obj ms) (.map m)) :
    finderDeep L e m = some ([], []) := by
  have := field_clean L h _ hm []
  simpa only [finderField, finderDeep] using this

end Verif.Bench
