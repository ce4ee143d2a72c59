import Verif.Bench.Finder

/-
Lemmas on `bigGroupCheck`: which groups it accepts.
-/

namespace Verif.Bench
open Go

variable {F : Type}

/-- What the loop asks of an entry. -/
def entryOk (d : Nat) (stem : Bytes) (e : Bytes × Any F) : Prop :=
  if e.2.isMap = true then stem <+: e.1 ∧ ∃ n, bigGroupCheck e.2 (d + 1) e.1 = .ok n
  else e.1 ∈ nonGroupFields

theorem loop_skip {k : Bytes} {v : Any F} (hv : v.isMap = false) (m : List (Bytes × Any F)) (d : Nat)
    (stem : Bytes) (mx : Nat) : bigGroupLoop ((k, v) :: m) d stem mx =
      if nonGroupFields.contains k then bigGroupLoop m d stem mx else .error (.nonGroup k v) := by
  cases v with
  | map _ => cases hv
  | _ => simp only [bigGroupLoop]

theorem loop_iff : ∀ (m : List (Bytes × Any F)) (d : Nat) (stem : Bytes) (mx n : Nat),
    bigGroupLoop m d stem mx = .ok n ↔
      (∀ e ∈ m, entryOk d stem e) ∧ mx ≤ n ∧
      (∀ e ∈ m, e.2.isMap = true → ∀ x, bigGroupCheck e.2 (d + 1) e.1 = .ok x → x ≤ n) ∧
      (n = mx ∨ ∃ e ∈ m, e.2.isMap = true ∧ bigGroupCheck e.2 (d + 1) e.1 = .ok n)
  | [], d, stem, mx, n => by
    simp only [bigGroupLoop, Except.ok.injEq]
    simp
    omega
  | (k, v) :: m, d, stem, mx, n => by
    cases hv : v.isMap with
    | false =>
      rw [loop_skip hv]
      by_cases hk : k ∈ nonGroupFields
      · rw [if_pos (by simpa using hk), loop_iff m d stem mx n]
        simp [entryOk, hv, hk]
      · rw [if_neg (by simpa using hk)]
        simp [entryOk, hv, hk]
    | true =>
      cases v with
      | map sub =>
        rw [bigGroupLoop]
        by_cases hp : stem <+: k
        · rw [if_pos (List.isPrefixOf_iff_prefix.2 hp)]
          cases hc : bigGroupCheck (.map sub) (d + 1) k with
          | error e => simp [entryOk, Any.isMap, hc]
          | ok x =>
            dsimp only
            rw [loop_iff m d stem _ n]
            have ek : entryOk d stem (k, Any.map sub) := by
              unfold entryOk
              rw [if_pos (show (Any.map sub).isMap = true from rfl)]; exact ⟨hp, x, hc⟩
            have hx : ∀ y, bigGroupCheck (.map sub) (d + 1) k = .ok y → y = x := by
              intro y hy; rw [hc] at hy; cases hy; rfl
            rw [List.forall_mem_cons, List.forall_mem_cons]
            constructor
            · rintro ⟨h1, h2, h3, h4⟩
              split at h2
              · rename_i hgt
                refine ⟨⟨ek, h1⟩, by omega, ⟨fun _ y hy => by have := hx y hy; omega, h3⟩, ?_⟩
                rcases h4 with h4 | ⟨e, he, h4⟩
                · rw [if_pos hgt] at h4; subst h4
                  exact .inr ⟨_, List.mem_cons_self, rfl, hc⟩
                · exact .inr ⟨e, List.mem_cons_of_mem _ he, h4⟩
              · rename_i hgt
                refine ⟨⟨ek, h1⟩, h2, ⟨fun _ y hy => by have := hx y hy; omega, h3⟩, ?_⟩
                rcases h4 with h4 | ⟨e, he, h4⟩
                · rw [if_neg hgt] at h4; exact .inl h4
                · exact .inr ⟨e, List.mem_cons_of_mem _ he, h4⟩
            · rintro ⟨⟨_, h1⟩, h2, ⟨h3, h4⟩, h5⟩
              have h3 := h3 rfl x hc
              refine ⟨h1, by split <;> omega, h4, ?_⟩
              rcases h5 with h5 | ⟨e, he, h5, h6⟩
              · exact .inl (by split <;> omega)
              · rcases List.mem_cons.1 he with rfl | he
                · have := hx n h6
                  exact .inl (by split <;> omega)
                · exact .inr ⟨e, he, h5, h6⟩
        · rw [if_neg (by rw [List.isPrefixOf_iff_prefix]; exact hp)]
          simp [entryOk, Any.isMap, hp]
      | _ => cases hv

theorem mapAt_nil (m : AMap F) : (Any.map m).MapAt [] := ⟨_, rfl, rfl⟩

theorem mapAt_cons (m : AMap F) (k : Bytes) (p : List Bytes) :
    (Any.map m).MapAt (k :: p) ↔ ∃ v, Map.get m k = some v ∧ v.MapAt p := by
  unfold Any.MapAt
  rw [find_map]
  constructor
  · rintro ⟨x, h, hx⟩
    obtain ⟨v, g, h⟩ := Option.bind_eq_some_iff.1 h
    exact ⟨v, g, x, h, hx⟩
  · rintro ⟨v, g, x, h, hx⟩
    exact ⟨x, by rw [g]; exact h, hx⟩

theorem mapAt_isMap {v : Any F} {p : List Bytes} (h : v.MapAt p) : v.isMap = true := by
  obtain ⟨x, h, hx⟩ := h
  cases p with
  | nil => rw [find_nil] at h; cases h; exact hx
  | cons k p =>
    cases hv : v.isMap with
    | true => rfl
    | false => rw [find_cons_of_not hv] at h; cases h

theorem stemmed_map (names : List Bytes) (stem : Bytes) (m : AMap F) :
    Any.Stemmed names stem (.map m) ↔ ∀ k v, Map.get m k = some v →
      if v.isMap = true then stem <+: k ∧ Any.Stemmed names k v else k ∈ names := by
  unfold Any.Stemmed
  constructor
  · intro h k v g
    have h0 := h [] k v (by rw [List.nil_append, find_map, g]; exact find_nil v)
    split
    · rename_i hv
      rw [if_pos hv] at h0
      refine ⟨h0, fun p k' w hw => ?_⟩
      have := h (k :: p) k' w (by rw [List.cons_append, find_map, g]; exact hw)
      split
      · rename_i hm
        rw [if_pos hm] at this
        cases p with
        | nil => exact this
        | cons b p =>
          rw [List.getLast?_cons_cons] at this
          cases hl : (b :: p).getLast? with
          | none => simp at hl
          | some x => rw [hl] at this; exact this
      · rename_i hm
        rw [if_neg hm] at this; exact this
    · rename_i hv
      rw [if_neg hv] at h0; exact h0
  · intro h p k v hf
    cases p with
    | nil =>
      rw [List.nil_append, find_map] at hf
      obtain ⟨w, g, hf⟩ := Option.bind_eq_some_iff.1 hf
      rw [find_nil] at hf; cases hf
      have := h k v g
      split
      · rename_i hm; rw [if_pos hm] at this; exact this.1
      · rename_i hm; rw [if_neg hm] at this; exact this
    | cons b p =>
      rw [List.cons_append, find_map] at hf
      obtain ⟨w, g, hf⟩ := Option.bind_eq_some_iff.1 hf
      have hw : w.isMap = true := by
        cases hw : w.isMap with
        | true => rfl
        | false =>
          cases p with
          | nil => rw [List.nil_append, find_cons_of_not hw] at hf; cases hf
          | cons => rw [List.cons_append, find_cons_of_not hw] at hf; cases hf
      have := h b w g
      rw [if_pos hw] at this
      have := this.2 p k v hf
      split
      · rename_i hm
        rw [if_pos hm] at this
        cases p with
        | nil => exact this
        | cons c p =>
          rw [List.getLast?_cons_cons]
          cases hl : (c :: p).getLast? with
          | none => simp at hl
          | some x => rw [hl] at this; exact this
      · rename_i hm
        rw [if_neg hm] at this; exact this

/-- The claim about a value. -/
def CheckIff (a : Any F) : Prop :=
  ∀ d stem n, a.Ok → a.isMap = true →
    (bigGroupCheck a d stem = .ok n ↔ a.Stemmed nonGroupFields stem ∧
      (∃ p, p.length + d = n ∧ a.MapAt p) ∧ ∀ p, a.MapAt p → p.length + d ≤ n)

theorem check_map {m : AMap F} (hm : ∀ e ∈ m, CheckIff e.2) : CheckIff (.map m) := by
  intro d stem n hok _
  obtain ⟨hn, hoks⟩ : (Map.keys m).Nodup ∧ ∀ e ∈ m, e.2.Ok := by
    cases hok with | map h1 h2 => exact ⟨h1, h2⟩
  rw [bigGroupCheck, loop_iff, stemmed_map]
  have hmem : ∀ k v, Map.get m k = some v ↔ (k, v) ∈ m :=
    fun k v => ⟨Map.mem_of_get, Map.get_of_mem hn⟩
  constructor
  · rintro ⟨h1, h2, h3, h4⟩
    refine ⟨?_, ?_, ?_⟩
    · intro k v g
      have he := h1 _ ((hmem k v).1 g)
      unfold entryOk at he
      split
      · rename_i hv
        rw [if_pos hv] at he
        obtain ⟨hp, x, hx⟩ := he
        exact ⟨hp, ((hm _ ((hmem k v).1 g) _ _ _ (hoks _ ((hmem k v).1 g)) hv).1 hx).1⟩
      · rename_i hv
        rw [if_neg hv] at he; exact he
    · rcases h4 with h4 | ⟨e, he, hv, hx⟩
      · exact ⟨[], by simp [h4], mapAt_nil m⟩
      · obtain ⟨_, ⟨p, hp, ha⟩, _⟩ := (hm _ he _ _ _ (hoks _ he) hv).1 hx
        exact ⟨e.1 :: p, by simp; omega, (mapAt_cons _ _ _).2 ⟨e.2, (hmem _ _).2 he, ha⟩⟩
    · intro p hp
      cases p with
      | nil => simpa using h2
      | cons k p =>
        obtain ⟨v, g, ha⟩ := (mapAt_cons _ _ _).1 hp
        have he := (hmem k v).1 g
        have hv := mapAt_isMap ha
        have hek := h1 _ he
        unfold entryOk at hek
        rw [if_pos hv] at hek
        obtain ⟨_, x, hx⟩ := hek
        have := ((hm _ he _ _ _ (hoks _ he) hv).1 hx).2.2 p ha
        have := h3 _ he hv x hx
        simp; omega
  · rintro ⟨h1, ⟨p, hp, ha⟩, h3⟩
    have sub : ∀ e ∈ m, e.2.isMap = true → ∃ x, bigGroupCheck e.2 (d + 1) e.1 = .ok x ∧ x ≤ n ∧
        ∀ q, e.2.MapAt q → q.length + (d + 1) ≤ x := by
      intro e he hv
      have hs := h1 e.1 e.2 ((hmem _ _).2 he)
      rw [if_pos hv] at hs
      -- the greatest depth inside
      have hbound : ∀ q, e.2.MapAt q → q.length + (d + 1) ≤ n := by
        intro q hq
        have := h3 (e.1 :: q) ((mapAt_cons _ _ _).2 ⟨e.2, (hmem _ _).2 he, hq⟩)
        simp at this; omega
      have hex : ∃ x, (∃ q, q.length + (d + 1) = x ∧ e.2.MapAt q) ∧
          ∀ q, e.2.MapAt q → q.length + (d + 1) ≤ x := by
        have h0 : e.2.MapAt [] := ⟨e.2, find_nil _, hv⟩
        have : ∀ j, ∀ x, n ≤ x + j → (∃ q, q.length + (d + 1) = x ∧ e.2.MapAt q) →
            ∃ x, (∃ q, q.length + (d + 1) = x ∧ e.2.MapAt q) ∧
              ∀ q, e.2.MapAt q → q.length + (d + 1) ≤ x := by
          intro j
          induction j with
          | zero =>
            intro x hx hq
            exact ⟨x, hq, fun q h => by have := hbound q h; omega⟩
          | succ j ih =>
            intro x hx hq
            by_cases hall : ∀ q, e.2.MapAt q → q.length + (d + 1) ≤ x
            · exact ⟨x, hq, hall⟩
            · obtain ⟨q, hq'⟩ := Classical.not_forall.1 hall
              obtain ⟨hq1, hq2⟩ := Classical.not_imp.1 hq'
              exact ih (q.length + (d + 1)) (by omega) ⟨q, rfl, hq1⟩
        exact this n (d + 1) (by omega) ⟨[], by simp, h0⟩
      obtain ⟨x, hx1, hx2⟩ := hex
      refine ⟨x, (hm e he _ _ _ (hoks e he) hv).2 ⟨hs.2, hx1, hx2⟩, ?_, hx2⟩
      obtain ⟨q, hq, hqa⟩ := hx1
      have := hbound q hqa; omega
    refine ⟨?_, ?_, ?_, ?_⟩
    · intro e he
      have hs := h1 e.1 e.2 ((hmem _ _).2 he)
      unfold entryOk
      split
      · rename_i hv
        rw [if_pos hv] at hs
        obtain ⟨x, hx, _⟩ := sub e he hv
        exact ⟨hs.1, x, hx⟩
      · rename_i hv
        rw [if_neg hv] at hs; exact hs
    · have := h3 [] (mapAt_nil m)
      simpa using this
    · intro e he hv x hx
      obtain ⟨y, hy, hle, _⟩ := sub e he hv
      rw [hx] at hy; cases hy; exact hle
    · cases p with
      | nil => exact .inl (by simpa using hp.symm)
      | cons k p =>
        obtain ⟨v, g, hv⟩ := (mapAt_cons _ _ _).1 ha
        have he := (hmem k v).1 g
        obtain ⟨x, hx, hle, hb⟩ := sub _ he (mapAt_isMap hv)
        have := hb p hv
        refine .inr ⟨_, he, mapAt_isMap hv, ?_⟩
        have : x = n := by simp at hp; omega
        subst this; exact hx

mutual
theorem check_iff : (a : Any F) → CheckIff a
  | .map m => check_map (check_iffs m)
  | .nil => fun _ _ _ _ h => by cases h
  | .bool _ => fun _ _ _ _ h => by cases h
  | .num _ => fun _ _ _ _ h => by cases h
  | .str _ => fun _ _ _ _ h => by cases h
  | .list _ => fun _ _ _ _ h => by cases h
theorem check_iffs : (m : List (Bytes × Any F)) → ∀ e ∈ m, CheckIff e.2
  | [], _, he => by cases he
  | (k, v) :: m, e, he => by
    rcases List.mem_cons.1 he with rfl | he
    · exact check_iff v
    · exact check_iffs m e he
end

end Verif.Bench
