import Verif.Bench.Checks

/-
Lemmas on `deepEqual`: on maps with distinct keys it is equality of values.
-/

namespace Verif.Bench
open Go

variable {F : Type} [DecidableEq F]

theorem length_of_subset {α : Type} [DecidableEq α] : ∀ {l l' : List α}, l.Nodup → l ⊆ l' →
    l.length ≤ l'.length
  | [], _, _, _ => Nat.zero_le _
  | a :: l, l', h, hs => by
    obtain ⟨h1, h2⟩ := List.nodup_cons.1 h
    have ha : a ∈ l' := hs List.mem_cons_self
    have := length_of_subset (l' := l'.erase a) h2 (fun x hx => by
      refine (List.mem_erase_of_ne ?_).2 (hs (List.mem_cons_of_mem _ hx))
      rintro rfl; exact h1 hx)
    rw [List.length_erase_of_mem ha] at this
    have : 0 < l'.length := List.length_pos_of_mem ha
    simp; omega

theorem subset_of_length {α : Type} [DecidableEq α] {l l' : List α} (h : l.Nodup) (hs : l ⊆ l')
    (hl : l'.length ≤ l.length) : l' ⊆ l := by
  intro x hx
  apply Classical.byContradiction
  intro hn
  have h1 : (x :: l).Nodup := List.nodup_cons.2 ⟨hn, h⟩
  have h2 : (x :: l) ⊆ l' := by
    intro y hy
    rcases List.mem_cons.1 hy with rfl | hy
    · exact hx
    · exact hs hy
  have h3 := length_of_subset h1 h2
  simp at h3
  omega

omit [DecidableEq F] in
theorem keys_length (m : AMap F) : (Map.keys m).length = List.length m := by simp [Map.keys]

mutual
theorem deep_iff : (a b : Any F) → a.Ok → b.Ok → (deepEqual a b = true ↔ Any.Same a b)
  | .nil, b, _, _ => by
    cases b <;> simp only [deepEqual] <;>
      (constructor <;> intro h <;> first | (cases h; done) | (cases h; constructor) | (cases h; rfl))
  | .bool x, b, _, _ => by
    cases b <;> simp only [deepEqual, beq_iff_eq] <;>
      (constructor <;> intro h <;> first | (cases h; done) | (cases h; constructor) | (cases h; rfl))
  | .num x, b, _, _ => by
    cases b <;> simp only [deepEqual, decide_eq_true_eq] <;>
      (constructor <;> intro h <;> first | (cases h; done) | (cases h; constructor) | (cases h; rfl))
  | .str x, b, _, _ => by
    cases b <;> simp only [deepEqual, beq_iff_eq] <;>
      (constructor <;> intro h <;> first | (cases h; done) | (cases h; constructor) | (cases h; rfl))
  | .list l, b, ha, hb => by
    cases b with
    | list l' =>
      cases ha with | list ha =>
      cases hb with | list hb =>
      simp only [deepEqual, Bool.and_eq_true, beq_iff_eq]
      constructor
      · rintro ⟨h1, h2⟩
        exact .list h1 ((list_iff l l' ha hb h1).1 h2)
      · intro h
        cases h with | list h1 h2 => exact ⟨h1, (list_iff l l' ha hb h1).2 h2⟩
    | _ => simp only [deepEqual]; exact ⟨fun h => (by cases h), fun h => (by cases h)⟩
  | .map m, b, ha, hb => by
    cases b with
    | map m' =>
      cases ha with | map n1 ha =>
      cases hb with | map n2 hb =>
      simp only [deepEqual, Bool.and_eq_true, beq_iff_eq]
      rw [map_iff m m' ha hb]
      constructor
      · rintro ⟨h1, h2⟩
        have hs : Map.keys m ⊆ Map.keys m' := by
          intro k hk
          obtain ⟨e, he, rfl⟩ := List.mem_map.1 hk
          obtain ⟨a', g, _⟩ := h2 e he
          rw [Map.mem_keys, g]; rfl
        have hs' := subset_of_length n1 hs (by rw [keys_length, keys_length, h1]; exact Nat.le_refl _)
        refine .map (fun k => ?_) fun k a a' g g' => ?_
        · rw [Bool.eq_iff_iff, ← Map.mem_keys, ← Map.mem_keys]
          exact ⟨fun h => hs h, fun h => hs' h⟩
        · obtain ⟨a'', g2, s⟩ := h2 _ (Map.mem_of_get g)
          have g2 : Map.get m' k = some a'' := g2
          rw [g'] at g2; cases g2; exact s
      · intro h
        cases h with | map h1 h2 =>
        constructor
        · rw [← keys_length, ← keys_length]
          refine Nat.le_antisymm ?_ ?_
          · exact length_of_subset n1 (fun k hk => by
              rw [Map.mem_keys] at hk ⊢; rw [← h1]; exact hk)
          · exact length_of_subset n2 (fun k hk => by
              rw [Map.mem_keys] at hk ⊢; rw [h1]; exact hk)
        · intro e he
          have g := Map.get_of_mem n1 (k := e.1) (v := e.2) he
          have := h1 e.1
          rw [g] at this
          obtain ⟨a', g'⟩ := Option.isSome_iff_exists.1 this.symm
          exact ⟨a', g', h2 _ _ _ g g'⟩
    | _ => simp only [deepEqual]; exact ⟨fun h => (by cases h), fun h => (by cases h)⟩
theorem list_iff : (l l' : List (Any F)) → (∀ a ∈ l, a.Ok) → (∀ a ∈ l', a.Ok) →
    l.length = l'.length → (listEqual l l' = true ↔
      ∀ (i : Nat) a a', l[i]? = some a → l'[i]? = some a' → Any.Same a a')
  | [], l', _, _, _ => by simp [listEqual]
  | a :: l, [], _, _, h => by simp at h
  | a :: l, a' :: l', h1, h2, h3 => by
    simp only [listEqual, Bool.and_eq_true]
    rw [deep_iff a a' (h1 _ List.mem_cons_self) (h2 _ List.mem_cons_self),
      list_iff l l' (fun x hx => h1 x (List.mem_cons_of_mem _ hx))
        (fun x hx => h2 x (List.mem_cons_of_mem _ hx)) (by simpa using h3)]
    constructor
    · rintro ⟨s, t⟩ i x x' g g'
      cases i with
      | zero => simp at g g'; subst g; subst g'; exact s
      | succ i => exact t i x x' (by simpa using g) (by simpa using g')
    · intro h
      exact ⟨h 0 a a' rfl rfl, fun i x x' g g' => h (i + 1) x x' (by simpa using g) (by simpa using g')⟩
theorem map_iff : (m m' : List (Bytes × Any F)) → (∀ e ∈ m, e.2.Ok) → (∀ e ∈ m', e.2.Ok) →
    (mapEqual m m' = true ↔ ∀ e ∈ m, ∃ a', Map.get m' e.1 = some a' ∧ Any.Same e.2 a')
  | [], m', _, _ => by simp [mapEqual]
  | (k, a) :: m, m', h1, h2 => by
    simp only [mapEqual, Bool.and_eq_true]
    rw [map_iff m m' (fun x hx => h1 x (List.mem_cons_of_mem _ hx)) h2]
    constructor
    · rintro ⟨s, t⟩ e he
      rcases List.mem_cons.1 he with rfl | he
      · split at s
        · rename_i a' g
          exact ⟨a', g, (deep_iff a a' (h1 _ List.mem_cons_self) (h2 _ (Map.mem_of_get g))).1 s⟩
        · cases s
      · exact t e he
    · intro h
      refine ⟨?_, fun e he => h e (List.mem_cons_of_mem _ he)⟩
      obtain ⟨a', g, s⟩ := h _ List.mem_cons_self
      have g : Map.get m' k = some a' := g
      rw [g]
      exact (deep_iff a a' (h1 _ List.mem_cons_self) (h2 _ (Map.mem_of_get g))).2 s
end

end Verif.Bench
