import Verif.Data.Regex

/-
What a match of a regular expression says about the text and the groups.
-/

namespace Verif.Data
open Go

/-- Expression `r` can take the part of `s` before `t`, and the groups change from `m` to `m'`. -/
def Takes : Re → Bytes → Caps → Bytes → Caps → Prop
  | .lit p, s, m, t, m' => s = p ++ t ∧ m' = m
  | .one p, s, m, t, m' => ∃ a, s = a :: t ∧ p a = true ∧ m' = m
  | .star p, s, m, t, m' => ∃ u, s = u ++ t ∧ (∀ a ∈ u, p a = true) ∧ m' = m
  | .lazy p, s, m, t, m' => ∃ u, s = u ++ t ∧ (∀ a ∈ u, p a = true) ∧ m' = m
  | .cat a b, s, m, t, m' => ∃ u n, Takes a s m u n ∧ Takes b u n t m'
  | .opt a, s, m, t, m' => Takes a s m t m' ∨ (t = s ∧ m' = m)
  | .cap i a, s, m, t, m' => ∃ n, Takes a s m t n ∧ m' = n.set i (s.take (s.length - t.length))
  | .eot, s, m, t, m' => s = [] ∧ t = [] ∧ m' = m
  | .nw, s, m, t, m' => wordStops s = true ∧ t = s ∧ m' = m

theorem starRun_takes {R : Type} {p : UInt8 → Bool} {k : Bytes → Option R} {s : Bytes} {r : R} (h : starRun p k s = some r) :
    ∃ u t, s = u ++ t ∧ (∀ a ∈ u, p a = true) ∧ k t = some r := by
  induction s with
  | nil => exact ⟨[], [], rfl, by simp, h⟩
  | cons a s ih =>
    unfold starRun at h
    split at h
    · rename_i hp
      split at h
      · rename_i r' e
        cases h
        obtain ⟨u, t, rfl, hu, hk⟩ := ih e
        exact ⟨a :: u, t, rfl, by simpa using ⟨hp, hu⟩, hk⟩
      · exact ⟨[], _, rfl, by simp, h⟩
    · exact ⟨[], _, rfl, by simp, h⟩

theorem lazyRun_takes {R : Type} {p : UInt8 → Bool} {k : Bytes → Option R} {s : Bytes} {r : R} (h : lazyRun p k s = some r) :
    ∃ u t, s = u ++ t ∧ (∀ a ∈ u, p a = true) ∧ k t = some r := by
  induction s with
  | nil => exact ⟨[], [], rfl, by simp, h⟩
  | cons a s ih =>
    unfold lazyRun at h
    split at h
    · rename_i r' e
      cases h
      exact ⟨[], _, rfl, by simp, e⟩
    · split at h
      · rename_i hp
        obtain ⟨u, t, rfl, hu, hk⟩ := ih h
        exact ⟨a :: u, t, rfl, by simpa using ⟨hp, hu⟩, hk⟩
      · cases h

/-- A match takes a part of the text. -/
theorem run_takes : ∀ (r : Re) (k : Bytes → Caps → Option Caps) (s : Bytes) (m c : Caps), r.run k s m = some c →
    ∃ t m', Takes r s m t m' ∧ k t m' = some c
  | .lit p, k, s, m, c, h => by
    unfold Re.run at h
    split at h
    · rename_i t e; exact ⟨t, m, ⟨stripPrefix_iff.1 e, rfl⟩, h⟩
    · cases h
  | .one p, k, s, m, c, h => by
    unfold Re.run at h
    split at h
    · cases h
    · rename_i a t
      split at h
      · rename_i hp; exact ⟨t, m, ⟨a, rfl, hp, rfl⟩, h⟩
      · cases h
  | .star p, k, s, m, c, h => by
    unfold Re.run at h
    obtain ⟨u, t, e, hu, hk⟩ := starRun_takes h
    exact ⟨t, m, ⟨u, e, hu, rfl⟩, hk⟩
  | .lazy p, k, s, m, c, h => by
    unfold Re.run at h
    obtain ⟨u, t, e, hu, hk⟩ := lazyRun_takes h
    exact ⟨t, m, ⟨u, e, hu, rfl⟩, hk⟩
  | .cat a b, k, s, m, c, h => by
    unfold Re.run at h
    obtain ⟨u, n, h1, h2⟩ := run_takes a _ s m c h
    obtain ⟨t, m', h3, h4⟩ := run_takes b _ u n c h2
    exact ⟨t, m', ⟨u, n, h1, h3⟩, h4⟩
  | .opt a, k, s, m, c, h => by
    unfold Re.run at h
    split at h
    · rename_i r e
      cases h
      obtain ⟨t, m', h1, h2⟩ := run_takes a _ s m c e
      exact ⟨t, m', .inl h1, h2⟩
    · exact ⟨s, m, .inr ⟨rfl, rfl⟩, h⟩
  | .cap i a, k, s, m, c, h => by
    unfold Re.run at h
    obtain ⟨t, n, h1, h2⟩ := run_takes a _ s m c h
    exact ⟨t, _, ⟨n, h1, rfl⟩, h2⟩
  | .eot, k, s, m, c, h => by
    unfold Re.run at h
    split at h
    · rename_i e; subst e; exact ⟨[], m, ⟨rfl, rfl, rfl⟩, h⟩
    · cases h
  | .nw, k, s, m, c, h => by
    unfold Re.run at h
    split at h
    · rename_i e; exact ⟨s, m, ⟨e, rfl, rfl⟩, h⟩
    · cases h

theorem taken_star {p : UInt8 → Bool} : ∀ (u t : Bytes), (∀ a ∈ u, p a = true) → Lang (.star p) (u ++ t) t
  | [], _, _ => .star0
  | a :: u, t, h => .star1 (h a (by simp)) (taken_star u t fun x hx => h x (by simp [hx]))

theorem taken_lazy {p : UInt8 → Bool} : ∀ (u t : Bytes), (∀ a ∈ u, p a = true) → Lang (.lazy p) (u ++ t) t
  | [], _, _ => .lazy0
  | a :: u, t, h => .lazy1 (h a (by simp)) (taken_lazy u t fun x hx => h x (by simp [hx]))

/-- A text of which a part can be taken is in the language. -/
theorem Takes.lang : ∀ {r : Re} {s : Bytes} {m : Caps} {t : Bytes} {m' : Caps}, Takes r s m t m' → Lang r s t
  | .lit p, _, _, _, _, ⟨e, _⟩ => e ▸ .lit
  | .one p, _, _, _, _, ⟨a, e, h, _⟩ => e ▸ .one h
  | .star p, _, _, _, _, ⟨u, e, h, _⟩ => e ▸ taken_star u _ h
  | .lazy p, _, _, _, _, ⟨u, e, h, _⟩ => e ▸ taken_lazy u _ h
  | .cat a b, _, _, _, _, ⟨_, _, h1, h2⟩ => .cat h1.lang h2.lang
  | .opt a, _, _, _, _, .inl h => .opt1 h.lang
  | .opt a, _, _, _, _, .inr ⟨e, _⟩ => e ▸ .opt0
  | .cap i a, _, _, _, _, ⟨_, h, _⟩ => .cap h.lang
  | .eot, _, _, _, _, ⟨e1, e2, _⟩ => e1 ▸ e2 ▸ .eot
  | .nw, _, _, _, _, ⟨h, e, _⟩ => by subst e; exact .nw h

/-- What is found has been taken. -/
theorem find_takes {r : Re} {s : Bytes} {c : Caps} (h : r.find s = some c) : ∃ t, Takes r s [] t c := by
  obtain ⟨t, m', h1, h2⟩ := run_takes r _ s [] c h
  cases h2
  exact ⟨t, h1⟩

/-- What can be taken is found. -/
theorem takes_find {r : Re} {s t : Bytes} {m : Caps} (h : Takes r s [] t m) : ∃ c, r.find s = some c := by
  cases e : r.find s with
  | some c => exact ⟨c, rfl⟩
  | none => exact absurd h.lang ((Re.find_none r s).1 e t)

/-! ### The first match -/

theorem taken_part (u t : Bytes) : (u ++ t).take ((u ++ t).length - t.length) = u := by simp

/-- Greedy: what is longer fails. -/
theorem starRun_first {R : Type} {p : UInt8 → Bool} {k : Bytes → Option R} {s : Bytes} {r : R} (h : starRun p k s = some r) :
    ∃ u t, s = u ++ t ∧ (∀ a ∈ u, p a = true) ∧ k t = some r ∧
      ∀ u' t', s = u' ++ t' → (∀ a ∈ u', p a = true) → u.length < u'.length → k t' = none := by
  induction s with
  | nil =>
    refine ⟨[], [], rfl, by simp, h, fun u' t' e _ hl => ?_⟩
    have := congrArg List.length e
    simp at this hl
    omega
  | cons a s ih =>
    unfold starRun at h
    split at h
    · rename_i hp
      split at h
      · rename_i r' e
        cases h
        obtain ⟨u, t, rfl, hu, hk, hm⟩ := ih e
        refine ⟨a :: u, t, rfl, by simpa using ⟨hp, hu⟩, hk, fun u' t' e' hu' hl => ?_⟩
        cases u' with
        | nil => simp at hl
        | cons b u' =>
          simp only [List.cons_append, List.cons.injEq] at e'
          exact hm u' t' e'.2 (fun x hx => hu' x (by simp [hx])) (by simpa using hl)
      · rename_i e
        refine ⟨[], _, rfl, by simp, h, fun u' t' e' hu' hl => ?_⟩
        cases u' with
        | nil => simp at hl
        | cons b u' =>
          simp only [List.cons_append, List.cons.injEq] at e'
          rw [e'.2] at e
          exact starRun_none.1 e t' (taken_star u' t' fun x hx => hu' x (by simp [hx]))
    · rename_i hp
      refine ⟨[], _, rfl, by simp, h, fun u' t' e' hu' hl => ?_⟩
      cases u' with
      | nil => simp at hl
      | cons b u' =>
        simp only [List.cons_append, List.cons.injEq] at e'
        exact absurd (hu' b (by simp)) (by rw [← e'.1]; exact hp)

/-- Lazy: what is shorter fails. -/
theorem lazyRun_first {R : Type} {p : UInt8 → Bool} {k : Bytes → Option R} {s : Bytes} {r : R} (h : lazyRun p k s = some r) :
    ∃ u t, s = u ++ t ∧ (∀ a ∈ u, p a = true) ∧ k t = some r ∧
      ∀ u' t', s = u' ++ t' → u'.length < u.length → k t' = none := by
  induction s with
  | nil => exact ⟨[], [], rfl, by simp, h, fun u' t' e hl => by simp at hl⟩
  | cons a s ih =>
    unfold lazyRun at h
    split at h
    · rename_i r' e
      cases h
      exact ⟨[], _, rfl, by simp, e, fun u' t' e hl => by simp at hl⟩
    · rename_i e
      split at h
      · rename_i hp
        obtain ⟨u, t, rfl, hu, hk, hm⟩ := ih h
        refine ⟨a :: u, t, rfl, by simpa using ⟨hp, hu⟩, hk, fun u' t' e' hl => ?_⟩
        cases u' with
        | nil => simp only [List.nil_append] at e'; rw [← e']; exact e
        | cons b u' =>
          simp only [List.cons_append, List.cons.injEq] at e'
          exact hm u' t' e'.2 (by simpa using hl)
      · cases h

/-- The end of a search. -/
def done (_ : Bytes) (m : Caps) : Option Caps := some m

theorem run_done_none {r : Re} {s : Bytes} {m : Caps} : r.run done s m = none ↔ ∀ t, ¬ Lang r s t := by
  rw [Re.run_none r done s m (by simp [done])]
  simp [done]

theorem first_star {p : UInt8 → Bool} {b : Re} {s : Bytes} {m c : Caps} (h : (Re.cat (.star p) b).run done s m = some c) :
    ∃ u t, s = u ++ t ∧ (∀ a ∈ u, p a = true) ∧ b.run done t m = some c ∧
      ∀ u' t', s = u' ++ t' → (∀ a ∈ u', p a = true) → u.length < u'.length → ∀ r, ¬ Lang b t' r := by
  obtain ⟨u, t, e, hu, hk, hm⟩ := starRun_first (k := fun t => b.run done t m) h
  exact ⟨u, t, e, hu, hk, fun u' t' e' hu' hl => run_done_none.1 (hm u' t' e' hu' hl)⟩

theorem first_lit {p : Bytes} {b : Re} {s : Bytes} {m c : Caps} (h : (Re.cat (.lit p) b).run done s m = some c) :
    ∃ t, s = p ++ t ∧ b.run done t m = some c := by
  simp only [Re.run] at h
  split at h
  · rename_i t e; exact ⟨t, stripPrefix_iff.1 e, h⟩
  · cases h

theorem first_lazy {p : UInt8 → Bool} {i : Nat} {b : Re} {s : Bytes} {m c : Caps}
    (h : (Re.cat (.cap i (.cat (.one p) (.lazy p))) b).run done s m = some c) :
    ∃ u t, s = u ++ t ∧ u ≠ [] ∧ (∀ a ∈ u, p a = true) ∧ b.run done t (m.set i u) = some c ∧
      ∀ u' t', s = u' ++ t' → u' ≠ [] → u'.length < u.length → ∀ r, ¬ Lang b t' r := by
  simp only [Re.run] at h
  split at h
  · cases h
  · rename_i s a s'
    split at h
    · rename_i hp
      obtain ⟨u, t, rfl, hu, hk, hm⟩ := lazyRun_first h
      refine ⟨a :: u, t, rfl, by simp, by simpa using ⟨hp, hu⟩, ?_, fun u' t' e' hne hl => ?_⟩
      · have e : (a :: (u ++ t)).take ((a :: (u ++ t)).length - t.length) = a :: u := by
          exact taken_part (a :: u) t
        rw [e] at hk; exact hk
      · obtain ⟨a', v, rfl⟩ := List.exists_cons_of_ne_nil hne
        simp only [List.cons_append, List.cons.injEq] at e'
        exact run_done_none.1 (hm v t' e'.2 (by simpa using hl))
    · cases h

theorem first_between {p : UInt8 → Bool} {i : Nat} {x y : Bytes} {b : Re} {s : Bytes} {m c : Caps}
    (h : (Re.cat (.cap i (.cat (.lit x) (.cat (.star p) (.lit y)))) b).run done s m = some c) :
    ∃ u t, s = x ++ u ++ y ++ t ∧ (∀ a ∈ u, p a = true) ∧ b.run done t (m.set i (x ++ u ++ y)) = some c ∧
      ∀ u' t', s = x ++ u' ++ y ++ t' → (∀ a ∈ u', p a = true) → u.length < u'.length → ∀ r, ¬ Lang b t' r := by
  simp only [Re.run] at h
  split at h
  · rename_i s' e
    have e := stripPrefix_iff.1 e
    obtain ⟨u, t0, rfl, hu, hk, hm⟩ := starRun_first h
    split at hk
    · rename_i t e'
      have e' := stripPrefix_iff.1 e'
      subst e'
      have es : s = (x ++ u ++ y) ++ t := by rw [e]; simp
      refine ⟨u, t, by rw [es], hu, ?_, fun u' t' e1 hu' hl => ?_⟩
      · rw [es] at hk
        have : ((x ++ u ++ y) ++ t).take (((x ++ u ++ y) ++ t).length - t.length) = x ++ u ++ y := taken_part _ _
        rw [this] at hk
        exact hk
      · have e2 : u ++ (y ++ t) = u' ++ (y ++ t') := by
          rw [e, List.append_assoc, List.append_assoc] at e1
          exact List.append_cancel_left e1
        have := hm u' (y ++ t') e2 hu' hl
        rw [stripPrefix_append] at this
        exact run_done_none.1 this
    · cases hk
  · cases h

end Verif.Data
