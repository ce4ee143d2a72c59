import Verif.Data.WarnBefore

/-
The warning parser on the lines of a summary.
-/

set_option linter.unusedSimpArgs false

namespace Verif.Data
open Go Slog Letters Lines Verif.Warning

/-- The last group of a line takes all but the white space around. -/
theorem run_word_tail {i : Nat} {X tr : Bytes} (hX : Trim X) (h0 : X ≠ []) (htr : ∀ a ∈ tr, isS a = true) (m : Caps) :
    (Re.cat (.cap i (.cat (.one isNS) (.lazy isDot))) (.cat (.star isS) .eot)).run (fun _ m => some m) (X ++ tr) m = some (m.set i X) := by
  obtain ⟨a, X, rfl⟩ := List.exists_cons_of_ne_nil h0
  have ha : isNS a = true := by unfold isNS; rw [hX.first a X rfl]; rfl
  rw [run_cat, run_cap, run_cat, List.cons_append, run_one _ ha]
  refine run_lazy (fun b hb => hX.dots b (by simp [hb])) (fun v w e hw => ?_) ?_
  · obtain ⟨b, hb, hs⟩ := hX.suffix_has (v := a :: v) (w := w) (by rw [e]; rfl) hw
    exact run_end_none (List.mem_append_left _ hb) hs
  · rw [← List.cons_append, take_diff]
    exact run_end htr

/-- A mark, and a text with white space around it. -/
theorem find_marked {p sp X tr : Bytes} (hsp : ∀ a ∈ sp, isS a = true) (hX : Trim X) (h0 : X ≠ []) (htr : ∀ a ∈ tr, isS a = true) :
    (seq [.lit p, .star isS, .cap 1 (.cat (.one isNS) (.lazy isDot)), .star isS, .eot]).find (p ++ (sp ++ (X ++ tr))) = some [(1, X)] := by
  simp only [seq, Re.find]
  rw [run_cat, run_lit, run_cat]
  refine run_star hsp ?_ (run_word_tail hX h0 htr [])
  intro a t e
  obtain ⟨b, X, rfl⟩ := List.exists_cons_of_ne_nil h0
  cases e
  exact hX.first _ X rfl

/-- Only white space after the mark. -/
theorem find_marked_blank {p sp : Bytes} (hsp : ∀ a ∈ sp, isS a = true) :
    (seq [.lit p, .star isS, .cap 1 (.cat (.one isNS) (.lazy isDot)), .star isS, .eot]).find (p ++ sp) = none := by
  rw [Re.find_none]
  intro t h
  simp only [seq] at h
  cases h with
  | cat h1 h2 =>
    rename_i t1
    have e1 : t1 = sp := by
      generalize e : p ++ sp = s at h1
      cases h1
      exact (List.append_cancel_left e).symm
    subst e1
    obtain ⟨v, t, rfl, hv, h⟩ := lang_seq_star h2
    cases h with
    | cat h1 _ =>
      cases h1 with
      | cap h1 =>
        cases h1 with
        | cat h1 _ =>
          cases h1 with
          | one h3 =>
            have := hsp _ (List.mem_append_right _ (List.mem_cons_self ..))
            unfold isNS at h3
            rw [this] at h3
            cases h3

/-- A name of a link that can be read back: the arrow is not in it, except at its start. -/
def NoArrow (N : Bytes) : Prop := ∀ u v, N = u ++ b!"-->" ++ v → u = []

/-- A link. -/
theorem find_link {N X : Bytes} (hN : Trim N) (hN0 : N ≠ []) (hA : NoArrow N) (hX : Trim X) (hX0 : X ≠ []) :
    ptnSummaryLink.find (b!":> " ++ N ++ b!" --> " ++ X) = some [(1, N), (2, X)] := by
  obtain ⟨a, N, rfl⟩ := List.exists_cons_of_ne_nil hN0
  have ha : isNS a = true := by unfold isNS; rw [hN.first a N rfl]; rfl
  unfold ptnSummaryLink
  simp only [seq, Re.find]
  rw [show b!":> " ++ (a :: N) ++ b!" --> " ++ X = b!":>" ++ (b!" " ++ (a :: (N ++ (b!" " ++ (b!"-->" ++ (b!" " ++ X)))))) by simp,
    run_cat, run_lit, run_cat]
  refine run_star (by simp; decide) (by rintro b t e; cases e; exact hN.first a N rfl) ?_
  rw [run_cat, run_cap, run_cat, run_one _ ha]
  refine run_lazy (fun b hb => hN.dots b (by simp [hb])) (fun v w e hw => ?_) ?_
  · rw [Re.run_none _ _ _ _ (fun t m m' => by simp)]
    intro t ht
    exfalso
    obtain ⟨b, hb, hs⟩ := hN.suffix_has (v := a :: v) (w := w) (by rw [e]; rfl) hw
    obtain ⟨x, y, exy, hx, h⟩ := lang_seq_star ht
    cases h with
    | cat h1 _ =>
      rename_i t1 _
      have ey : y = b!"-->" ++ t1 := by
        cases h1; rfl
      subst ey
      -- the arrow begins within `w`
      obtain ⟨w1, hw1⟩ : ∃ w1, w = x ++ w1 ∧ w1 ≠ [] := by
        rcases List.append_eq_append_iff.1 exy with ⟨z, e1, e2⟩ | ⟨z, e1, e2⟩
        · exfalso
          have := hx b (by rw [e1]; exact List.mem_append_left _ hb)
          rw [hs] at this; cases this
        · refine ⟨z, e1, ?_⟩
          rintro rfl
          have := hx b (by rw [e1, List.append_nil] at hb; exact hb)
          rw [hs] at this; cases this
      obtain ⟨rfl, hw0⟩ := hw1
      rw [List.append_assoc] at exy
      have exy := List.append_cancel_left exy
      -- and ends within it
      have hin : ∃ z, w1 = b!"-->" ++ z := by
        match w1, hw0, exy with
        | [c], _, exy => simp at exy
        | [c, d], _, exy => simp at exy
        | c :: d :: f :: z, _, exy =>
          simp only [List.cons_append, List.cons.injEq] at exy
          obtain ⟨rfl, rfl, rfl, _⟩ := exy
          exact ⟨z, rfl⟩
      obtain ⟨z, rfl⟩ := hin
      have := hA (a :: (v ++ x)) z (by rw [e]; simp)
      cases this
  · have h1 : (a :: (N ++ (b!" " ++ (b!"-->" ++ (b!" " ++ X)))) : Bytes).take
        ((a :: (N ++ (b!" " ++ (b!"-->" ++ (b!" " ++ X)))) : Bytes).length - (b!" " ++ (b!"-->" ++ (b!" " ++ X)) : Bytes).length) = a :: N := by
      rw [← List.cons_append, take_diff]
    rw [h1, run_cat]
    refine run_star (by simp; decide) (by rintro b t e; cases e; decide) ?_
    rw [run_cat, run_lit, run_cat]
    refine run_star (by simp; decide) (fun b t e => hX.first b t e) ?_
    have := run_word_tail (i := 2) (tr := []) hX hX0 (by simp) (Map.set [] 1 (a :: N))
    rw [List.append_nil] at this
    exact this

end Verif.Data
