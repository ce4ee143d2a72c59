import Verif.Data.BenchLine

/-
Where the patterns for optional measurements match.
-/

set_option linter.unusedSimpArgs false

namespace Verif.Data
open Go

/-- White space, a number, white space and a unit. -/
abbrev field (X Q : Re) : Re := .cat (.one isS) (.cat (.cap 1 X) (.cat (plus isS) Q))

/-- No white space. -/
def Word' (w : Bytes) : Prop := ∀ a ∈ w, isS a = false

/-- The end, or white space. -/
def Stops (s : Bytes) : Prop := ∀ a t, s = a :: t → isS a = true

/-- What the parts of a field match. -/
structure IsField (X Q : Re) (unit : Bytes) : Prop where
  num : ∀ s t, Lang X s t → ∃ v, s = v ++ t ∧ v ≠ [] ∧ Word' v
  unit : ∀ s t, Lang Q s t → unit <+: s

theorem many_digit_word {u : Bytes} (h : Many isD u) : Word' u := fun a ha => digit_space a (h.all a ha)

theorem decimal_word {u : Bytes} (h : Decimal u) : u ≠ [] ∧ Word' u := by
  rcases h with h | ⟨a, b, rfl, ha, hb⟩
  · exact ⟨h.ne, many_digit_word h⟩
  · refine ⟨by simp, fun c hc => ?_⟩
    rcases List.mem_append.1 hc with hc | hc
    · exact many_digit_word ha c hc
    · rcases List.mem_cons.1 hc with rfl | hc
      · decide
      · exact many_digit_word hb c hc

theorem allocs_field : IsField (plus isD) (.cat (.lit b!"allocs/op") .nw) b!"allocs/op" where
  num := fun s t h => by
    obtain ⟨u, rfl, hu⟩ := lang_plus h
    exact ⟨u, rfl, hu.ne, many_digit_word hu⟩
  unit := fun s t h => by
    cases h with | cat q _ =>
    cases q with | lit => exact ⟨_, rfl⟩

theorem bytes_field : IsField (plus isD) (.cat (.lit b!"B/op") .nw) b!"B/op" where
  num := allocs_field.num
  unit := fun s t h => by
    cases h with | cat q _ =>
    cases q with | lit => exact ⟨_, rfl⟩

theorem mb_field : IsField decimal (.lit b!"MB/s") b!"MB/s" where
  num := fun s t h => by
    obtain ⟨u, rfl, hu⟩ := lang_decimal h
    exact ⟨u, rfl, (decimal_word hu).1, (decimal_word hu).2⟩
  unit := fun s t h => by
    cases h with | lit => exact ⟨_, rfl⟩

theorem field_first {X Q : Re} {s : Bytes} (h : ∀ a t, s = a :: t → isS a = false) : (field X Q).find s = none := by
  rw [Re.find_none]
  intro t hl
  cases hl with | cat q _ =>
  cases q with | one ha => rw [h _ _ rfl] at ha; cases ha

theorem field_nil {X Q : Re} : (field X Q).findAny [] = none := field_first (by simp)

/-- Words are skipped. -/
theorem skip_word {X Q : Re} {w rest : Bytes} (hw : Word' w) : (field X Q).findAny (w ++ rest) = (field X Q).findAny rest := by
  induction w with
  | nil => rfl
  | cons a w ih =>
    rw [List.cons_append, Re.findAny, field_first (by rintro b t e; cases e; exact hw a (by simp))]
    exact ih fun b hb => hw b (by simp [hb])

theorem word_split {v t w rest : Bytes} (hv : Word' v) (ht : ∃ a t', t = a :: t' ∧ isS a = true) (hw : Word' w) (hr : Stops rest)
    (e : v ++ t = w ++ rest) : v = w ∧ t = rest := by
  obtain ⟨a, t', rfl, ha⟩ := ht
  induction v generalizing w with
  | nil =>
    cases w with
    | nil => exact ⟨rfl, e⟩
    | cons b w =>
      cases e
      have := hw a (by simp)
      rw [ha] at this; cases this
  | cons b v ih =>
    cases w with
    | nil =>
      have := hr b (v ++ a :: t') e.symm
      rw [hv b (by simp)] at this; cases this
    | cons c w =>
      rw [List.cons_append, List.cons_append, List.cons.injEq] at e
      obtain ⟨rfl, e⟩ := e
      obtain ⟨rfl, h⟩ := ih (fun x hx => hv x (by simp [hx])) (fun x hx => hw x (by simp [hx])) e
      exact ⟨rfl, h⟩

theorem many_first {p : UInt8 → Bool} {s t : Bytes} (h : Many p s) : ∃ a t', s ++ t = a :: t' ∧ p a = true := by
  obtain ⟨hne, h⟩ := h
  cases s with
  | nil => exact absurd rfl hne
  | cons a s => exact ⟨a, s ++ t, rfl, h a (by simp)⟩

/-- No field starts at white space before white space. -/
theorem field_space {X Q : Re} {unit : Bytes} (hf : IsField X Q unit) {a b : UInt8} {s : Bytes} (hb : isS b = true) :
    (field X Q).find (a :: b :: s) = none := by
  rw [Re.find_none]
  intro t hl
  cases hl with | cat q hl =>
  cases q with | one ha =>
  cases hl with | cat q hl =>
  cases q with | cap q =>
  obtain ⟨v, e, hne, hv⟩ := hf.num _ _ q
  cases v with
  | nil => exact hne rfl
  | cons c v =>
    cases e
    have := hv b (by simp)
    rw [hb] at this; cases this

/-- No field starts at a word if what follows is not the unit. -/
theorem field_none {X Q : Re} {unit : Bytes} (hf : IsField X Q unit) {a : UInt8} {w rest : Bytes} (hw : Word' w)
    (hr : Stops rest) (hn : ∀ sp u, rest = sp ++ u → Many isS sp → ¬ unit <+: u) : (field X Q).find (a :: (w ++ rest)) = none := by
  rw [Re.find_none]
  intro t hl
  cases hl with | cat q hl =>
  cases q with | one ha =>
  cases hl with | cat q hl =>
  cases q with | cap q =>
  obtain ⟨v, e, hne, hv⟩ := hf.num _ _ q
  cases hl with | cat q hl =>
  obtain ⟨sp, rfl, hsp⟩ := lang_plus q
  have hu := hf.unit _ _ hl
  obtain ⟨_, h2⟩ := word_split hv (many_first hsp) hw hr e.symm
  exact hn sp _ h2.symm hsp hu

/-- White space and a word that is not followed by the unit are skipped. -/
theorem skip_gap {X Q : Re} {unit : Bytes} (hf : IsField X Q unit) {sp w rest : Bytes} (hs : ∀ a ∈ sp, isS a = true) (hw : Word' w)
    (hr : Stops rest) (hn : ∀ sp u, rest = sp ++ u → Many isS sp → ¬ unit <+: u) :
    (field X Q).findAny (sp ++ (w ++ rest)) = (field X Q).findAny rest := by
  rw [show (field X Q).findAny rest = (field X Q).findAny (w ++ rest) from (skip_word hw).symm]
  induction sp with
  | nil => rfl
  | cons a sp ih =>
    have : (field X Q).find (a :: (sp ++ (w ++ rest))) = none := by
      cases sp with
      | nil => exact field_none (w := w) hf hw hr hn
      | cons b sp => exact field_space hf (hs b (by simp))
    rw [List.cons_append, Re.findAny, this]
    exact ih fun b hb => hs b (by simp [hb])

/-- The field is found. -/
theorem hit {X Q : Re} {unit : Bytes} (hf : IsField X Q unit) {sp w sp' u : Bytes} (hs : Many isS sp) (hs' : Many isS sp')
    (hX : ∀ k m t r, (∀ a t', t = a :: t' → isS a = true) → k t (Map.set m 1 w) = some r → (Re.cap 1 X).run k (w ++ t) m = some r)
    (hu : ∀ a t', u = a :: t' → isS a = false) (hQ : ∀ m, Q.run (fun _ m => some m) u m = some m) :
    (field X Q).findAny (sp ++ (w ++ (sp' ++ u))) = some [(1, w)] := by
  obtain ⟨hne, hs⟩ := hs
  induction sp with
  | nil => exact absurd rfl hne
  | cons a sp ih =>
    cases sp with
    | nil =>
      have : (field X Q).find (a :: (w ++ (sp' ++ u))) = some [(1, w)] := by
        unfold Re.find field
        rw [run_cat, run_one _ (hs a (by simp)), run_cat]
        refine hX _ _ _ _ ?_ ?_
        · intro a t' e
          obtain ⟨c, t'', e', hc⟩ := many_first (t := u) hs'
          rw [e'] at e; cases e; exact hc
        · rw [run_cat]
          exact run_plus hs' hu (hQ _)
      rw [List.cons_append, List.nil_append, Re.findAny, this]
    | cons b sp =>
      have : (field X Q).find (a :: (b :: sp ++ (w ++ (sp' ++ u)))) = none := field_space hf (hs b (by simp))
      rw [List.cons_append, Re.findAny, this]
      exact ih (by simp) fun c hc => hs c (by simp [hc])

theorem digits_run {w : Bytes} (hw : Many isD w) (k : Bytes → Caps → Option Caps) (m : Caps) (t : Bytes) (r : Caps)
    (ht : ∀ a t', t = a :: t' → isS a = true) (h : k t (Map.set m 1 w) = some r) : (Re.cap 1 (plus isD)).run k (w ++ t) m = some r :=
  run_cap_plus hw (fun a t' e => space_digit a (ht a t' e)) h

theorem decimal_run {w : Bytes} (hw : Decimal w) (k : Bytes → Caps → Option Caps) (m : Caps) (t : Bytes) (r : Caps)
    (ht : ∀ a t', t = a :: t' → isS a = true) (h : k t (Map.set m 1 w) = some r) : (Re.cap 1 decimal).run k (w ++ t) m = some r :=
  run_cap_decimal hw (fun a t' e => ⟨space_digit a (ht a t' e), space_point a (ht a t' e)⟩) h

theorem unit_run {u rest : Bytes} (h : wordStops rest = true) (m : Caps) :
    (Re.cat (.lit u) .nw).run (fun _ m => some m) (u ++ rest) m = some m := by
  rw [run_cat, run_lit]
  unfold Re.run
  rw [if_pos h]

theorem stops_word {s : Bytes} (h : Stops s) : wordStops s = true := by
  cases s with
  | nil => rfl
  | cons a s =>
    have := h a s rfl
    unfold wordStops
    rcases isS_cases a this with rfl | rfl | rfl | rfl | rfl <;> rfl

end Verif.Data
