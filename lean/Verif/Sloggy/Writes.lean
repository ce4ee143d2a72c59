import Verif.Sloggy.Handler

/-
Lemmas: what a writer that fails now and then makes of the output. The calls up
to the first failing one are those of the undisturbed run; that one is cut
short, and nothing is written after it.
-/

set_option linter.unusedSimpArgs false

namespace Verif.Sloggy
open Slog

/-- `o` is what a run that starts in `st` gives with the writer `w`, where `o0`
is the undisturbed run. -/
def Follows (w : Writer) (st : St) (o0 o : Out) : Prop :=
  match o0 with
  | .overflow => True
  | .ok st0 | .err st0 =>
    (∃ cs, st0.out = st.out ++ cs) ∧
    ((∀ i, st.out.length ≤ i → i < st0.out.length → w i = none) → o = o0) ∧
    ∀ i k, st.out.length ≤ i → (h : i < st0.out.length) →
      (∀ j, st.out.length ≤ j → j < i → w j = none) → w i = some k →
      ∃ s, o = .err ⟨st0.out.take i ++ [st0.out[i].take k], s⟩

theorem Follows.refl (w : Writer) (st : St) (s : Bool) : Follows w st (.ok ⟨st.out, s⟩) (.ok ⟨st.out, s⟩) :=
  ⟨⟨[], by simp⟩, fun _ => rfl, fun i k h1 h2 => by simp at h2; omega⟩

theorem Follows.err (w : Writer) (st : St) (s : Bool) : Follows w st (.err ⟨st.out, s⟩) (.err ⟨st.out, s⟩) :=
  ⟨⟨[], by simp⟩, fun _ => rfl, fun i k h1 h2 => by simp at h2; omega⟩

/-- The starting value of the flag does not matter. -/
theorem Follows.start {w : Writer} {st st' : St} {o0 o : Out} (h : Follows w st o0 o)
    (e : st'.out = st.out) : Follows w st' o0 o := by
  unfold Follows at *
  cases o0 <;> simp_all

theorem Follows.bind {w : Writer} {st : St} {o0 o : Out} {f0 f : St → Out} (h : Follows w st o0 o)
    (hf : ∀ st', Follows w st' (f0 st') (f st')) : Follows w st (o0.bind f0) (o.bind f) := by
  cases o0 with
  | overflow => trivial
  | err st0 =>
    obtain ⟨h1, h2, h3⟩ := h
    refine ⟨h1, fun hw => by rw [h2 hw]; rfl, fun i k a b c d => ?_⟩
    obtain ⟨s, e⟩ := h3 i k a b c d
    exact ⟨s, by rw [e]; rfl⟩
  | ok st1 =>
    obtain ⟨⟨cs, h1⟩, h2, h3⟩ := h
    have hg := hf st1
    simp only [Out.bind]
    -- the second part, given that the first went through
    have key : ∀ st0 : St, (∃ ds, st0.out = st1.out ++ ds) →
        ((∀ i, st1.out.length ≤ i → i < st0.out.length → w i = none) → f st1 = f0 st1) →
        (∀ i k, st1.out.length ≤ i → (h : i < st0.out.length) →
          (∀ j, st1.out.length ≤ j → j < i → w j = none) → w i = some k →
          ∃ s, f st1 = .err ⟨st0.out.take i ++ [st0.out[i].take k], s⟩) →
        (∃ cs, st0.out = st.out ++ cs) ∧
        ((∀ i, st.out.length ≤ i → i < st0.out.length → w i = none) → o.bind f = f0 st1) ∧
        ∀ i k, st.out.length ≤ i → (h : i < st0.out.length) →
          (∀ j, st.out.length ≤ j → j < i → w j = none) → w i = some k →
          ∃ s, o.bind f = .err ⟨st0.out.take i ++ [st0.out[i].take k], s⟩ := by
      intro st0 ⟨ds, hd⟩ g2 g3
      have l1 : st.out.length ≤ st1.out.length := by rw [h1]; simp
      have l2 : st1.out.length ≤ st0.out.length := by rw [hd]; simp
      refine ⟨⟨cs ++ ds, by rw [hd, h1]; simp⟩, ?_, ?_⟩
      · intro hw
        have e := h2 fun i a b => hw i a (by omega)
        rw [e]
        exact g2 fun i a b => hw i (by omega) b
      · intro i k a b c d
        by_cases hi : i < st1.out.length
        · obtain ⟨s, e⟩ := h3 i k a hi c d
          refine ⟨s, ?_⟩
          rw [e]
          simp only [Out.bind, Out.err.injEq, St.mk.injEq, and_true]
          have t : st0.out.take i = st1.out.take i := by
            rw [hd, List.take_append_of_le_length (by omega)]
          have g : st0.out[i] = st1.out[i] := by
            simp only [hd]; rw [List.getElem_append_left hi]
          rw [t, g]
        · have e := h2 fun j x y => c j x (by omega)
          rw [e]
          exact g3 i k (by omega) b (fun j x y => c j (by omega) y) d
    unfold Follows at hg ⊢
    cases hf0 : f0 st1 with
    | overflow => trivial
    | ok st0 =>
      rw [hf0] at hg
      have := key st0 hg.1 (fun hw => by rw [hf0]; exact hg.2.1 hw) hg.2.2
      rw [hf0] at this
      exact this
    | err st0 =>
      rw [hf0] at hg
      have := key st0 hg.1 (fun hw => by rw [hf0]; exact hg.2.1 hw) hg.2.2
      rw [hf0] at this
      exact this

/-- Among the first `n` calls there is a first failing one, or none. -/
theorem first_failure (w : Writer) (n : Nat) : (∀ i, i < n → w i = none) ∨
    ∃ i k, i < n ∧ (∀ j, j < i → w j = none) ∧ w i = some k := by
  induction n with
  | zero => exact .inl fun i h => by omega
  | succ n ih =>
    rcases ih with h | ⟨i, k, h1, h2⟩
    · cases hn : w n with
      | none =>
        refine .inl fun i hi => ?_
        by_cases e : i = n
        · rw [e, hn]
        · exact h i (by omega)
      | some k => exact .inr ⟨n, k, by omega, h, hn⟩
    · exact .inr ⟨i, k, by omega, h2⟩

/-- The settings with a writer that does not fail. -/
def Cfg.calm (cfg : Cfg) : Cfg := { cfg with writer := sure }

variable (cfg : Cfg)

theorem write_follows (b : Bytes) (st : St) :
    Follows cfg.writer st (write cfg.calm b st) (write cfg b st) := by
  simp only [write, Cfg.calm, sure]
  refine ⟨⟨[b], rfl⟩, fun hw => ?_, fun i k a h c d => ?_⟩
  · have := hw st.out.length (Nat.le_refl _) (by simp)
    simp [this]
  · simp at h
    have : i = st.out.length := by omega
    subst this
    refine ⟨st.started, ?_⟩
    simp [d]

theorem addString_follows (s : Bytes) (st : St) :
    Follows cfg.writer st (addString cfg.calm s st) (addString cfg s st) := write_follows cfg _ st

theorem addMarshaler_follows (r : Res) (st : St) :
    Follows cfg.writer st (addMarshaler cfg.calm r st) (addMarshaler cfg r st) := by
  cases r <;> exact addString_follows cfg _ st

theorem addAny_follows (a : AnyVal) (st : St) :
    Follows cfg.writer st (addAny cfg.calm a st) (addAny cfg a st) := by
  cases a with
  | nil => exact write_follows cfg _ st
  | obj o =>
    obtain ⟨nt, s, e, j, x, m⟩ := o
    cases nt with
    | some s => exact addString_follows cfg _ st
    | none =>
    cases e with
    | some s => exact addString_follows cfg _ st
    | none =>
    cases s with
    | some s => exact addString_follows cfg _ st
    | none =>
    cases j with
    | some s => exact addMarshaler_follows cfg _ st
    | none =>
    cases x with
    | some s => exact addMarshaler_follows cfg _ st
    | none =>
    cases m with
    | ok b => exact write_follows cfg _ st
    | error _ => exact Follows.err cfg.writer st st.started

theorem addLeaf_follows (v : Value) (st : St) :
    Follows cfg.writer st (addLeaf cfg.calm v st) (addLeaf cfg v st) := by
  cases v with
  | bool b => cases b <;> exact write_follows cfg _ st
  | duration d => exact write_follows cfg _ st
  | float64 d => exact write_follows cfg _ st
  | int64 d => exact write_follows cfg _ st
  | uint64 d => exact write_follows cfg _ st
  | string s => exact addString_follows cfg _ st
  | time s => exact addString_follows cfg _ st
  | any a => exact addAny_follows cfg _ st
  | group as => exact addAny_follows cfg ((Value.group as).anyOf cfg.env) st
  | logValuer o r => exact addAny_follows cfg ((Value.logValuer o r).anyOf cfg.env) st

theorem addKey_follows (k : Bytes) (st : St) :
    Follows cfg.writer st (addKey cfg.calm k st) (addKey cfg k st) := by
  unfold addKey
  refine Follows.bind ?_ fun st => Follows.bind (addString_follows cfg _ st) fun st =>
    write_follows cfg _ st
  split
  · exact write_follows cfg _ st
  · exact Follows.refl cfg.writer st true

theorem addAll_follows {f0 f : St → Attr → Out}
    (hf : ∀ st a, Follows cfg.writer st (f0 st a) (f st a)) : ∀ (as : List Attr) (st : St),
    Follows cfg.writer st (addAll f0 st as) (addAll f st as) := by
  intro as
  induction as with
  | nil => intro st; exact Follows.refl cfg.writer st st.started
  | cons a as ih => intro st; exact Follows.bind (hf st a) fun st => ih st

theorem prep_calm (a : Attr) : prep cfg.calm a = prep cfg a := rfl

theorem addAttribute_follows (n : Nat) : ∀ (st : St) (a : Attr),
    Follows cfg.writer st (addAttribute cfg.calm n st a) (addAttribute cfg n st a) := by
  induction n with
  | zero => intro st a; trivial
  | succ n ih =>
    intro st a
    rw [addAttribute, addAttribute, prep_calm]
    generalize prep cfg a = p
    obtain ⟨a', v⟩ := p
    simp only
    by_cases h1 : a.isEmpty = true
    · rw [if_pos h1, if_pos h1]; exact Follows.refl cfg.writer st st.started
    · rw [if_neg h1, if_neg h1]
      by_cases h2 : a'.isEmpty = true
      · rw [if_pos h2, if_pos h2]; exact Follows.refl cfg.writer st st.started
      · rw [if_neg h2, if_neg h2]
        generalize a'.key = k
        have leaf : ∀ v, Follows cfg.writer st
            ((addKey cfg.calm k st).bind fun st => addLeaf cfg.calm v st)
            ((addKey cfg k st).bind fun st => addLeaf cfg v st) :=
          fun v => Follows.bind (addKey_follows cfg _ st) fun st => addLeaf_follows cfg _ st
        cases v with
        | group as =>
          simp only
          by_cases h3 : emptyGroup as = true
          · rw [if_pos h3, if_pos h3]; exact Follows.refl cfg.writer st st.started
          · rw [if_neg h3, if_neg h3]
            by_cases h4 : k = []
            · rw [if_pos h4, if_pos h4]; exact addAll_follows cfg ih as st
            · rw [if_neg h4, if_neg h4]
              refine Follows.bind (addKey_follows cfg _ st) fun st => ?_
              refine Follows.bind (write_follows cfg _ st) fun st => ?_
              refine Follows.bind ((addAll_follows cfg ih as _).start rfl) fun st' => ?_
              exact (write_follows cfg _ _).start rfl
        | _ => exact leaf _

theorem addAttributes_follows (as : List Attr) (st : St) :
    Follows cfg.writer st (addAttributes cfg.calm as st) (addAttributes cfg as st) :=
  addAll_follows cfg (addAttribute_follows cfg _) as st

theorem Handler.handle_follows (h : Handler) (w : Writer) (r : Record) :
    Follows w { out := [], started := false } (h.handle sure r) (h.handle w r) := by
  have e : h.cfg sure = (h.cfg w).calm := rfl
  have hw : (h.cfg w).writer = w := rfl
  unfold Handler.handle
  simp only [e]
  refine Follows.bind (by simpa [hw] using write_follows (h.cfg w) _ _) fun st => ?_
  refine Follows.bind (addAttributes_follows (h.cfg w) _ st) fun st => ?_
  refine Follows.bind ?_ fun st => ?_
  · unfold Handler.addPrefix
    split
    · refine Follows.bind (write_follows (h.cfg w) _ st) fun st => ?_
      refine Follows.bind (write_follows (h.cfg w) _ st) fun st => ?_
      split
      · exact Follows.refl w st false
      · exact Follows.refl w st st.started
    · exact Follows.refl w st st.started
  refine Follows.bind (addAttributes_follows (h.cfg w) _ st) fun st => ?_
  refine Follows.bind (write_follows (h.cfg w) _ st) fun st => ?_
  refine Follows.bind (write_follows (h.cfg w) _ st) fun st => ?_
  exact write_follows (h.cfg w) _ st

theorem H.handle_follows (h : H) (ctx : Flash.Ctx) (w : Writer) (r : Record) :
    Follows w { out := [], started := false } (h.handle ctx sure r) (h.handle ctx w r) := by
  induction h generalizing ctx with
  | plain h => exact h.handle_follows w r
  | group h n p ih =>
    simp only [H.handle]
    split
    · exact ih _
    · exact h.handle_follows w r

end Verif.Sloggy
