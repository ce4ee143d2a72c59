import Verif.Flash.Chain

/-
Lemmas: rendering into a buffer that already has content is rendering into an
empty buffer, with a separator in front if something was started.
-/

set_option linter.unusedSimpArgs false

namespace Verif.Flash
open Slog

/-- Put rendered text behind existing content. -/
def glue (st0 st : St) : St :=
  if st.buffer = [] then st0
  else ⟨st0.buffer ++ (if st0.started then [0x2C, 0x20] else []) ++ st.buffer, st.started⟩

/-- The same for outcomes. -/
def Out.glue (st0 : St) : Out → Out
  | .ok st => .ok (Flash.glue st0 st)
  | .err st m => .err (Flash.glue st0 st) m
  | .overflow => .overflow

/-- Nothing written means nothing started. -/
def Fresh (st : St) : Prop := st.buffer = [] → st.started = false

/-- The state of a new composer. -/
def st0 : St := ⟨[], false⟩

theorem glue_glue {a b c : St} (hb : Fresh b) : glue a (glue b c) = glue (glue a b) c := by
  obtain ⟨ab, as⟩ := a
  obtain ⟨bb, bs⟩ := b
  obtain ⟨cb, cs⟩ := c
  by_cases hc : cb = []
  · simp [glue, hc]
  · by_cases hbb : bb = []
    · have : bs = false := hb hbb
      simp [glue, hc, hbb, this]
    · simp [glue, hc, hbb]

theorem Out.glue_glue {a b : St} (hb : Fresh b) (o : Out) :
    (o.glue b).glue a = o.glue (Flash.glue a b) := by
  cases o <;> simp [Out.glue, Flash.glue_glue hb]

theorem fresh_glue {a b : St} (ha : Fresh a) : Fresh (glue a b) := by
  unfold glue
  split
  · exact ha
  · rename_i h
    intro h2
    simp at h2
    exact absurd h2.2.2 h

/-- A rendering function that only looks at what it adds. -/
def Shifts (f : St → Attr → Out) : Prop :=
  ∀ a, (∀ st, f st a = (f st0 a).glue st) ∧ (∀ st, f st0 a = .ok st → Fresh st)

theorem glue_st0 {st : St} (h : Fresh st) : glue st0 st = st := by
  obtain ⟨b, s⟩ := st
  unfold glue
  split
  · rename_i hb
    have := h hb
    simp at hb this
    simp [st0, hb, this]
  · simp [st0]

theorem addAll_shifts {f : St → Attr → Out} (hf : Shifts f) : ∀ as : List Attr,
    (∀ st, addAll f st as = (addAll f st0 as).glue st) ∧
    (∀ st, addAll f st0 as = .ok st → Fresh st) := by
  intro as
  induction as with
  | nil =>
    refine ⟨fun st => by simp [addAll, Out.glue, glue, st0], ?_⟩
    intro st h
    simp [addAll] at h
    subst h
    intro _; rfl
  | cons a as ih =>
    obtain ⟨h1, h2⟩ := hf a
    refine ⟨?_, ?_⟩
    · intro st
      rw [addAll, addAll, h1 st]
      cases h : f st0 a with
      | ok st1 =>
        show addAll f (glue st st1) as = (addAll f st1 as).glue st
        rw [ih.1, ih.1 st1, Out.glue_glue (h2 _ h)]
      | err st1 m => rfl
      | overflow => rfl
    · intro st h
      rw [addAll] at h
      cases h' : f st0 a with
      | ok st1 =>
        rw [h'] at h
        simp only at h
        rw [ih.1] at h
        cases h'' : addAll f st0 as with
        | ok st2 =>
          rw [h''] at h
          simp [Out.glue] at h
          subst h
          exact fresh_glue (h2 _ h')
        | err st2 m => rw [h''] at h; simp [Out.glue] at h
        | overflow => rw [h''] at h; simp [Out.glue] at h
      | err st1 m => rw [h'] at h; simp at h
      | overflow => rw [h'] at h; simp at h

/-- Append a text to the state reached. -/
def Out.before (b : Bytes) : Out → Out
  | .ok st => .ok ⟨b ++ st.buffer, st.started⟩
  | .err st m => .err ⟨b ++ st.buffer, st.started⟩ m
  | .overflow => .overflow

theorem addMarshaler_before (st : St) (r : Res) :
    st.addMarshaler r = (St.addMarshaler ⟨[], st.started⟩ r).before st.buffer := by
  cases r <;> simp [St.addMarshaler, Out.before, addString_eq, St.add]

theorem addAny_before (st : St) (a : AnyVal) :
    st.addAny a = (St.addAny ⟨[], st.started⟩ a).before st.buffer := by
  cases a with
  | nil => simp [St.addAny, Out.before, St.add]
  | obj o =>
    obtain ⟨_, s, e, j, t, m⟩ := o
    cases s <;> cases e <;> cases j <;> cases t <;> cases m <;>
      simp only [St.addAny] <;>
      first
        | exact addMarshaler_before _ _
        | simp [Out.before, addString_eq, St.add]

theorem addLeaf_before (cfg : Cfg) (fa : Bool) (st : St) (v : Value) :
    addLeaf cfg fa st v = (addLeaf cfg fa ⟨[], st.started⟩ v).before st.buffer := by
  unfold addLeaf
  split <;> first
    | exact addAny_before _ _
    | simp [Out.before, addString_eq, St.add, St.addTime]

theorem addLeaf_started {cfg : Cfg} {fa : Bool} {st st' : St} {v : Value}
    (h : addLeaf cfg fa st v = .ok st') : st'.buffer = [] → st.buffer = [] := by
  rw [addLeaf_before] at h
  cases h' : addLeaf cfg fa ⟨[], st.started⟩ v with
  | ok x => rw [h'] at h; simp [Out.before] at h; subst h; simp; intro h _; exact h
  | err x m => rw [h'] at h; simp [Out.before] at h
  | overflow => rw [h'] at h; simp [Out.before] at h

theorem sepKey_state (st : St) (k : Bytes) :
    st.addSeparator.addKey k =
      ⟨st.buffer ++ (if st.started then [0x2C, 0x20] else []) ++ keyText k, true⟩ := by
  obtain ⟨b, s⟩ := st
  cases s <;> simp [St.addSeparator, St.addKey, addString_eq, St.add, keyText]

theorem keyText_ne_nil (k : Bytes) : keyText k ≠ [] := by simp [keyText, strText]

theorem addAttribute_shifts (cfg : Cfg) (n : Nat) : Shifts (addAttribute cfg n) := by
  induction n with
  | zero =>
    intro a
    exact ⟨fun st => by simp [addAttribute, Out.glue], fun st h => by simp [addAttribute] at h⟩
  | succ n ih =>
    intro a
    simp only [addAttribute]
    split
    · refine ⟨fun st => by simp [Out.glue, glue, st0], ?_⟩
      intro st h; simp at h; subst h; intro _; rfl
    · split
      · rename_i as _ _
        split
        · refine ⟨fun st => by simp [Out.glue, glue, st0], ?_⟩
          intro st h; simp at h; subst h; intro _; rfl
        · split
          · exact addAll_shifts ih as
          · refine ⟨?_, ?_⟩
            · intro st
              simp only [sepKey_state, St.add]
              rw [(addAll_shifts ih as).1, (addAll_shifts ih as).1 ⟨_, false⟩]
              cases h : addAll (addAttribute cfg n) st0 as with
              | ok st1 =>
                simp only [Out.glue, glue, st0]
                obtain ⟨b1, s1⟩ := st1
                by_cases hb : b1 = [] <;> simp [hb, keyText_ne_nil]
              | err st1 m =>
                simp only [Out.glue, glue, st0]
                obtain ⟨b1, s1⟩ := st1
                by_cases hb : b1 = [] <;> simp [hb, keyText_ne_nil]
              | overflow => rfl
            · intro st h hb
              revert h
              cases addAll (addAttribute cfg n) { buffer := ((st0.addSeparator.addKey
                (prep cfg a).1.key).add [0x7B]).buffer, started := false } as with
              | ok st1 => simp only [Out.ok.injEq]; intro h; subst h; simp [St.add] at hb
              | err st1 m => intro h; cases h
              | overflow => intro h; cases h
      · refine ⟨?_, ?_⟩
        · intro st
          rw [sepKey_state, sepKey_state, addLeaf_before]
          rw [addLeaf_before cfg _ ⟨st0.buffer ++ _ ++ _, true⟩]
          simp only [st0]
          cases h : addLeaf cfg (prep cfg a).2 ⟨[], true⟩ (prep cfg a).1.value with
          | ok st1 =>
            simp [Out.before, Out.glue, glue, keyText_ne_nil]
          | err st1 m =>
            simp [Out.before, Out.glue, glue, keyText_ne_nil]
          | overflow => rfl
        · intro st h hb
          have := addLeaf_started h hb
          rw [sepKey_state] at this
          simp [keyText_ne_nil] at this

theorem addAll_append (f : St → Attr → Out) (st : St) (as bs : List Attr) :
    addAll f st (as ++ bs) = (addAll f st as).bind fun st => addAll f st bs := by
  induction as generalizing st with
  | nil => rfl
  | cons a as ih =>
    rw [List.cons_append, addAll, addAll]
    cases h : f st a with
    | ok st1 => exact ih st1
    | err st1 m => rfl
    | overflow => rfl

/-- Rendering that left a separator due and no open brace. -/
def Settled (st : St) : Prop := st.buffer = [] ∨ (st.started = true ∧ endsOpen st.buffer = false)

/-- Handling after `WithAttrs` continues exactly where rendering the attributes
into the line would be. -/
theorem addPrefix_settled (h : Handler) (st st1 : St) (hs : Settled st1) :
    ({ h with pfx := (glue ⟨h.pfx, h.pfx.length > 0 && !endsOpen h.pfx⟩ st1).buffer } :
      Handler).addPrefix st = glue (h.addPrefix st) st1 := by
  obtain ⟨b1, s1⟩ := st1
  by_cases hb : b1 = []
  · subst hb
    simp [glue]
  · have h2 : s1 = true ∧ endsOpen b1 = false := by
      rcases hs with h | h
      · exact absurd h hb
      · exact h
    have hl : 0 < b1.length := List.length_pos_iff.2 hb
    obtain ⟨rfl, h2⟩ := h2
    have e : ∀ x, endsOpen (x ++ b1) = false := fun x => by rw [endsOpen_append hb, h2]
    have e2 : ∀ x, endsOpen (x ++ 0x2C :: 0x20 :: b1) = false := fun x => by
      have := e (x ++ [0x2C, 0x20]); simpa using this
    obtain ⟨b, s⟩ := st
    by_cases hp : h.pfx = []
    · cases s <;> simp [glue, hb, Handler.addPrefix, hp, hl, h2, St.addSeparator, St.add]
    · have hp' : 0 < h.pfx.length := List.length_pos_iff.2 hp
      cases ho : endsOpen h.pfx <;> cases s <;>
        simp [glue, hb, Handler.addPrefix, hp, hp', ho, hl, e, e2, St.addSeparator, St.add,
          Nat.add_pos_left hp']

end Verif.Flash
