import Verif.Sloggy.Handler
import Verif.Flash.Render

/-
Lemmas: what the sloggy composer writes to a writer that does not fail, as a
list of member texts joined by separators.
-/

set_option linter.unusedSimpArgs false

namespace Verif.Sloggy
open Slog
open Flash (sepText sepText_append objText allTexts)

/-- Text of a key with its colon. -/
def keyText (env : Env) (k : Bytes) : Bytes := quote env.isPrint k ++ [0x3A, 0x20]

/-- Text of a marshaler result. -/
def resText (env : Env) : Res → Bytes
  | .ok t => quote env.isPrint t
  | .error e => quote env.isPrint (b!"!ERROR:" ++ e)

/-- Text written by `addAny`, if there is no error. -/
def anyText (env : Env) : AnyVal → Option Bytes
  | .nil => some b!"null"
  | .obj o =>
    match o.net with
    | some s => some (quote env.isPrint s)
    | none =>
    match o.error with
    | some s => some (quote env.isPrint s)
    | none =>
    match o.stringer with
    | some s => some (quote env.isPrint s)
    | none =>
    match o.jsonM with
    | some r => some (resText env r)
    | none =>
    match o.textM with
    | some r => some (resText env r)
    | none =>
    match o.marshal with
    | .ok b => some b
    | .error _ => none

/-- Text written by the value switch, if there is no error. -/
def leafText (env : Env) : Value → Option Bytes
  | .bool true => some b!"true"
  | .bool false => some b!"false"
  | .duration d => some (decInt d)
  | .float64 f => some f.text
  | .int64 i => some (decInt i)
  | .string s => some (quote env.isPrint s)
  | .time t => some (quote env.isPrint (env.formatTime timeLayout t))
  | .uint64 n => some (decNat n)
  | v => anyText env (v.anyOf env)

/-- The member texts written for an attribute; `none` if there is an error. -/
def attrTexts (cfg : Cfg) : Nat → Attr → Option (List Bytes)
  | 0, _ => none
  | n + 1, attr =>
    if attr.isEmpty then some []
    else if (prep cfg attr).1.isEmpty then some []
    else match (prep cfg attr).2 with
      | .group as =>
        if emptyGroup as then some []
        else match allTexts (attrTexts cfg n) as with
          | none => none
          | some xs =>
            if (prep cfg attr).1.key = [] then some xs
            else some [keyText cfg.env (prep cfg attr).1.key ++ objText xs]
      | v => (leafText cfg.env v).map fun t => [keyText cfg.env (prep cfg attr).1.key ++ t]

/-- Outcome: the member texts `ts` were written after `st`, with separators. -/
def Adds (st : St) (ts : List Bytes) (o : Out) : Prop :=
  ∃ cs, o = .ok ⟨st.out ++ cs, st.started || !ts.isEmpty⟩ ∧ cs.flatten = sepText st.started ts

/-- Outcome: the text `t` was written after `st`. -/
def Puts (st : St) (t : Bytes) (o : Out) : Prop :=
  ∃ cs, o = .ok ⟨st.out ++ cs, st.started⟩ ∧ cs.flatten = t

variable {cfg : Cfg}

theorem write_puts (hw : cfg.writer = sure) (b : Bytes) (st : St) : Puts st b (write cfg b st) :=
  ⟨[b], by simp [write, hw, sure], by simp⟩

theorem Puts.bind {st : St} {t u : Bytes} {o : Out} {f : St → Out} (h : Puts st t o)
    (hf : ∀ st', st'.started = st.started → Puts st' u (f st')) : Puts st (t ++ u) (o.bind f) := by
  obtain ⟨cs, rfl, rfl⟩ := h
  obtain ⟨ds, e, rfl⟩ := hf ⟨st.out ++ cs, st.started⟩ rfl
  exact ⟨cs ++ ds, by simp [Out.bind, e], by simp⟩

theorem addString_puts (hw : cfg.writer = sure) (s : Bytes) (st : St) :
    Puts st (quote cfg.env.isPrint s) (addString cfg s st) := write_puts hw _ _

theorem addMarshaler_puts (hw : cfg.writer = sure) (r : Res) (st : St) :
    Puts st (resText cfg.env r) (addMarshaler cfg r st) := by
  cases r <;> exact addString_puts hw _ _

theorem addAny_puts (hw : cfg.writer = sure) {a : AnyVal} {t : Bytes}
    (h : anyText cfg.env a = some t) (st : St) : Puts st t (addAny cfg a st) := by
  cases a with
  | nil => simp [anyText] at h; subst h; exact write_puts hw _ _
  | obj o =>
    obtain ⟨nt, s, e, j, x, m⟩ := o
    cases nt with
    | some s => simp [anyText] at h; subst h; exact addString_puts hw _ _
    | none =>
    cases e with
    | some s => simp [anyText] at h; subst h; exact addString_puts hw _ _
    | none =>
    cases s with
    | some s => simp [anyText] at h; subst h; exact addString_puts hw _ _
    | none =>
    cases j with
    | some s => simp [anyText] at h; subst h; exact addMarshaler_puts hw _ _
    | none =>
    cases x with
    | some s => simp [anyText] at h; subst h; exact addMarshaler_puts hw _ _
    | none =>
    cases m with
    | ok b => simp [anyText] at h; subst h; exact write_puts hw _ _
    | error _ => simp [anyText] at h

theorem addLeaf_puts (hw : cfg.writer = sure) {v : Value} {t : Bytes}
    (h : leafText cfg.env v = some t) (st : St) : Puts st t (addLeaf cfg v st) := by
  unfold leafText at h
  split at h
  all_goals first
    | (simp only [Option.some.injEq] at h; subst h
       first | exact write_puts hw _ _ | exact addString_puts hw _ _)
    | skip
  unfold addLeaf
  split <;> first | exact addAny_puts hw h st | simp_all

theorem Puts.cast {st : St} {t u : Bytes} {o : Out} (h : Puts st t o) (e : t = u) : Puts st u o :=
  e ▸ h

/-- Separator, key and a value text make one member text. -/
theorem addKey_adds (hw : cfg.writer = sure) (k t : Bytes) (st : St) {f : St → Out}
    (hf : ∀ st', st'.started = true → Puts st' t (f st')) :
    Adds st [keyText cfg.env k ++ t] ((addKey cfg k st).bind f) := by
  have tail : ∀ st', st'.started = true → Puts st' (keyText cfg.env k ++ t)
      (((addString cfg k st').bind fun st => write cfg [0x3A, 0x20] st).bind f) := by
    intro st' h'
    refine Puts.bind (t := keyText cfg.env k) ?_ fun st'' e => hf st'' (e.trans h')
    exact Puts.bind (addString_puts hw k st') fun st'' _ => write_puts hw _ _
  obtain ⟨out, s⟩ := st
  cases s with
  | false =>
    obtain ⟨cs, e, hc⟩ := tail ⟨out, true⟩ rfl
    exact ⟨cs, by simpa [addKey, Out.bind] using e, by simpa [sepText] using hc⟩
  | true =>
    obtain ⟨cs, e, hc⟩ := tail ⟨out ++ [[0x2C, 0x20]], true⟩ rfl
    refine ⟨[[0x2C, 0x20]] ++ cs, ?_, by simp [sepText, hc]⟩
    simp only [addKey, if_true, write, hw, sure, Out.bind] at e ⊢
    rw [e]
    simp

theorem addAll_adds {f : St → Attr → Out} {g : Attr → Option (List Bytes)}
    (hf : ∀ st a ts, g a = some ts → Adds st ts (f st a)) :
    ∀ (as : List Attr) (st : St) (ts : List Bytes), allTexts g as = some ts →
      Adds st ts (addAll f st as) := by
  intro as
  induction as with
  | nil =>
    intro st ts h; simp [allTexts] at h; subst h
    exact ⟨[], by simp [addAll], by simp [sepText]⟩
  | cons a as ih =>
    intro st ts h
    simp only [allTexts] at h
    split at h
    · rename_i x y hx hy
      simp at h; subst h
      obtain ⟨cs, e, hc⟩ := hf st a x hx
      obtain ⟨ds, e2, hd⟩ := ih ⟨st.out ++ cs, st.started || !x.isEmpty⟩ y hy
      refine ⟨cs ++ ds, ?_, ?_⟩
      · simp only [addAll, e, Out.bind, e2]
        cases x <;> cases y <;> simp
      · simp [hc, hd, sepText_append]
    · simp at h

/-- If an attribute has member texts, `addAttribute` writes them. -/
theorem addAttribute_adds (hw : cfg.writer = sure) (n : Nat) : ∀ (st : St) (a : Attr)
    (ts : List Bytes), attrTexts cfg n a = some ts → Adds st ts (addAttribute cfg n st a) := by
  induction n with
  | zero => intro st a ts h; simp [attrTexts] at h
  | succ n ih =>
    intro st a ts h
    have none : Adds st [] (.ok st) := ⟨[], by simp, by simp [sepText]⟩
    simp only [attrTexts, addAttribute] at *
    by_cases h1 : a.isEmpty = true
    · rw [if_pos h1] at h; rw [if_pos h1]
      simp at h; subst h; exact none
    · rw [if_neg h1] at h; rw [if_neg h1]
      by_cases h2 : (prep cfg a).1.isEmpty = true
      · rw [if_pos h2] at h; rw [if_pos h2]
        simp at h; subst h; exact none
      · rw [if_neg h2] at h; rw [if_neg h2]
        split at h
        · rename_i as hv
          rw [hv]
          simp only
          by_cases h3 : emptyGroup as = true
          · rw [if_pos h3] at h; rw [if_pos h3]
            simp at h; subst h; exact none
          · rw [if_neg h3] at h; rw [if_neg h3]
            split at h
            · simp at h
            · rename_i xs hxs
              by_cases h4 : (prep cfg a).1.key = []
              · rw [if_pos h4] at h; rw [if_pos h4]
                simp at h; subst h
                exact addAll_adds ih as st _ hxs
              · rw [if_neg h4] at h; rw [if_neg h4]
                simp at h; subst h
                refine addKey_adds hw _ _ st fun st' hs => ?_
                have : objText xs = [0x7B] ++ (sepText false xs ++ [0x7D]) := by simp [objText]
                rw [this]
                refine Puts.bind (write_puts hw _ _) fun st2 hs2 => ?_
                obtain ⟨cs, e, hc⟩ := addAll_adds ih as { st2 with started := false } _ hxs
                rw [e]
                simp only [Out.bind]
                obtain ⟨ds, e2, hd⟩ := write_puts hw [0x7D]
                  (⟨st2.out ++ cs, st2.started⟩ : St)
                exact ⟨cs ++ ds, by rw [e2]; simp, by simp [hc, hd]⟩
        · rename_i hng
          simp only [Option.map_eq_some_iff] at h
          obtain ⟨t, ht, rfl⟩ := h
          split
          · simp_all
          · exact addKey_adds hw _ _ st fun st' _ => addLeaf_puts hw ht st'

theorem addAttributes_adds (hw : cfg.writer = sure) {as : List Attr} {ts : List Bytes}
    (h : allTexts (attrTexts cfg cfg.env.stack) as = some ts) (st : St) :
    Adds st ts (addAttributes cfg as st) :=
  addAll_adds (addAttribute_adds hw _) as st ts h

end Verif.Sloggy
