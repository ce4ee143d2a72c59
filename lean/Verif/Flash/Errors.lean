import Verif.Flash.Derive
import Verif.Flash.Denote

/-
Lemmas: when rendering stops with an error (no ReplaceAttr).
-/

set_option linter.unusedSimpArgs false

namespace Verif.Flash
open Slog LogTree

/-- The outcome is an error exactly if there is one to report. -/
def Out.Says (o : Out) (e : Option Bytes) : Prop :=
  match e with
  | none => ∃ st, o = .ok st
  | some m => ∃ st, o = .err st m

theorem addMarshaler_says (st : St) (r : Res) : (st.addMarshaler r).Says (resError r) := by
  cases r <;> exact ⟨_, rfl⟩

theorem addAny_says (st : St) (a : AnyVal) : (st.addAny a).Says (anyError a) := by
  cases a with
  | nil => exact ⟨_, rfl⟩
  | obj o =>
    obtain ⟨_, s, e, j, x, m⟩ := o
    cases s with
    | some s => exact ⟨_, rfl⟩
    | none =>
      cases e with
      | some e => exact ⟨_, rfl⟩
      | none =>
        cases j with
        | some r => exact addMarshaler_says st r
        | none =>
          cases x with
          | some r => exact addMarshaler_says st r
          | none => cases m <;> exact ⟨_, rfl⟩

mutual
theorem attrError_empty (env : Env) : ∀ a : Attr, emptyMember a = true → attrError env a = none
  | .mk k v => by
    intro h
    simp only [emptyMember, Bool.or_eq_true] at h
    simp only [attrError]
    rcases h with h | h
    · rw [isEmpty_iff] at h
      simp only [emptyAttr, Attr.mk.injEq] at h
      rw [h.2]; rfl
    · exact valError_empty env k v h
theorem valError_empty (env : Env) (k : Bytes) : ∀ v : Value, emptyValue v = true → valError env k v = none
  | .group as => by
    intro h
    simp only [emptyValue] at h
    simp only [valError]
    exact listError_empty env as h
  | .any _ => by intro h; simp [emptyValue] at h
  | .bool _ => by intro h; simp [emptyValue] at h
  | .duration _ => by intro h; simp [emptyValue] at h
  | .float64 _ => by intro h; simp [emptyValue] at h
  | .int64 _ => by intro h; simp [emptyValue] at h
  | .string _ => by intro h; simp [emptyValue] at h
  | .time _ => by intro h; simp [emptyValue] at h
  | .uint64 _ => by intro h; simp [emptyValue] at h
  | .logValuer _ _ => by intro h; simp [emptyValue] at h
theorem listError_empty (env : Env) : ∀ as : List Attr, emptyGroup as = true → listError env as = none
  | [] => fun _ => rfl
  | a :: as => by
    intro h
    simp only [emptyGroup, Bool.and_eq_true] at h
    simp only [listError, attrError_empty env a h.1, listError_empty env as h.2, Option.or]
end

theorem addAll_says {cfg : Cfg} {n : Nat}
    (ih : ∀ a st, attrDepth a < n → (addAttribute cfg n st a).Says (attrError cfg.env a)) :
    ∀ as st, listDepth as < n → (addAll (addAttribute cfg n) st as).Says (listError cfg.env as) := by
  intro as
  induction as with
  | nil => intro st _; exact ⟨st, rfl⟩
  | cons a as iha =>
    intro st hd
    simp only [listDepth] at hd
    have h1 := ih a st (by omega)
    simp only [addAll, listError]
    cases he : attrError cfg.env a with
    | none =>
      rw [he] at h1
      obtain ⟨st', h1⟩ := h1
      rw [h1]
      simp only [Option.none_or]
      exact iha st' (by omega)
    | some m =>
      rw [he] at h1
      obtain ⟨st', h1⟩ := h1
      rw [h1]
      exact ⟨st', rfl⟩

theorem addAttribute_says {cfg : Cfg} (hr : cfg.replace = none) (n : Nat) : ∀ a st,
    attrDepth a < n → (addAttribute cfg n st a).Says (attrError cfg.env a) := by
  induction n with
  | zero => intro a st h; omega
  | succ n ih =>
    intro a st hd
    obtain ⟨k, v⟩ := a
    have leaf : v.isLogValuer = false → v.isGroup = false →
        (∀ st, (addLeaf cfg false st v).Says (valError cfg.env k v)) →
        (addAttribute cfg (n + 1) st (.mk k v)).Says (attrError cfg.env (.mk k v)) := by
      intro h1 h2 h3
      simp only [attrError]
      by_cases he : (Attr.mk k v).isEmpty = true
      · have e : addAttribute cfg (n + 1) st (.mk k v) = .ok st := by
          simp [addAttribute, prep, hr, h1, he]
        rw [e]
        rw [isEmpty_iff] at he
        simp only [emptyAttr, Attr.mk.injEq] at he
        rw [he.2]
        exact ⟨_, rfl⟩
      · have e : addAttribute cfg (n + 1) st (.mk k v) =
            addLeaf cfg false (st.addSeparator.addKey k) v := by
          simp only [addAttribute, prep, hr, h1, he, Bool.false_eq_true, if_false, Attr.key_mk,
            Attr.value_mk]
          cases v <;> simp_all [Value.isGroup]
        rw [e]
        exact h3 _
    match v with
    | .group as =>
      simp only [attrDepth, valDepth] at hd
      have hlv : (Value.group as).isLogValuer = false := rfl
      have hem : (Attr.mk k (.group as)).isEmpty = false := by cases k <;> rfl
      simp only [attrError, valError]
      by_cases hg : emptyGroup as = true
      · rw [listError_empty _ _ hg]
        refine ⟨st, ?_⟩
        simp [addAttribute, prep, hr, hlv, hem, hg]
      · by_cases hke : k = []
        · subst hke
          have e : addAttribute cfg (n + 1) st (.mk [] (.group as)) =
              addAll (addAttribute cfg n) st as := by
            simp [addAttribute, prep, hr, hlv, hem, hg]
          rw [e]
          exact addAll_says ih as st (by omega)
        · simp only [addAttribute, prep, hr, hlv, hem, hg, hke, Bool.false_eq_true, if_false,
            Attr.key_mk, Attr.value_mk]
          have := addAll_says ih as { (st.addSeparator.addKey k).add [0x7B] with started := false }
            (by omega)
          cases he : listError cfg.env as with
          | none =>
            rw [he] at this
            obtain ⟨st', this⟩ := this
            rw [this]
            exact ⟨_, rfl⟩
          | some m =>
            rw [he] at this
            obtain ⟨st', this⟩ := this
            rw [this]
            exact ⟨_, rfl⟩
    | .logValuer o r =>
      have hlv : (Value.logValuer o r).isLogValuer = true := rfl
      have hres : (Value.logValuer o r).resolve = r.resolve := by simp [Value.resolve]
      simp only [attrError, valError]
      by_cases hem : (Attr.mk k r.resolve).isEmpty = true
      · rw [if_pos hem]
        exact ⟨st, by simp [addAttribute, prep, hr, hlv, hres, hem]⟩
      · rw [if_neg hem]
        have e : addAttribute cfg (n + 1) st (.mk k (.logValuer o r)) =
            (st.addSeparator.addKey k).addAny (r.resolve.anyOf cfg.env) := by
          simp only [addAttribute, prep, hr, hlv, hres, hem, if_true, if_false, Bool.false_eq_true,
            Attr.key_mk, Attr.value_mk, addLeaf]
        rw [e]
        exact addAny_says _ _
    | .any a => exact leaf rfl rfl fun st => addAny_says st a
    | .bool true => exact leaf rfl rfl fun st => ⟨_, rfl⟩
    | .bool false => exact leaf rfl rfl fun st => ⟨_, rfl⟩
    | .duration a => exact leaf rfl rfl fun st => ⟨_, rfl⟩
    | .float64 a => exact leaf rfl rfl fun st => ⟨_, rfl⟩
    | .int64 a => exact leaf rfl rfl fun st => ⟨_, rfl⟩
    | .string a => exact leaf rfl rfl fun st => ⟨_, rfl⟩
    | .time a => exact leaf rfl rfl fun st => ⟨_, rfl⟩
    | .uint64 a => exact leaf rfl rfl fun st => ⟨_, rfl⟩

/-- `Handle` of a plain handler fails exactly if the record has an error to report. -/
theorem handle_says {h : Handler} (hr : h.options.replace = none) (r : Record)
    (hd : listDepth r.attrs < h.env.stack) :
    match listError h.env r.attrs with
    | none => ∃ b, h.handle r = .line b
    | some m => h.handle r = .fail m := by
  obtain ⟨st, hb⟩ := basics_ok h hr r
  have := addAll_says (cfg := h.cfg) (n := h.env.stack) (addAttribute_says (cfg := h.cfg) hr h.env.stack)
    r.attrs (h.addPrefix st) hd
  rw [handle_eq, hb]
  have e : h.cfg.env = h.env := rfl
  rw [e] at this
  simp only [Out.bind, addAttributes, e]
  split
  · rename_i he
    rw [he] at this
    obtain ⟨st', this⟩ := this
    rw [this]
    exact ⟨_, rfl⟩
  · rename_i m he
    rw [he] at this
    obtain ⟨st', this⟩ := this
    rw [this]
    rfl

/-- All handlers up the parent chain share environment, options and extras. -/
def H.Uniform (h0 : Handler) : H → Prop
  | .plain h => h.env = h0.env ∧ h.options = h0.options ∧ h.extras = h0.extras
  | .group h _ p => (h.env = h0.env ∧ h.options = h0.options ∧ h.extras = h0.extras) ∧ p.Uniform h0

theorem H.Uniform.core {h0 : Handler} {h : H} (hu : h.Uniform h0) :
    h.core.env = h0.env ∧ h.core.options = h0.options ∧ h.core.extras = h0.extras := by
  cases h
  · exact hu
  · exact hu.1

theorem derive_uniform {h0 : Handler} {ops : List Op} : ∀ {h h' : H}, h.Uniform h0 →
    h.derive ops = some h' → h'.Uniform h0 := by
  induction ops with
  | nil => intro h h' hb e; simp [H.derive] at e; subst e; exact hb
  | cons op ops ih =>
    intro h h' hb e
    simp only [H.derive, Option.bind_eq_some_iff] at e
    obtain ⟨h1, e1, e2⟩ := e
    refine ih ?_ e2
    cases op with
    | attrs as =>
      simp only [H.step, H.withAttrs, Option.map_eq_some_iff] at e1
      obtain ⟨h2, e3, rfl⟩ := e1
      simp only [Handler.withAttrs] at e3
      split at e3 <;> simp at e3 <;> (subst e3; exact hb.core)
    | group n =>
      simp only [H.step, Option.some.injEq] at e1
      subst e1
      unfold H.withGroup
      split
      · exact hb.core
      · exact ⟨hb.core, hb⟩

/-- The same for any handler, in any context. -/
theorem H.handle_says {h0 : Handler} (hr : h0.options.replace = none) : ∀ {h : H}, h.Uniform h0 →
    ∀ (ctx : Ctx) (r : Record), listDepth r.attrs < h0.env.stack →
    match listError h0.env r.attrs with
    | none => ∃ b, h.handle ctx r = .line b
    | some m => h.handle ctx r = .fail m := by
  intro h
  induction h with
  | plain h =>
    intro hu ctx r hd
    have := Flash.handle_says (h := h) (by rw [hu.2.1]; exact hr) r (by rw [hu.1]; exact hd)
    rw [hu.1] at this
    exact this
  | group h n p ih =>
    intro hu ctx r hd
    rw [H.handle]
    by_cases hsk : skipGroup ctx r.attrs = true
    · simp only [hsk, if_true]
      exact ih hu.2 _ r hd
    · simp only [hsk, Bool.false_eq_true, if_false]
      have := Flash.handle_says (h := h) (by rw [hu.1.2.1]; exact hr) r (by rw [hu.1.1]; exact hd)
      rw [hu.1.1] at this
      exact this

end Verif.Flash
