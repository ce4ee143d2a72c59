import Verif.Flash.Renders

/-
Lemmas about derived handlers: WithAttrs, WithGroup, Handle.
-/

set_option linter.unusedSimpArgs false

namespace Verif.Flash
open Slog LogTree

/-- `Handle` of a plain handler in terms of the built-in fields. -/
def Out.toLine (h : Handler) : Out → HOut
  | .ok st => .line (st.buffer ++ h.sfx ++ [0x7D, 0x0A])
  | .err _ m => .fail m
  | .overflow => .overflow

theorem handle_eq (h : Handler) (r : Record) :
    h.handle r = ((h.basics r).bind fun st => addAttributes h.cfg (h.addPrefix st) r.attrs).toLine h := by
  rw [Handler.handle]
  split
  · rename_i st e
    rw [e]
    simp only [Out.toLine]
    split
    · rfl
    · rename_i hl
      have : h.sfx = [] := by simpa using hl
      simp [this]
  · rename_i e; rw [e]; rfl
  · rename_i e; rw [e]; rfl

/-- `WithAttrs` in terms of rendering into an empty buffer. -/
theorem withAttrs_ok {h : Handler} {as : List Attr} {st : St}
    (hok : addAttributes h.cfg st0 as = .ok st) :
    h.withAttrs as = some { h with
      pfx := (glue ⟨h.pfx, h.pfx.length > 0 && !endsOpen h.pfx⟩ st).buffer } := by
  have := (addAll_shifts (addAttribute_shifts h.cfg h.cfg.env.stack) as).1
    ⟨h.pfx, h.pfx.length > 0 && !endsOpen h.pfx⟩
  rw [Handler.withAttrs]
  simp only [addAttributes] at *
  rw [this, hok]
  rfl

theorem handle_withAttrs {h : Handler} {as bs : List Attr} {r : Record} {st : St}
    (hok : addAttributes h.cfg st0 as = .ok st) (hs : Settled st) :
    ({ h with pfx := (glue ⟨h.pfx, h.pfx.length > 0 && !endsOpen h.pfx⟩ st).buffer } :
      Handler).handle { r with attrs := bs } = h.handle { r with attrs := as ++ bs } := by
  rw [handle_eq, handle_eq]
  have hb : ({ h with pfx := (glue ⟨h.pfx, h.pfx.length > 0 && !endsOpen h.pfx⟩ st).buffer } :
      Handler).basics { r with attrs := bs } = h.basics { r with attrs := as ++ bs } := rfl
  rw [hb]
  cases h.basics { r with attrs := as ++ bs } with
  | ok st1 =>
    simp only [Out.bind]
    rw [addPrefix_settled h st1 st hs]
    simp only [addAttributes]
    rw [addAll_append, (addAll_shifts (addAttribute_shifts h.cfg h.cfg.env.stack) as).1]
    simp only [addAttributes] at hok
    rw [hok]
    rfl
  | err st1 m => rfl
  | overflow => rfl

theorem renders_settled {cfg : Cfg} (hr : cfg.replace = none) {as : List Attr}
    (hc : ListRenders cfg.env as) (hd : listDepth as < cfg.env.stack) :
    ∃ st, addAttributes cfg st0 as = .ok st ∧ Settled st := by
  obtain ⟨ts, h1, h2, _⟩ := allTexts_renders hr hc hd
  exact ⟨_, addAttributes_eq h1 _, settled_texts h2⟩

/-- Two WithAttrs calls are one. -/
theorem withAttrs_withAttrs {h : Handler} {as bs : List Attr} {st : St}
    (hok : addAttributes h.cfg st0 as = .ok st) (hs : Settled st) :
    (h.withAttrs as).bind (·.withAttrs bs) = h.withAttrs (as ++ bs) := by
  rw [withAttrs_ok hok]
  simp only [Option.bind_some]
  rw [Handler.withAttrs, Handler.withAttrs]
  simp only [addAttributes]
  have key : (⟨(glue ⟨h.pfx, h.pfx.length > 0 && !endsOpen h.pfx⟩ st).buffer,
      (glue ⟨h.pfx, h.pfx.length > 0 && !endsOpen h.pfx⟩ st).buffer.length > 0 &&
        !endsOpen (glue ⟨h.pfx, h.pfx.length > 0 && !endsOpen h.pfx⟩ st).buffer⟩ : St) =
      glue ⟨h.pfx, h.pfx.length > 0 && !endsOpen h.pfx⟩ st := by
    unfold glue
    split
    · rfl
    · rename_i hne
      rcases hs with hs | hs
      · exact absurd hs hne
      · simp only [St.mk.injEq, true_and]
        rw [endsOpen_append hne, hs.2, hs.1]
        have : 0 < st.buffer.length := List.length_pos_iff.2 hne
        simp
        omega
  have key2 := addAll_append (addAttribute h.cfg h.cfg.env.stack)
    ⟨h.pfx, h.pfx.length > 0 && !endsOpen h.pfx⟩ as bs
  rw [(addAll_shifts (addAttribute_shifts h.cfg h.cfg.env.stack) as).1] at key2
  simp only [addAttributes] at hok
  rw [hok] at key2
  simp only [Out.glue, Out.bind] at key2
  rw [key2]
  simp only [Handler.cfg] at key ⊢
  rw [key]

/-! ### Reachable handlers -/

/-- The suffix of every derived handler consists of closing braces. -/
theorem derive_braces {ops : List Op} : ∀ {h h' : H}, h.core.Braces → h.derive ops = some h' →
    h'.core.Braces := by
  induction ops with
  | nil => intro h h' hb e; simp [H.derive] at e; subst e; exact hb
  | cons op ops ih =>
    intro h h' hb e
    simp only [H.derive, Option.bind_eq_some_iff] at e
    obtain ⟨h1, e1, e2⟩ := e
    refine ih ?_ e2
    cases op with
    | attrs as =>
      simp only [H.step, H.withAttrs, Option.map_eq_some_iff] at e1
      obtain ⟨h2, e3, rfl⟩ := e1
      simp only [Handler.withAttrs] at e3
      split at e3 <;> simp at e3 <;> (subst e3; exact hb)
    | group n =>
      simp only [H.step, Option.some.injEq] at e1
      exact TStep.braces (op := .group n) e1.symm hb

/-- Every derived handler keeps environment, options and extras. -/
theorem derive_same {h0 : Handler} {ops : List Op} : ∀ {h h' : H},
    (h.core.env = h0.env ∧ h.core.options = h0.options ∧ h.core.extras = h0.extras) →
    h.derive ops = some h' →
    (h'.core.env = h0.env ∧ h'.core.options = h0.options ∧ h'.core.extras = h0.extras) := by
  induction ops with
  | nil => intro h h' hb e; simp [H.derive] at e; subst e; exact hb
  | cons op ops ih =>
    intro h h' hb e
    simp only [H.derive, Option.bind_eq_some_iff] at e
    obtain ⟨h1, e1, e2⟩ := e
    refine ih ?_ e2
    cases op with
    | attrs as =>
      simp only [H.step, H.withAttrs, Option.map_eq_some_iff] at e1
      obtain ⟨h2, e3, rfl⟩ := e1
      simp only [Handler.withAttrs] at e3
      split at e3 <;> simp at e3 <;> (subst e3; exact hb)
    | group n =>
      simp only [H.step, Option.some.injEq] at e1
      subst e1
      unfold H.withGroup
      split <;> exact hb

/-! ### WithGroup -/

theorem basics_indep {h1 h2 : Handler} (hr : h1.options.replace = none)
    (he : h1.env = h2.env) (ho : h1.options = h2.options) (hx : h1.extras = h2.extras)
    (r1 r2 : Record) (ht : r1.time = r2.time) (hl : r1.level = r2.level)
    (hm : r1.message = r2.message) (hp : r1.pc = r2.pc) : h1.basics r1 = h2.basics r2 := by
  have hr2 : h2.options.replace = none := ho ▸ hr
  simp only [Handler.basics, ht, hl, hm, hp, addBasic, Handler.cfg, hr, hr2, he, hx, ho, St.addTime]

theorem addAny_source (st : St) (env : Env) (pc : Nat) :
    ∃ st', st.addAny (.obj (sourceObj env pc)) = .ok st' := ⟨_, rfl⟩

theorem basics_ok (h : Handler) (hr : h.options.replace = none) (r : Record) :
    ∃ st, h.basics r = .ok st := by
  have direct : ∀ (st : St) (k : Bytes) (f : St → Out) (v : Value), (∀ st, ∃ st', f st = .ok st') →
      ∃ st', addBasic h.cfg st k f v = .ok st' := by
    intro st k f v hf
    have : h.cfg.replace = none := hr
    simp only [addBasic, this]
    exact hf _
  have bind : ∀ (o : Out) (f : St → Out), (∃ st, o = .ok st) → (∀ st, ∃ st', f st = .ok st') →
      ∃ st', o.bind f = .ok st' := by
    rintro o f ⟨st, rfl⟩ hf
    exact hf st
  rw [Handler.basics]
  apply bind
  · cases r.time with
    | none => exact ⟨_, rfl⟩
    | some t => exact direct _ _ _ _ fun st => ⟨_, rfl⟩
  intro st
  apply bind
  · exact direct _ _ _ _ fun st => ⟨_, rfl⟩
  intro st
  apply bind
  · exact direct _ _ _ _ fun st => ⟨_, rfl⟩
  intro st
  split
  · exact direct _ _ _ _ fun st => addAny_source st _ _
  · exact ⟨_, rfl⟩

/-- Member texts do not depend on the depth still available. -/
theorem attrTexts_mono (cfg : Cfg) : ∀ m a ts, attrTexts cfg m a = some ts →
    attrTexts cfg (m + 1) a = some ts := by
  intro m
  induction m with
  | zero => intro a ts h; simp [attrTexts] at h
  | succ m ih =>
    have hall : ∀ as ts, allTexts (attrTexts cfg m) as = some ts →
        allTexts (attrTexts cfg (m + 1)) as = some ts := by
      intro as
      induction as with
      | nil => intro ts h; exact h
      | cons a as iha =>
        intro ts h
        simp only [allTexts] at h ⊢
        split at h
        · rename_i x y hx hy
          rw [ih a x hx, iha y hy]; exact h
        · simp at h
    intro a ts hh
    rw [attrTexts.eq_def] at hh ⊢
    simp only at hh ⊢
    generalize prep cfg a = p at *
    obtain ⟨b, fa⟩ := p
    simp only at hh ⊢
    by_cases hc : b.isEmpty = true
    · simpa [hc] using hh
    · simp only [hc, Bool.false_eq_true, if_false] at hh ⊢
      obtain ⟨k, v⟩ := b
      simp only [Attr.value_mk, Attr.key_mk] at hh ⊢
      cases fa with
      | true => simpa using hh
      | false =>
        cases v with
        | group as =>
          simp only at hh ⊢
          by_cases hc2 : emptyGroup as = true
          · simpa [hc2] using hh
          · simp only [hc2, Bool.false_eq_true, if_false] at hh ⊢
            split at hh
            · simp at hh
            · rename_i x hx
              rw [hall as x hx]
              exact hh
        | _ => simpa using hh

theorem allTexts_mono (cfg : Cfg) (m : Nat) : ∀ as ts, allTexts (attrTexts cfg m) as = some ts →
    allTexts (attrTexts cfg (m + 1)) as = some ts := by
  intro as
  induction as with
  | nil => intro ts h; exact h
  | cons a as iha =>
    intro ts h
    simp only [allTexts] at h ⊢
    split at h
    · rename_i x y hx hy
      rw [attrTexts_mono cfg m a x hx, iha y hy]; exact h
    · simp at h

/-- Logging into a group is logging one group attribute, if the name needs no
escaping and the group does not end up empty. -/
theorem handle_openGroup {h : Handler} (hb : h.Braces) (hr : h.options.replace = none) (g : Bytes)
    (hg : g ≠ []) (hesc : addEscaped g = g) {bs : List Attr} (hbs : ListRenders h.env bs)
    (hne : emptyGroup bs = false) (hd : listDepth bs + 1 < h.env.stack) (r : Record) :
    (h.openGroup g).handle { r with attrs := bs } = h.handle { r with attrs := [.grp g bs] } := by
  obtain ⟨st, hst⟩ := basics_ok h hr { r with attrs := [.grp g bs] }
  have hst' : (h.openGroup g).basics { r with attrs := bs } = .ok st := by
    rw [← hst]
    exact basics_indep (h1 := h.openGroup g) (h2 := h) hr rfl rfl rfl { r with attrs := bs }
      { r with attrs := [.grp g bs] } rfl rfl rfl rfl
  obtain ⟨ts, t1, t2, t3⟩ := allTexts_renders (cfg := h.cfg) hr hbs (n := h.env.stack) (by omega)
  have t1' : allTexts (attrTexts (h.openGroup g).cfg (h.openGroup g).cfg.env.stack) bs = some ts := by
    rw [← t1]
    congr 1
    exact funext fun a => attrTexts_indep (c1 := (h.openGroup g).cfg) (c2 := h.cfg) hr hr rfl rfl _ a
  obtain ⟨n, hn⟩ : ∃ n, h.env.stack = n + 1 := ⟨h.env.stack - 1, by omega⟩
  obtain ⟨ts', u1, _, u3⟩ := allTexts_renders (cfg := h.cfg) hr hbs (n := n) (by omega)
  have hmono : ts' = ts := by
    have := allTexts_mono h.cfg n bs ts' u1
    rw [← hn] at this
    have t1'' : allTexts (attrTexts h.cfg h.env.stack) bs = some ts := t1
    rw [this] at t1''
    simpa using t1''
  subst hmono
  have hts : ts' ≠ [] := fun e => by rw [u3.2 e] at hne; cases hne
  have hgrp : allTexts (attrTexts h.cfg h.cfg.env.stack) [Attr.grp g bs] =
      some [rawKey g ++ objText ts'] := by
    have hem : (Attr.mk g (.group bs)).isEmpty = false := by cases g <;> rfl
    have hlv : (Value.group bs).isLogValuer = false := rfl
    have e : h.cfg.env.stack = n + 1 := hn
    have hrep : h.cfg.replace = none := hr
    have key : keyText g = rawKey g := by simp [keyText, strText, rawKey, hesc]
    simp only [allTexts, e, Attr.grp, attrTexts, prep, hrep, hlv, hem, Bool.false_eq_true, if_false,
      Attr.value_mk, Attr.key_mk, hne, u1, hg]
    simp [hts, key, objText]
  rw [handle_texts hst' t1', handle_texts hst hgrp, finish_openGroup h hb]

end Verif.Flash
