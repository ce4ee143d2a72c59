import Verif.Sloggy.Render
import Verif.Sloggy.QuoteLemmas
import Verif.Spec.SloggyTree
import Verif.Flash.Content
import Verif.Flash.Replace

/-
Lemmas: the line of a derived sloggy handler denotes the specified object, with
or without a replacement function. The lemmas about prefixes and suffixes are
those of flash: a sloggy handler is looked at as a flash handler with the same
prefix and suffix.
-/

set_option linter.unusedSimpArgs false

namespace Verif.Sloggy
open Slog Json LogTree
open Flash (sepText objText allTexts MemberText objText_text strBody_text num_text forall2_append
  shut_of_members rawKey_member emptyGroup_hasLeaf endsOpen skipGroup TOp TStep Derived chain
  tGroupsOnly firstNonEmpty_none chain_groupsOnly finish_core finish_root)

/-! ### Texts -/

theorem quote_text {p : Nat → Bool} {s : Bytes} (h : Quotable p s) :
    LineText (quote p s) (.str s) := strBody_text ((quoteBody_iff p s).1.2 h)

set_option maxRecDepth 100000 in
theorem quoteAscii_letter (a : UInt8) : 0x61 ≤ a ∧ a ≤ 0x7A → a < 0x80 ∧ quoteAscii a = [a] := by
  revert a; apply forall_byte; decide +kernel

theorem quoteBody_letters (p : Nat → Bool) : ∀ {k : Bytes}, Letters k → quoteBody p k = k
  | [], _ => by simp [quoteBody]
  | a :: k, h => by
    obtain ⟨h1, h2⟩ := quoteAscii_letter a (h a (by simp))
    rw [quoteBody.eq_def]
    dsimp only
    rw [if_pos h1, h2, quoteBody_letters p fun b hb => h b (by simp [hb])]
    rfl

theorem keyText_member {env : Env} {k b : Bytes} {t : Tree} (hk : Quotable env.isPrint k)
    (h : LineText b t) : MemberText (keyText env k ++ b) (k, t) :=
  ⟨quoteBody env.isPrint k, b, by simp [keyText, quote], ⟨(quoteBody_iff _ k).1.2 hk, quoteBody_letters _⟩, h⟩

theorem resText_text {env : Env} {r : Res} (h : Quotable env.isPrint (sResText r)) :
    LineText (resText env r) (.str (sResText r)) := by
  cases r <;> exact quote_text h

theorem anyText_text {env : Env} {a : AnyVal} {t : Tree} (h : SAnyClean env.isPrint a)
    (ht : sAnyTree a = some t) : ∃ b, anyText env a = some b ∧ LineText b t := by
  cases a with
  | nil => simp [sAnyTree] at ht; subst ht; exact ⟨_, rfl, ⟨_, .null, rfl⟩, by decide⟩
  | obj o =>
    obtain ⟨nt, s, e, j, x, m⟩ := o
    simp only [SAnyClean] at h
    simp only [sAnyTree] at ht
    cases nt with
    | some s => simp at ht; subst ht; exact ⟨_, rfl, quote_text h⟩
    | none =>
    cases e with
    | some s => simp at ht; subst ht; exact ⟨_, rfl, quote_text h⟩
    | none =>
    cases s with
    | some s => simp at ht; subst ht; exact ⟨_, rfl, quote_text h⟩
    | none =>
    cases j with
    | some s => simp at ht; subst ht; exact ⟨_, rfl, resText_text h⟩
    | none =>
    cases x with
    | some s => simp at ht; subst ht; exact ⟨_, rfl, resText_text h⟩
    | none =>
    cases m with
    | ok b =>
      obtain ⟨t', ht'⟩ := h
      simp only [parseTree_of_denotes ht'.1, Option.some.injEq] at ht
      subst ht
      exact ⟨b, rfl, ht'⟩
    | error e => exact h.elim

theorem shown_text {env : Env} {v : Value} {t : Tree} (h : SShown env v t) :
    v.isGroup = false ∧ ∃ b, leafText env v = some b ∧ LineText b t := by
  cases v with
  | logValuer o r =>
    obtain ⟨b, h1, h2⟩ := anyText_text h.1 h.2
    exact ⟨rfl, b, h1, h2⟩
  | group as => exact absurd h.1 (by simp [SLeafClean])
  | any a =>
    obtain ⟨b, h1, h2⟩ := anyText_text h.1 h.2
    exact ⟨rfl, b, h1, h2⟩
  | bool b =>
    have := h.2
    simp only [sLeafTree, Option.some.injEq] at this
    subst this
    cases b
    · exact ⟨rfl, _, rfl, ⟨_, .fls, rfl⟩, by decide⟩
    · exact ⟨rfl, _, rfl, ⟨_, .tru, rfl⟩, by decide⟩
  | duration d =>
    have := h.2
    simp only [sLeafTree, Option.some.injEq] at this
    subst this
    exact ⟨rfl, _, rfl, num_text (isNumber_decInt d)⟩
  | float64 f =>
    have := h.2
    simp only [sLeafTree, Option.some.injEq] at this
    subst this
    cases f with
    | fin n i fr => exact ⟨rfl, _, rfl, num_text (isNumber_float n i fr)⟩
    | _ => exact absurd h.1 (by simp [SLeafClean, F64.finite])
  | int64 i =>
    have := h.2
    simp only [sLeafTree, Option.some.injEq] at this
    subst this
    exact ⟨rfl, _, rfl, num_text (isNumber_decInt i)⟩
  | string s =>
    have := h.2
    simp only [sLeafTree, Option.some.injEq] at this
    subst this
    exact ⟨rfl, _, rfl, quote_text h.1⟩
  | time s =>
    have := h.2
    simp only [sLeafTree, Option.some.injEq] at this
    subst this
    exact ⟨rfl, _, rfl, quote_text h.1⟩
  | uint64 n =>
    have := h.2
    simp only [sLeafTree, Option.some.injEq] at this
    subst this
    exact ⟨rfl, _, rfl, num_text (isNumber_decNat n)⟩

/-- The specification matching a composer configuration. -/
structure Matches (S : View) (gs : List Bytes) (cfg : Cfg) : Prop where
  env : cfg.env = S.env
  f : cfg.replace = S.f
  groups : cfg.groups = gs

theorem prep_apply {S : View} {gs : List Bytes} {cfg : Cfg} (hm : Matches S gs cfg) (a : Attr)
    {k : Bytes} {v : Value} (h : S.apply gs a = .mk k v) :
    (prep cfg a).1.key = k ∧ (prep cfg a).2 = v ∧
      (prep cfg a).1.isEmpty = if S.f.isSome then (Attr.mk k v).isEmpty else a.isEmpty := by
  simp only [prep, hm.f, hm.groups]
  unfold View.apply at h
  cases hf : S.f with
  | none =>
    rw [hf] at h
    simp only [Attr.mk.injEq] at h
    simp [h.1, h.2]
  | some f =>
    rw [hf] at h
    simp only at h ⊢
    have hb : isBasic a.key = sBasic a.key := rfl
    rw [hb, h]
    simp

theorem gone_iff {S : View} {gs : List Bytes} {cfg : Cfg} (hm : Matches S gs cfg) (a : Attr) :
    S.gone gs a = (a.isEmpty || (prep cfg a).1.isEmpty) := by
  have := prep_apply hm a (k := (S.apply gs a).key) (v := (S.apply gs a).value)
    (by cases S.apply gs a; rfl)
  rw [this.2.2]
  unfold View.gone
  cases hf : S.f.isSome <;> simp
  cases S.apply gs a; rfl

mutual
theorem sattr_texts {S : View} {cfg : Cfg} {gs : List Bytes} {n : Nat} {a : Attr}
    {ms : List (Bytes × Tree)} (hm : Matches S gs cfg) (hr : SAttr S gs n a ms) (m : Nat) (hn : n < m) :
    ∃ ts, attrTexts cfg m a = some ts ∧ List.Forall₂ MemberText ts ms := by
  obtain ⟨m, rfl⟩ : ∃ k, m = k + 1 := ⟨m - 1, by omega⟩
  match hr with
  | .gone h =>
    rw [gone_iff hm] at h
    refine ⟨[], ?_, .nil⟩
    rw [attrTexts]
    by_cases h1 : a.isEmpty = true
    · rw [if_pos h1]
    · rw [if_neg h1, if_pos (by simpa [h1] using h)]
  | .hollow (k := k) (as := as) h h2 =>
    obtain ⟨p1, p2, p3⟩ := prep_apply hm a h
    refine ⟨[], ?_, .nil⟩
    rw [attrTexts]
    by_cases h1 : a.isEmpty = true
    · rw [if_pos h1]
    · rw [if_neg h1]
      by_cases h3 : (prep cfg a).1.isEmpty = true
      · rw [if_pos h3]
      · rw [if_neg h3, p2]
        simp [emptyGroup, emptyGroup_hasLeaf, h2]
  | .inline (n := n) (as := as) hg h h2 h3 =>
    obtain ⟨p1, p2, p3⟩ := prep_apply hm a h
    obtain ⟨ts, e1, e2⟩ := slist_texts hm h3 m (by omega)
    rw [gone_iff hm] at hg
    simp only [Bool.or_eq_false_iff] at hg
    refine ⟨ts, ?_, e2⟩
    rw [attrTexts, p1, p2]
    simp [hg.1, hg.2, emptyGroup, emptyGroup_hasLeaf, h2, e1]
  | .group (n := n) (k := k) (as := as) (ms := ms) hg h hk hv h2 h3 =>
    obtain ⟨p1, p2, p3⟩ := prep_apply hm a h
    obtain ⟨ts, e1, e2⟩ := slist_texts hm h3 m (by omega)
    rw [gone_iff hm] at hg
    simp only [Bool.or_eq_false_iff] at hg
    rw [← hm.env] at hv
    refine ⟨[keyText cfg.env k ++ objText ts], ?_, .cons (keyText_member hv (objText_text e2)) .nil⟩
    rw [attrTexts, p1, p2]
    simp [hg.1, hg.2, emptyGroup, emptyGroup_hasLeaf, h2, e1, hk]
  | .leaf (k := k) (v := v) (t := t) hg h hv h3 =>
    obtain ⟨p1, p2, p3⟩ := prep_apply hm a h
    rw [gone_iff hm] at hg
    simp only [Bool.or_eq_false_iff] at hg
    rw [← hm.env] at hv h3
    obtain ⟨g, b, e1, e2⟩ := shown_text h3
    refine ⟨[keyText cfg.env k ++ b], ?_, .cons (keyText_member hv e2) .nil⟩
    rw [attrTexts, p1, p2]
    simp only [hg.1, hg.2, Bool.false_eq_true, if_false]
    cases v <;> simp_all [Value.isGroup]
theorem slist_texts {S : View} {cfg : Cfg} {gs : List Bytes} {n : Nat} {as : List Attr}
    {ms : List (Bytes × Tree)} (hm : Matches S gs cfg) (hr : SList S gs n as ms) (m : Nat) (hn : n < m) :
    ∃ ts, allTexts (attrTexts cfg m) as = some ts ∧ List.Forall₂ MemberText ts ms := by
  match hr with
  | .nil => exact ⟨[], rfl, .nil⟩
  | .cons h1 h2 =>
    obtain ⟨t1, e1, f1⟩ := sattr_texts hm h1 m hn
    obtain ⟨t2, e2, f2⟩ := slist_texts hm h2 m hn
    exact ⟨t1 ++ t2, by simp [allTexts, e1, e2], forall2_append f1 f2⟩
end

/-! ### Handlers -/

/-- A flash handler with the same prefix and suffix. -/
def Handler.toFlash (h : Handler) : Flash.Handler where
  env := h.env
  options := {}
  extras := ⟨[], fun _ => [], [], [], [], []⟩
  pfx := h.pfx
  sfx := h.sfx
  groups := []

/-- The same for handlers of either type. -/
def H.toFlash : H → Flash.H
  | .plain h => .plain h.toFlash
  | .group h n p => .group h.toFlash n p.toFlash

/-- The handler that takes records without attributes. -/
def H.root : H → Handler
  | .plain h => h
  | .group _ _ p => p.root

theorem core_toFlash (h : H) : h.toFlash.core = h.core.toFlash := by cases h <;> rfl

theorem root_toFlash (h : H) : h.toFlash.root = h.root.toFlash := by
  induction h with
  | plain h => rfl
  | group h n p ih => exact ih

theorem withGroup_toFlash (h : H) (n : Bytes) : (h.withGroup n).toFlash = h.toFlash.withGroup n := by
  unfold H.withGroup Flash.H.withGroup
  split
  · rw [core_toFlash]; rfl
  · rw [core_toFlash]
    rfl

theorem H.handle_quiet (h : H) (ctx : Flash.Ctx) (w : Writer) (r : Record)
    (hq : r.attrs.all Attr.isEmpty = true) : h.handle ctx w r = h.root.handle w r := by
  induction h generalizing ctx with
  | plain h => rfl
  | group h n p ih =>
    simp [H.handle, skipGroup, firstNonEmpty_none.2 hq, H.root, ih]

theorem H.handle_loud (h : H) (w : Writer) (r : Record) (hq : r.attrs.all Attr.isEmpty = false) :
    h.handle none w r = h.core.handle w r := by
  cases h with
  | plain h => rfl
  | group h n p =>
    have : Flash.firstNonEmpty r.attrs ≠ none := fun e => by
      rw [firstNonEmpty_none.1 e] at hq; cases hq
    obtain ⟨a, ha⟩ := Option.ne_none_iff_exists'.1 this
    simp [H.handle, skipGroup, ha, H.core]

/-- `WithAttrs` when the attributes have member texts. -/
theorem withAttrs_texts {h : Handler} {as : List Attr} {ts : List Bytes}
    (ht : allTexts (attrTexts (h.cfg sure) h.env.stack) as = some ts) :
    h.withAttrs as = some { h with
      pfx := (Flash.St.addTexts ⟨h.pfx, h.pfx.length > 0 && !endsOpen h.pfx⟩ ts).buffer } := by
  obtain ⟨cs, e, hc⟩ := addAttributes_adds (cfg := h.cfg sure) rfl ht
    { out := if h.pfx.length > 0 then [h.pfx] else [],
      started := h.pfx.length > 0 && !endsOpen h.pfx }
  simp only [Handler.withAttrs, e]
  have : (if h.pfx.length > 0 then [h.pfx] else []).flatten = h.pfx := by
    split
    · simp
    · rename_i hl; have : h.pfx = [] := by simpa using hl
      simp [this]
  simp [hc, this, Flash.St.addTexts]

/-- `Handle` when everything has member texts and the built-in fields have not
all been removed. -/
theorem handle_texts {h : Handler} {r : Record} {bs ts : List Bytes}
    (hb : allTexts (attrTexts (h.cfg sure) h.env.stack) (basics h.env h.options.addSource r) = some bs)
    (hne : bs ≠ [])
    (ht : allTexts (attrTexts (h.cfg sure) h.env.stack) r.attrs = some ts) :
    ∃ st, h.handle sure r = .ok st ∧ st.out.flatten =
      h.toFlash.finish (Flash.St.addTexts ⟨[0x7B], false⟩ bs) ts ++ [0x7D, 0x0D, 0x0A] := by
  obtain ⟨c1, e1, f1⟩ := addAttributes_adds (cfg := h.cfg sure) rfl hb ⟨[[0x7B]], false⟩
  have hbe : bs.isEmpty = false := by simpa using hne
  simp only [Bool.false_or, hbe, Bool.not_false] at e1
  simp only at f1
  have w : ∀ b st, write (h.cfg sure) b st = .ok ⟨st.out ++ [b], st.started⟩ := by
    intro b st; rfl
  rw [Handler.handle]
  simp only [w, Out.bind, List.nil_append, e1]
  simp only [Handler.addPrefix]
  by_cases hp : h.pfx.length > 0
  · rw [if_pos hp]
    simp only [w, Out.bind]
    cases ho : endsOpen h.pfx with
    | true =>
      obtain ⟨c2, e2, f2⟩ := addAttributes_adds (cfg := h.cfg sure) rfl ht
        ⟨[[0x7B]] ++ c1 ++ [[0x2C, 0x20]] ++ [h.pfx], false⟩
      simp only [if_true, e2]
      refine ⟨_, rfl, ?_⟩
      simp only at f2
      have hp' : h.toFlash.pfx.length > 0 := hp
      have ho' : endsOpen h.toFlash.pfx = true := ho
      simp only [Flash.Handler.finish, Flash.Handler.addPrefix, hp', ho', if_true]
      simp [f1, f2, Flash.St.addTexts, Flash.St.addSeparator, Flash.St.add, hbe, Handler.toFlash]
    | false =>
      obtain ⟨c2, e2, f2⟩ := addAttributes_adds (cfg := h.cfg sure) rfl ht
        ⟨[[0x7B]] ++ c1 ++ [[0x2C, 0x20]] ++ [h.pfx], true⟩
      simp only [Bool.false_eq_true, if_false, e2]
      refine ⟨_, rfl, ?_⟩
      simp only at f2
      have hp' : h.toFlash.pfx.length > 0 := hp
      have ho' : endsOpen h.toFlash.pfx = false := ho
      simp only [Flash.Handler.finish, Flash.Handler.addPrefix, hp', ho', if_true]
      simp [f1, f2, Flash.St.addTexts, Flash.St.addSeparator, Flash.St.add, hbe, Handler.toFlash]
  · rw [if_neg hp]
    obtain ⟨c2, e2, f2⟩ := addAttributes_adds (cfg := h.cfg sure) rfl ht ⟨[[0x7B]] ++ c1, true⟩
    simp only [e2]
    refine ⟨_, rfl, ?_⟩
    simp only at f2
    have hp' : ¬ h.toFlash.pfx.length > 0 := hp
    simp only [Flash.Handler.finish, Flash.Handler.addPrefix, if_neg hp']
    simp [f1, f2, Flash.St.addTexts, hbe, Handler.toFlash]

/-- Environment and options are those of `h0`. -/
def SameAs (h0 h : Handler) : Prop := h.env = h0.env ∧ h.options = h0.options

/-- The specification for a handler. -/
def viewOf (env : Env) (o : Flash.Options) : View := { env, f := o.replace }

theorem matches_of {h0 h : Handler} (hs : SameAs h0 h) (w : Writer) :
    Matches (viewOf h0.env h0.options) h.groups (h.cfg w) where
  env := hs.1
  f := by show h.options.replace = _; rw [hs.2]; rfl
  groups := rfl

theorem same_withGroup {h0 : Handler} {h : H} (n : Bytes) (h1 : SameAs h0 h.core)
    (h2 : SameAs h0 h.root) : SameAs h0 (h.withGroup n).core ∧ SameAs h0 (h.withGroup n).root := by
  unfold H.withGroup
  split
  · exact ⟨h1, h1⟩
  · exact ⟨h1, h2⟩

theorem quiet_texts {cfg : Cfg} {n : Nat} {as : List Attr} (h : as.all Attr.isEmpty = true) :
    allTexts (attrTexts cfg (n + 1)) as = some [] := by
  induction as with
  | nil => rfl
  | cons a as ih =>
    simp only [List.all_cons, Bool.and_eq_true] at h
    have e : attrTexts cfg (n + 1) a = some [] := by rw [attrTexts, if_pos h.1]
    rw [allTexts, e, ih h.2]; rfl

theorem groupsOnly_derive {h0 : Handler} {ops : List Op} (hg : groupsOnly ops = true) : ∀ h : H,
    SameAs h0 h.core → SameAs h0 h.root →
    ∃ h' tops, h.derive ops = some h' ∧ Derived h.toFlash tops h'.toFlash ∧ h'.root = h.root ∧
      tGroupsOnly tops = true ∧ SameAs h0 h'.core := by
  induction ops with
  | nil => intro h h1 _; exact ⟨h, [], rfl, .nil _, rfl, rfl, h1⟩
  | cons op ops ih =>
    intro h h1 h2
    cases op with
    | attrs as => simp [groupsOnly] at hg
    | group n =>
      simp only [groupsOnly, List.all_cons, Bool.and_eq_true] at hg
      have hs := same_withGroup n h1 h2
      obtain ⟨h', tops, e1, e2, e3, e4, e5⟩ := ih hg.2 (h.withGroup n) hs.1 hs.2
      have hn : n ≠ [] := by simpa using hg.1
      refine ⟨h', .group n :: tops, by simp [H.derive, H.step, e1],
        .cons (withGroup_toFlash h n) e2, ?_, ?_, e5⟩
      · rw [e3]; simp [H.withGroup, hn, H.root]
      · simp only [tGroupsOnly, List.all_cons, Bool.and_eq_true] at e4 ⊢
        exact ⟨hg.1, e4⟩

/-- Deriving along a chain with a placement. -/
theorem derive_shown {h0 : Handler} {as : List Attr} {n : Nat} (hn : n < h0.env.stack) :
    ∀ (ops : List Op) (h : H) (pl : List (Bytes × Tree)), SameAs h0 h.core → SameAs h0 h.root →
    (as.all Attr.isEmpty = true → groupsOnly ops = true → h.root = h.core) →
    SPlace (viewOf h0.env h0.options) n h.core.groups ops as pl →
    ∃ h' tops ts, h.derive ops = some h' ∧ Derived h.toFlash tops h'.toFlash ∧
      allTexts (attrTexts ((if as.all Attr.isEmpty then h'.root else h'.core).cfg sure) h0.env.stack) as =
        some ts ∧
      List.Forall₂ MemberText (chain (as.all Attr.isEmpty) tops ts) pl ∧
      tGroupsOnly tops = groupsOnly ops ∧
      (if as.all Attr.isEmpty then h'.root else h'.core).groups =
        opened (as.all Attr.isEmpty) h.core.groups ops ∧ SameAs h0 h'.core ∧ SameAs h0 h'.root := by
  intro ops
  induction ops with
  | nil =>
    intro h pl hs hsr hroot hp
    simp only [SPlace] at hp
    obtain ⟨ts, e1, e2⟩ := slist_texts (matches_of hs sure) hp _ hn
    have hh : (if as.all Attr.isEmpty then h.root else h.core) = h.core := by
      split
      · rename_i hq; exact hroot hq rfl
      · rfl
    exact ⟨h, [], ts, rfl, .nil _, by rw [hh]; exact e1, e2, rfl, by rw [hh]; rfl, hs, hsr⟩
  | cons op ops ih =>
    intro h pl hs hsr hroot hp
    cases op with
    | attrs bs =>
      simp only [SPlace] at hp
      obtain ⟨x, y, p1, p2, rfl⟩ := hp
      obtain ⟨ts1, a1, a2⟩ := slist_texts (matches_of hs sure) p1 _ hn
      have he : h.core.env.stack = h0.env.stack := by rw [hs.1]
      rw [← he] at a1
      let h1 : H := .plain { h.core with
        pfx := (Flash.St.addTexts ⟨h.core.pfx, h.core.pfx.length > 0 && !endsOpen h.core.pfx⟩ ts1).buffer }
      have hw : h.withAttrs bs = some h1 := by
        simp only [H.withAttrs, withAttrs_texts a1]
        rfl
      obtain ⟨h', tops, ts, b1, b2, b3, b4, b5, b6⟩ := ih h1 y hs hs (fun _ _ => rfl) p2
      refine ⟨h', .texts ts1 :: tops, ts, ?_, .cons ⟨shut_of_members a2, ?_⟩ b2, b3, ?_, ?_, b6⟩
      · simp [H.derive, H.step, hw, b1]
      · rw [core_toFlash]; rfl
      · exact forall2_append a2 b4
      · simp [tGroupsOnly, groupsOnly]
    | group g =>
      simp only [SPlace] at hp
      obtain ⟨hs1, hs2⟩ := same_withGroup g hs hsr
      have hstep : TStep h.toFlash (h.withGroup g).toFlash (.group g) := withGroup_toFlash h g
      by_cases hg : g.isEmpty = true
      · rw [if_pos hg] at hp
        have hg' : g = [] := by simpa using hg
        have e0 : h.withGroup g = .plain h.core := by simp [H.withGroup, hg']
        rw [e0] at hs1 hstep
        obtain ⟨h', tops, ts, b1, b2, b3, b4, b5, b6, b7⟩ :=
          ih (.plain h.core) pl hs1 hs1 (fun _ _ => rfl) hp
        refine ⟨h', .group g :: tops, ts, by simp [H.derive, H.step, e0, b1],
          .cons hstep b2, b3, by simpa [chain, hg] using b4, ?_, ?_, b7⟩
        · simp [tGroupsOnly, groupsOnly, hg']
        · rw [b6, opened, if_pos hg]; rfl
      · rw [if_neg hg] at hp
        have hg' : g ≠ [] := by simpa using hg
        by_cases hq : (as.all Attr.isEmpty && groupsOnly ops) = true
        · rw [if_pos hq] at hp
          subst hp
          simp only [Bool.and_eq_true] at hq
          obtain ⟨h', tops, b1, b2, b3, b4, b5⟩ := groupsOnly_derive hq.2 (h.withGroup g) hs1 hs2
          have hro : h'.root = h.core := by
            rw [b3, ← hroot hq.1 (by simpa [groupsOnly, hg'] using hq.2)]
            simp [H.withGroup, hg', H.root]
          refine ⟨h', .group g :: tops, [], by simp [H.derive, H.step, b1], .cons hstep b2, ?_, ?_, ?_, ?_,
            b5, by rw [hro]; exact hs⟩
          · obtain ⟨m, hm⟩ : ∃ m, h0.env.stack = m + 1 := ⟨h0.env.stack - 1, by omega⟩
            rw [hm]
            exact quiet_texts hq.1
          · simp [chain, hg', hq.1, b4]
          · have hgo := hq.2
            simp only [tGroupsOnly, groupsOnly, List.all_cons] at b4 hgo ⊢
            rw [b4, hgo]
          · simp [opened, hg', hq.1, hq.2, hro]
        · rw [if_neg hq] at hp
          obtain ⟨hd, y, p1, rfl⟩ := hp
          have hgr : (h.withGroup g).core.groups = h.core.groups ++ [g] := by
            simp [H.withGroup, hg', H.core, Handler.openGroup]
          obtain ⟨h', tops, ts, b1, b2, b3, b4, b5, b6, b7⟩ := ih (h.withGroup g) y hs1 hs2
            (by intro q1 q2; rw [q1, q2] at hq; simp at hq) (by rw [hgr]; exact p1)
          refine ⟨h', .group g :: tops, ts, by simp [H.derive, H.step, b1], .cons hstep b2, b3, ?_, ?_, ?_, b7⟩
          · simp only [chain, hg, b5, hq]
            exact .cons (rawKey_member hd (objText_text b4)) .nil
          · simp only [tGroupsOnly, groupsOnly, List.all_cons] at b5 ⊢
            rw [b5]
          · rw [b6, hgr, opened, if_neg hg, if_neg hq]

theorem finish_new (env : Env) (o : Flash.Options) (bs ts : List Bytes) :
    (newHandler env o).toFlash.finish (Flash.St.addTexts ⟨[0x7B], false⟩ bs) ts ++ [0x7D, 0x0D, 0x0A] =
      objText (bs ++ ts) ++ [0x0D, 0x0A] := by
  simp [Flash.Handler.finish, newHandler, Handler.toFlash, Flash.Handler.addPrefix, Flash.St.addTexts,
    objText, Flash.sepText_append]

/-- The line of a derived handler, with or without a replacement function. -/
theorem handle_shown {env : Env} {o : Flash.Options} {ops : List Op} {r : Record} {n : Nat}
    (hn : n < env.stack) {bm pl : List (Bytes × Tree)}
    (hb : SList (viewOf env o) (opened (r.attrs.all Attr.isEmpty) [] ops) n
      (basics env o.addSource r) bm) (hne : bm ≠ [])
    (hp : SPlace (viewOf env o) n [] ops r.attrs pl) :
    ∃ h st b, (H.plain (newHandler env o)).derive ops = some h ∧
      h.handle none sure r = .ok st ∧ st.out.flatten = b ++ [0x0D, 0x0A] ∧
      LineText b (.obj (bm ++ pl)) := by
  let h0 := newHandler env o
  obtain ⟨h, tops, ts, d1, d2, d3, d4, _, d6, s1, s2⟩ := derive_shown (h0 := h0) (as := r.attrs) (n := n)
    hn ops (.plain h0) pl ⟨rfl, rfl⟩ ⟨rfl, rfl⟩ (fun _ _ => rfl) hp
  have hbr : (H.plain h0).toFlash.core.Braces := by
    intro b hb; simp [Flash.H.core, H.toFlash, Handler.toFlash, h0, newHandler] at hb
  have basics : ∀ hh : Handler, SameAs h0 hh → hh.groups = opened (r.attrs.all Attr.isEmpty) [] ops →
      ∃ bs, allTexts (attrTexts (hh.cfg sure) hh.env.stack) (basics hh.env hh.options.addSource r) =
        some bs ∧ List.Forall₂ MemberText bs bm ∧ bs ≠ [] := by
    intro hh hs hg
    have hst : hh.env.stack = env.stack := by rw [hs.1]; rfl
    obtain ⟨bs, e1, e2⟩ := slist_texts (matches_of hs sure) (by rw [hg]; exact hb) _ hn
    refine ⟨bs, ?_, e2, ?_⟩
    · rw [hs.1, hs.2]; exact e1
    · rintro rfl; cases e2; exact hne rfl
  cases hq : r.attrs.all Attr.isEmpty with
  | false =>
    rw [hq] at d3 d4 d6 basics
    obtain ⟨bs, b1, b2, b3⟩ := basics _ s1 d6
    have hst : h.core.env.stack = h0.env.stack := by rw [s1.1]
    obtain ⟨st, e1, e2⟩ := handle_texts b1 b3 (by rw [hst]; exact d3)
    refine ⟨h, st, objText (bs ++ chain false tops ts), d1, ?_, ?_, objText_text (forall2_append b2 d4)⟩
    · rw [H.handle_loud h sure r hq, e1]
    · rw [e2, ← core_toFlash, finish_core d2 hbr]
      exact finish_new env o bs _
  | true =>
    rw [hq] at d3 d4 d6 basics
    obtain ⟨bs, b1, b2, b3⟩ := basics _ s2 d6
    have hst : h.root.env.stack = h0.env.stack := by rw [s2.1]
    obtain ⟨st, e1, e2⟩ := handle_texts b1 b3 (by rw [hst]; exact d3)
    refine ⟨h, st, objText (bs ++ chain true tops ts), d1, ?_, ?_, objText_text (forall2_append b2 d4)⟩
    · rw [H.handle_quiet h none sure r hq, e1]
    · rw [e2, ← root_toFlash, finish_root d2 hbr]
      have : (if tGroupsOnly tops = true then
          (H.plain h0).toFlash.root.finish (Flash.St.addTexts ⟨[0x7B], false⟩ bs) ts
          else (H.plain h0).toFlash.core.finish (Flash.St.addTexts ⟨[0x7B], false⟩ bs) (chain true tops ts)) =
          h0.toFlash.finish (Flash.St.addTexts ⟨[0x7B], false⟩ bs) (chain true tops ts) := by
        split
        · rename_i hg; rw [chain_groupsOnly hg]; rfl
        · rfl
      rw [this]
      exact finish_new env o bs _

end Verif.Sloggy
