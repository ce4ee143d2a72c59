import Verif.Spec.Replaced
import Verif.Flash.Content
import Verif.Flash.Renders

/-
Lemmas: what flash prints when a ReplaceAttr function is in force.
-/

set_option linter.unusedSimpArgs false

namespace Verif.Flash
open Slog Json LogTree

/-- The specification matching a composer configuration. -/
structure Matches (R : Repl) (gs : List Bytes) (cfg : Cfg) : Prop where
  env : cfg.env = R.env
  layout : cfg.extras.timeFormat = R.layout
  basic : cfg.isBasic = R.basic
  f : cfg.replace = some R.f
  groups : cfg.groups = gs
  nest : R.nest = false

theorem prep_apply {R : Repl} {gs : List Bytes} {cfg : Cfg} (hm : Matches R gs cfg) (a : Attr) :
    prep cfg a = (R.apply gs a, false) := by
  obtain ⟨k, v⟩ := a
  cases v <;> simp [prep, hm.f, Attr.value_mk, Attr.key_mk, Repl.apply, hm.basic, hm.groups,
    Value.isLogValuer, Value.resolve] <;> rfl

theorem shown_text {cfg : Cfg} {v : Value} {t : Tree}
    (h : Shown cfg.env cfg.extras.timeFormat v t) :
    v.isGroup = false ∧ ∃ b, leafText cfg false v = some b ∧ LineText b t := by
  have gen : LeafClean cfg.env cfg.extras.timeFormat v →
      leafTree cfg.env cfg.extras.timeFormat v = some t →
      ∃ b, leafText cfg false v = some b ∧ LineText b t := by
    intro h1 h2
    obtain ⟨b, t', e1, e2, e3⟩ := leafText_text h1
    rw [e2] at h2
    simp only [Option.some.injEq] at h2
    subst h2
    exact ⟨b, e1, e3⟩
  cases v with
  | logValuer o r =>
    obtain ⟨h1, h2⟩ := h
    obtain ⟨b, t', e1, e2, e3⟩ := anyText_text h1
    rw [e2] at h2
    simp only [Option.some.injEq] at h2
    subst h2
    exact ⟨rfl, b, e1, e3⟩
  | group as => exact absurd h.1 (by simp [LeafClean])
  | _ => exact ⟨rfl, gen h.1 h.2⟩

mutual
theorem rattr_texts {R : Repl} {cfg : Cfg} {gs : List Bytes} {n : Nat} {a : Attr}
    {ms : List (Bytes × Tree)} (hm : Matches R gs cfg) (hr : RAttr R gs n a ms) (m : Nat) (hn : n < m) :
    ∃ ts, attrTexts cfg m a = some ts ∧ List.Forall₂ MemberText ts ms := by
  obtain ⟨m, rfl⟩ : ∃ k, m = k + 1 := ⟨m - 1, by omega⟩
  match hr with
  | .gone h => exact ⟨[], by simp [attrTexts, prep_apply hm, h], .nil⟩
  | .hollow (k := k) (as := as) h h2 =>
    have hem : (Attr.mk k (.group as)).isEmpty = false := by cases k <;> rfl
    exact ⟨[], by simp [attrTexts, prep_apply hm, h, hem, emptyGroup_hasLeaf, h2], .nil⟩
  | .inline (n := n) (as := as) h h2 h3 =>
    obtain ⟨ts, e1, e2⟩ := rlist_texts hm h3 m (by omega)
    have hem : (Attr.mk [] (.group as)).isEmpty = false := rfl
    exact ⟨ts, by simp [attrTexts, prep_apply hm, h, hem, emptyGroup_hasLeaf, h2, e1], e2⟩
  | .group (n := n) (k := k) (as := as) (ms := ms) h hk hv h2 h3 h4 =>
    have hin : R.inner gs k = gs := by simp [Repl.inner, hm.nest]
    obtain ⟨ts, e1, e2⟩ := rlist_texts (by rw [hin]; exact hm) h3 m (by omega)
    have hem : (Attr.mk k (.group as)).isEmpty = false := by cases k <;> rfl
    have hts : ts ≠ [] := by rintro rfl; cases e2; exact h4 rfl
    refine ⟨[keyText k ++ objText ts], ?_, .cons (keyText_member hv (objText_text e2)) .nil⟩
    simp [attrTexts, prep_apply hm, h, hem, emptyGroup_hasLeaf, h2, e1, hk, hts, objText]
  | .leaf (k := k) (v := v) (t := t) h h2 h3 h4 =>
    rw [← hm.env, ← hm.layout] at h4
    obtain ⟨g, b, e1, e2⟩ := shown_text h4
    refine ⟨[keyText k ++ b], ?_, .cons (keyText_member h3 e2) .nil⟩
    simp only [attrTexts, prep_apply hm, h, h2, Bool.false_eq_true, if_false, Attr.key_mk,
      Attr.value_mk]
    cases v <;> simp_all [Value.isGroup]
theorem rlist_texts {R : Repl} {cfg : Cfg} {gs : List Bytes} {n : Nat} {as : List Attr}
    {ms : List (Bytes × Tree)} (hm : Matches R gs cfg) (hr : RList R gs n as ms) (m : Nat) (hn : n < m) :
    ∃ ts, allTexts (attrTexts cfg m) as = some ts ∧ List.Forall₂ MemberText ts ms := by
  match hr with
  | .nil => exact ⟨[], rfl, .nil⟩
  | .cons h1 h2 =>
    obtain ⟨t1, e1, f1⟩ := rattr_texts hm h1 m hn
    obtain ⟨t2, e2, f2⟩ := rlist_texts hm h2 m hn
    exact ⟨t1 ++ t2, by simp [allTexts, e1, e2], forall2_append f1 f2⟩
end

/-- The built-in fields as attributes (handlers/flash/handler.go:66-103), in order. -/
def basicAttrs (env : Env) (x : Extras) (addSource : Bool) (r : Record) : List Attr :=
  (match r.time with
    | none => []
    | some t => [.mk x.timeKey (.time t)]) ++
  [.mk x.levelKey (.string (x.levelNames r.level)), .mk x.messageKey (.string r.message)] ++
  (if addSource && r.pc != 0 then [.mk x.sourceKey (.any (.obj (sourceObj env r.pc)))] else [])

theorem basics_replace {h : Handler} {f : AttrFn} (hf : h.options.replace = some f) (r : Record) :
    h.basics r = addAttributes h.cfg ⟨[0x7B], false⟩ (basicAttrs h.env h.extras h.options.addSource r) := by
  have hc : h.cfg.replace = some f := hf
  have one : ∀ st a, addAll (addAttribute h.cfg h.cfg.env.stack) st [a] =
      addAttribute h.cfg h.cfg.env.stack st a := by
    intro st a
    simp only [addAll]
    cases addAttribute h.cfg h.cfg.env.stack st a <;> rfl
  have bind : ∀ (o : Out) as, o.bind (fun st => addAll (addAttribute h.cfg h.cfg.env.stack) st as) =
      match o with
      | .ok st => addAll (addAttribute h.cfg h.cfg.env.stack) st as
      | o => o := by intro o as; cases o <;> rfl
  have step : ∀ st a as, addAll (addAttribute h.cfg h.cfg.env.stack) st (a :: as) =
      (addAttribute h.cfg h.cfg.env.stack st a).bind
        fun st => addAll (addAttribute h.cfg h.cfg.env.stack) st as := by
    intro st a as
    rw [bind]
    simp only [addAll]
    cases addAttribute h.cfg h.cfg.env.stack st a <;> rfl
  simp only [Handler.basics, addAttributes, addBasic, hc, basicAttrs]
  cases r.time with
  | none =>
    simp only [List.nil_append, List.cons_append, step]
    simp only [Out.bind]
    split
    · split
      · split
        · rw [one]
        · rfl
      · rfl
    · rfl
  | some t =>
    simp only [List.nil_append, List.cons_append, step]
    simp only [Out.bind]
    split
    · split
      · split
        · split
          · rw [one]
          · rfl
        · rfl
      · rfl
    · rfl

/-- The specification for a handler with a replacement function. -/
def replOf (env : Env) (x : Extras) (f : AttrFn) : Repl :=
  { env, layout := x.timeFormat, f, nest := false
    basic := fun k => k == x.levelKey || k == x.messageKey || k == x.sourceKey || k == x.timeKey }

theorem matches_of {h0 h : Handler} {f : AttrFn} (hf : h0.options.replace = some f) (hs : SameAs h0 h) :
    Matches (replOf h0.env h0.extras f) h.groups h.cfg where
  env := hs.1
  layout := by show h.extras.timeFormat = _; rw [hs.2.2]; rfl
  basic := by funext k; show Cfg.isBasic _ _ = _; simp only [Cfg.isBasic, Handler.cfg, hs.2.2, replOf]
  f := by show h.options.replace = _; rw [hs.2.1]; exact hf
  groups := rfl
  nest := rfl

theorem groupsOnly_derive {ops : List Op} (hg : groupsOnly ops = true) : ∀ h : H,
    ∃ h' tops, h.derive ops = some h' ∧ Derived h tops h' ∧ h'.root = h.root ∧
      tGroupsOnly tops = true := by
  induction ops with
  | nil => intro h; exact ⟨h, [], rfl, .nil h, rfl, rfl⟩
  | cons op ops ih =>
    intro h
    cases op with
    | attrs as => simp [groupsOnly] at hg
    | group n =>
      simp only [groupsOnly, List.all_cons, Bool.and_eq_true] at hg
      obtain ⟨h', tops, e1, e2, e3, e4⟩ := ih hg.2 (h.withGroup n)
      have hn : n ≠ [] := by simpa using hg.1
      refine ⟨h', .group n :: tops, by simp [H.derive, H.step, e1], .cons rfl e2, ?_, ?_⟩
      · rw [e3]; simp [H.withGroup, hn, H.root]
      · simp only [tGroupsOnly, List.all_cons, Bool.and_eq_true] at e4 ⊢
        exact ⟨hg.1, e4⟩

theorem derive_replace {h0 : Handler} {f : AttrFn} (hf : h0.options.replace = some f)
    {as : List Attr} {n : Nat} (hn : n < h0.env.stack) : ∀ (ops : List Op) (h : H)
    (pl : List (Bytes × Tree)), SameAs h0 h.core →
    (as.all Attr.isEmpty = true → groupsOnly ops = true → h.root = h.core) →
    RPlace (replOf h0.env h0.extras f) n h.core.groups ops as pl →
    ∃ h' tops ts, h.derive ops = some h' ∧ Derived h tops h' ∧
      allTexts (attrTexts (if as.all Attr.isEmpty then h'.root else h'.core).cfg h0.env.stack) as =
        some ts ∧
      List.Forall₂ MemberText (chain (as.all Attr.isEmpty) tops ts) pl ∧
      tGroupsOnly tops = groupsOnly ops ∧
      (if as.all Attr.isEmpty then h'.root else h'.core).groups =
        opened (as.all Attr.isEmpty) h.core.groups ops := by
  intro ops
  induction ops with
  | nil =>
    intro h pl hs hroot hp
    simp only [RPlace] at hp
    obtain ⟨ts, e1, e2⟩ := rlist_texts (matches_of hf hs) hp _ hn
    have hh : (if as.all Attr.isEmpty then h.root else h.core) = h.core := by
      split
      · rename_i hq; exact hroot hq rfl
      · rfl
    exact ⟨h, [], ts, rfl, .nil h, by rw [hh]; exact e1, e2, rfl, by rw [hh]; rfl⟩
  | cons op ops ih =>
    intro h pl hs hroot hp
    cases op with
    | attrs bs =>
      simp only [RPlace] at hp
      obtain ⟨x, y, p1, p2, rfl⟩ := hp
      obtain ⟨ts1, a1, a2⟩ := rlist_texts (matches_of hf hs) p1 _ hn
      have he : h.core.cfg.env.stack = h0.env.stack := by
        show h.core.env.stack = _; rw [hs.1]
      let h1 : H := .plain { h.core with
        pfx := (St.addTexts ⟨h.core.pfx, h.core.pfx.length > 0 && !endsOpen h.core.pfx⟩ ts1).buffer }
      have hw : h.withAttrs bs = some h1 := by
        rw [← he] at a1
        simp only [H.withAttrs, Handler.withAttrs, addAttributes_eq a1]
        rfl
      obtain ⟨h', tops, ts, b1, b2, b3, b4, b5, b6⟩ := ih h1 y hs (fun _ _ => rfl) p2
      refine ⟨h', .texts ts1 :: tops, ts, ?_, .cons ⟨shut_of_members a2, rfl⟩ b2, b3, ?_, ?_, b6⟩
      · simp [H.derive, H.step, hw, b1]
      · exact forall2_append a2 b4
      · simp [tGroupsOnly, groupsOnly]
    | group g =>
      simp only [RPlace] at hp
      have hs1 : SameAs h0 (h.withGroup g).core := by
        unfold H.withGroup
        split <;> exact hs
      by_cases hg : g.isEmpty = true
      · rw [if_pos hg] at hp
        have hg' : g = [] := by simpa using hg
        have e0 : h.withGroup g = .plain h.core := by simp [H.withGroup, hg']
        rw [e0] at hs1
        obtain ⟨h', tops, ts, b1, b2, b3, b4, b5, b6⟩ := ih (.plain h.core) pl hs1 (fun _ _ => rfl) hp
        refine ⟨h', .group g :: tops, ts, by simp [H.derive, H.step, e0, b1],
          .cons (by rw [TStep, e0]) b2, b3, by simpa [chain, hg] using b4, ?_, ?_⟩
        · simp [tGroupsOnly, groupsOnly, hg']
        · rw [b6, opened, if_pos hg]; rfl
      · rw [if_neg hg] at hp
        have hg' : g ≠ [] := by simpa using hg
        by_cases hq : (as.all Attr.isEmpty && groupsOnly ops) = true
        · rw [if_pos hq] at hp
          simp only [Bool.and_eq_true] at hq
          obtain ⟨h', tops, b1, b2, b3, b4⟩ := groupsOnly_derive hq.2 (h.withGroup g)
          obtain ⟨ts, a1, a2⟩ := rlist_texts (matches_of hf hs) hp _ hn
          have hro : h'.root = h.core := by
            rw [b3, ← hroot hq.1 (by simpa [groupsOnly, hg'] using hq.2)]
            simp [H.withGroup, hg', H.root]
          refine ⟨h', .group g :: tops, ts, by simp [H.derive, H.step, b1], .cons rfl b2, ?_, ?_, ?_, ?_⟩
          · rw [hq.1, if_pos rfl, hro]; exact a1
          · simpa [chain, hg', hq.1, b4] using a2
          · have hgo := hq.2
            simp only [tGroupsOnly, groupsOnly, List.all_cons] at b4 hgo ⊢
            rw [b4, hgo]
          · simp [opened, hg', hq.1, hq.2, hro]
        · rw [if_neg hq] at hp
          obtain ⟨hd, y, p1, rfl⟩ := hp
          have hgr : (h.withGroup g).core.groups = h.core.groups ++ [g] := by
            simp [H.withGroup, hg', H.core, Handler.openGroup]
            show (if h.core.options.replace.isSome = true then _ else _) = _
            rw [hs.2.1, hf]; rfl
          obtain ⟨h', tops, ts, b1, b2, b3, b4, b5, b6⟩ := ih (h.withGroup g) y hs1
            (by intro q1 q2; rw [q1, q2] at hq; simp at hq) (by rw [hgr]; exact p1)
          refine ⟨h', .group g :: tops, ts, by simp [H.derive, H.step, b1], .cons rfl b2, b3, ?_, ?_, ?_⟩
          · simp only [chain, hg, b5, hq]
            exact .cons (rawKey_member hd (objText_text b4)) .nil
          · simp only [tGroupsOnly, groupsOnly, List.all_cons] at b5 ⊢
            rw [b5]
          · rw [b6, hgr, opened, if_neg hg, if_neg hq]

/-- The line of a derived handler with a replacement function. -/
theorem handle_replace {env : Env} {x : Extras} {o : Options} {f : AttrFn} (ho : o.replace = some f)
    {ops : List Op} {r : Record} {n : Nat} (hn : n < env.stack) {bm pl : List (Bytes × Tree)}
    (hb : RList (replOf env x f) (opened (r.attrs.all Attr.isEmpty) [] ops) n
      (basicAttrs env x o.addSource r) bm)
    (hp : RPlace (replOf env x f) n [] ops r.attrs pl) :
    ∃ h b, (H.plain (newHandler env o x)).derive ops = some h ∧
      h.handle none r = .line (b ++ [0x0A]) ∧ LineText b (.obj (bm ++ pl)) := by
  let h0 := newHandler env o x
  obtain ⟨h, tops, ts, d1, d2, d3, d4, _, d6⟩ := derive_replace (h0 := h0) ho (as := r.attrs) (n := n) hn ops
    (.plain h0) pl ⟨rfl, rfl, rfl⟩ (fun _ _ => rfl) hp
  obtain ⟨s1, s2⟩ := d2.same (h0 := h0) ⟨rfl, rfl, rfl⟩ ⟨rfl, rfl, rfl⟩
  have hbr : (H.plain h0).core.Braces := by intro b hb; simp [H.core, h0, newHandler] at hb
  have basics : ∀ hh : Handler, SameAs h0 hh → hh.groups = opened (r.attrs.all Attr.isEmpty) [] ops →
      ∃ bs, hh.basics r = .ok (St.addTexts ⟨[0x7B], false⟩ bs) ∧ List.Forall₂ MemberText bs bm := by
    intro hh hs hg
    have hst : hh.cfg.env.stack = env.stack := by show hh.env.stack = _; rw [hs.1]; rfl
    obtain ⟨bs, e1, e2⟩ := rlist_texts (matches_of ho hs) (by rw [hg]; exact hb) _ hn
    refine ⟨bs, ?_, e2⟩
    have hr : hh.options.replace = some f := by rw [hs.2.1]; exact ho
    have e0 : basicAttrs hh.env hh.extras hh.options.addSource r =
        basicAttrs env x o.addSource r := by rw [hs.1, hs.2.1, hs.2.2]; rfl
    rw [basics_replace hr, e0, addAttributes_eq (by rw [hst]; exact e1)]
  cases hq : r.attrs.all Attr.isEmpty with
  | false =>
    rw [hq] at d3 d4 d6 basics
    obtain ⟨bs, b1, b2⟩ := basics _ s1 d6
    have hst : h.core.cfg.env.stack = h0.env.stack := by show h.core.env.stack = _; rw [s1.1]
    refine ⟨h, objText (bs ++ chain false tops ts), d1, ?_, objText_text (forall2_append b2 d4)⟩
    rw [H.handle_loud h r hq, handle_texts b1 (by rw [hst]; exact d3), finish_core d2 hbr]
    exact congrArg _ (finish_new env o x bs _)
  | true =>
    rw [hq] at d3 d4 d6 basics
    obtain ⟨bs, b1, b2⟩ := basics _ s2 d6
    have hst : h.root.cfg.env.stack = h0.env.stack := by show h.root.env.stack = _; rw [s2.1]
    refine ⟨h, objText (bs ++ chain true tops ts), d1, ?_, objText_text (forall2_append b2 d4)⟩
    rw [H.handle_quiet h none r hq, handle_texts b1 (by rw [hst]; exact d3), finish_root d2 hbr]
    have : (if tGroupsOnly tops = true then (H.plain h0).root.finish (St.addTexts ⟨[0x7B], false⟩ bs) ts
        else (H.plain h0).core.finish (St.addTexts ⟨[0x7B], false⟩ bs) (chain true tops ts)) =
        h0.finish (St.addTexts ⟨[0x7B], false⟩ bs) (chain true tops ts) := by
      split
      · rename_i hg; rw [chain_groupsOnly hg]; rfl
      · rfl
    rw [this]
    exact congrArg _ (finish_new env o x bs _)

end Verif.Flash
