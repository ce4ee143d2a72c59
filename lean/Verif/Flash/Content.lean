import Verif.Flash.Chain
import Verif.Flash.Denote

/-
Lemmas: the line of a derived flash handler denotes the specified tree
(no ReplaceAttr).
-/

set_option linter.unusedSimpArgs false

namespace Verif.Flash
open Slog Json LogTree

/-- Specification of the built-in members: time if present, level, message,
source if asked for and known. -/
def builtins (env : Env) (x : Extras) (addSource : Bool) (r : Record) : List (Bytes × Tree) :=
  (match r.time with
    | none => []
    | some t => [(x.timeKey, .str (env.formatTime x.timeFormat t))]) ++
  [(x.levelKey, .str (x.levelNames r.level)), (x.messageKey, .str r.message)] ++
  (if addSource && r.pc != 0 then
    [(x.sourceKey, .obj [(b!"function", .str (env.frame r.pc).1),
      (b!"file", .str (env.frame r.pc).2.1), (b!"line", .num (decNat (env.frame r.pc).2.2))])]
  else [])

/-- `json.Marshal` of a string is a JSON string on one line for that string. -/
def EnvClean (env : Env) : Prop := ∀ s, Utf8.Valid s → LineText (env.marshalString s) (.str s)

/-- The keys and names in the extras and the built-in parts of the record are
printable. -/
structure RecordClean (env : Env) (x : Extras) (r : Record) : Prop where
  timeKey : Utf8.Valid x.timeKey
  levelKey : Utf8.Valid x.levelKey
  messageKey : Utf8.Valid x.messageKey
  sourceKey : Utf8.Valid x.sourceKey
  time : ∀ t, r.time = some t →
    decodeBody (env.formatTime x.timeFormat t) = some (env.formatTime x.timeFormat t)
  level : Utf8.Valid (x.levelNames r.level)
  message : Utf8.Valid r.message
  function : Utf8.Valid (env.frame r.pc).1
  file : Utf8.Valid (env.frame r.pc).2.1
  attrs : ListClean env x.timeFormat r.attrs

theorem MemberText.shut {t : Bytes} {m : Bytes × Tree} (h : MemberText t m) :
    t ≠ [] ∧ endsOpen t = false := by
  obtain ⟨kb, b, rfl, hk, ⟨⟨c, hv, _⟩, _⟩⟩ := h
  obtain ⟨r, a, rfl, _, ha⟩ := hv.last
  refine ⟨by simp, ?_⟩
  have e : 0x22 :: (kb ++ 0x22 :: 0x3A :: 0x20 :: (r ++ [a])) =
      (0x22 :: (kb ++ 0x22 :: 0x3A :: 0x20 :: r)) ++ [a] := by simp
  rw [e, endsOpen_append (by simp)]
  simp [endsOpen, ha]

theorem shut_of_members {ts : List Bytes} {ms : List (Bytes × Tree)}
    (h : List.Forall₂ MemberText ts ms) : Shut ts := by
  induction h with
  | nil => intro t ht; simp at ht
  | cons hm _ ih =>
    intro t ht
    simp at ht
    rcases ht with rfl | ht
    · exact hm.shut
    · exact ih t ht

theorem rawKey_member {n b : Bytes} {t : Tree} (hn : decodeBody n = some n) (h : LineText b t) :
    MemberText (rawKey n ++ b) (n, t) :=
  ⟨n, b, by simp [rawKey], ⟨hn, fun _ => rfl⟩, h⟩

theorem sourceText {env : Env} (he : EnvClean env) {pc : Nat} (h1 : Utf8.Valid (env.frame pc).1)
    (h2 : Utf8.Valid (env.frame pc).2.1) :
    ∃ b, anyText (.obj (sourceObj env pc)) = some b ∧
      LineText b (.obj [(b!"function", .str (env.frame pc).1),
        (b!"file", .str (env.frame pc).2.1), (b!"line", .num (decNat (env.frame pc).2.2))]) := by
  refine ⟨_, rfl, ?_⟩
  obtain ⟨⟨c1, v1, d1⟩, n1⟩ := he _ h1
  obtain ⟨⟨c2, v2, d2⟩, n2⟩ := he _ h2
  obtain ⟨⟨c3, v3, d3⟩, n3⟩ := num_text (isNumber_decNat (env.frame pc).2.2)
  have w0 : Ws [] := by intro b hb; simp at hb
  have k1 : BodyOk b!"function" := by decide
  have k2 : BodyOk b!"file" := by decide
  have k3 : BodyOk b!"line" := by decide
  have m3 := Members.one w0 k3 w0 w0 v3 w0
  have m2 := Members.cons w0 k2 w0 w0 v2 w0 m3
  have m1 := Members.cons w0 k1 w0 w0 v1 w0 m2
  refine ⟨⟨_, by simpa using Val.obj m1, ?_⟩, ?_⟩
  · have e1 : decodeBody b!"function" = some b!"function" := by decide
    have e2 : decodeBody b!"file" = some b!"file" := by decide
    have e3 : decodeBody b!"line" = some b!"line" := by decide
    simp only [Cst.decode, decodeMembers, d1, d2, d3, e1, e2, e3, Option.map_some]
  · simp [n1, n2, n3]

theorem basics_clean {h : Handler} {r : Record} (hr : h.options.replace = none)
    (he : EnvClean h.env) (hc : RecordClean h.env h.extras r) :
    ∃ bs, h.basics r = .ok (St.addTexts ⟨[0x7B], false⟩ bs) ∧
      List.Forall₂ MemberText bs (builtins h.env h.extras h.options.addSource r) := by
  have hcr : h.cfg.replace = none := hr
  have lv := keyText_member hc.levelKey (strText_text hc.level)
  have ms := keyText_member hc.messageKey (strText_text hc.message)
  obtain ⟨sb, hs1, hs2⟩ := sourceText he hc.function hc.file
  have sr := keyText_member hc.sourceKey hs2
  have e1 : ∀ (st : St) (k v : Bytes), addBasic h.cfg st k (fun st => .ok (st.addString v))
      (.string v) = .ok (st.addTexts [keyText k ++ strText v]) := by
    intro st k v
    simp [addBasic, hcr, addString_eq, sepKey_eq]
  have e2 : ∀ (st : St) (k : Bytes), addBasic h.cfg st k
      (fun st => st.addAny (.obj (sourceObj h.env r.pc))) (.any (.obj (sourceObj h.env r.pc))) =
      .ok (st.addTexts [keyText k ++ sb]) := by
    intro st k
    simp [addBasic, hcr, addAny_eq hs1, sepKey_eq]
  have tail : ∀ st : St, ∃ bs,
      ((addBasic h.cfg st h.extras.levelKey
          (fun st => .ok (st.addString (h.extras.levelNames r.level)))
          (.string (h.extras.levelNames r.level))).bind fun st =>
        (addBasic h.cfg st h.extras.messageKey (fun st => .ok (st.addString r.message))
          (.string r.message)).bind fun st =>
        if h.options.addSource && r.pc != 0 then
          addBasic h.cfg st h.extras.sourceKey
            (fun st => st.addAny (.obj (sourceObj h.env r.pc)))
            (.any (.obj (sourceObj h.env r.pc)))
        else .ok st) = .ok (st.addTexts bs) ∧
      List.Forall₂ MemberText bs
        ([(h.extras.levelKey, .str (h.extras.levelNames r.level)),
          (h.extras.messageKey, .str r.message)] ++
        (if h.options.addSource && r.pc != 0 then
          [(h.extras.sourceKey, .obj [(b!"function", .str (h.env.frame r.pc).1),
            (b!"file", .str (h.env.frame r.pc).2.1),
            (b!"line", .num (decNat (h.env.frame r.pc).2.2))])]
        else [])) := by
    intro st
    simp only [e1, Out.bind]
    split
    · refine ⟨_, by rw [e2, St.addTexts_append, St.addTexts_append], ?_⟩
      exact .cons lv (.cons ms (.cons sr .nil))
    · refine ⟨_, by rw [St.addTexts_append], ?_⟩
      exact .cons lv (.cons ms .nil)
  cases ht : r.time with
  | none =>
    obtain ⟨bs, h1, h2⟩ := tail ⟨[0x7B], false⟩
    refine ⟨bs, ?_, by simpa [builtins, ht] using h2⟩
    simp only [Handler.basics, ht, Out.bind] at h1 ⊢
    exact h1
  | some t =>
    have tm := keyText_member hc.timeKey (strBody_text (hc.time t ht))
    have e3 : addBasic h.cfg ⟨[0x7B], false⟩ h.extras.timeKey (fun st => .ok (st.addTime h.cfg t))
        (.time t) = .ok (St.addTexts ⟨[0x7B], false⟩
          [keyText h.extras.timeKey ++ (0x22 :: (h.env.formatTime h.extras.timeFormat t ++ [0x22]))]) := by
      rw [← sepKey_eq]
      simp [addBasic, hr, St.addTime, St.add, Handler.cfg]
    obtain ⟨bs, h1, h2⟩ := tail (St.addTexts ⟨[0x7B], false⟩
          [keyText h.extras.timeKey ++ (0x22 :: (h.env.formatTime h.extras.timeFormat t ++ [0x22]))])
    refine ⟨_ :: bs, ?_, by simpa [builtins, ht] using List.Forall₂.cons tm h2⟩
    rw [St.addTexts_append] at h1
    simp only [Handler.basics, ht, e3, Out.bind] at h1 ⊢
    exact h1

/-- Environment, options and extras are those of `h0`. -/
def SameAs (h0 h : Handler) : Prop :=
  h.env = h0.env ∧ h.options = h0.options ∧ h.extras = h0.extras

theorem TStep.same {h0 : Handler} {h h' : H} {op : TOp} (hs : TStep h h' op)
    (h1 : SameAs h0 h.core) (h2 : SameAs h0 h.root) : SameAs h0 h'.core ∧ SameAs h0 h'.root := by
  cases op with
  | texts ts => obtain ⟨_, rfl⟩ := hs; exact ⟨h1, h1⟩
  | group n =>
    simp only [TStep] at hs; subst hs
    unfold H.withGroup
    split
    · exact ⟨h1, h1⟩
    · exact ⟨h1, h2⟩

theorem Derived.same {h0 : Handler} {h h' : H} {ops : List TOp} (hd : Derived h ops h')
    (h1 : SameAs h0 h.core) (h2 : SameAs h0 h.root) : SameAs h0 h'.core ∧ SameAs h0 h'.root := by
  induction hd with
  | nil => exact ⟨h1, h2⟩
  | cons hs _ ih =>
    obtain ⟨h3, h4⟩ := hs.same h1 h2
    exact ih h3 h4

theorem listMembers_quiet {env : Env} {l : Bytes} {m : Mode} {as : List Attr}
    (h : as.all Attr.isEmpty = true) : listMembers env l m as = some [] := by
  induction as with
  | nil => rfl
  | cons a as ih =>
    simp only [List.all_cons, Bool.and_eq_true] at h
    have := isEmpty_iff.1 h.1
    subst this
    have e : attrMembers env l m emptyAttr = some [] := by rfl
    simp [listMembers, e, ih h.2]

/-- Deriving with clean attributes succeeds, and what is printed denotes the
specified placement. -/
theorem derive_clean {h0 : Handler} (hr : h0.options.replace = none) {as : List Attr}
    {ts : List Bytes} {ms : List (Bytes × Tree)}
    (hms : listMembers h0.env h0.extras.timeFormat .viaAny as = some ms)
    (hts : List.Forall₂ MemberText ts ms) : ∀ (ops : List Op) (h : H), SameAs h0 h.core →
    OpsClean h0.env h0.extras.timeFormat ops → opsDepth ops < h0.env.stack →
    ∃ h' tops pl, h.derive ops = some h' ∧ Derived h tops h' ∧
      place h0.env h0.extras.timeFormat .viaAny ops as = some pl ∧
      List.Forall₂ MemberText (chain (as.all Attr.isEmpty) tops ts) pl ∧
      tGroupsOnly tops = groupsOnly ops := by
  intro ops
  induction ops with
  | nil => intro h _ _ _; exact ⟨h, [], ms, rfl, .nil h, hms, hts, rfl⟩
  | cons op ops ih =>
    intro h hs hc hd
    cases op with
    | attrs bs =>
      simp only [OpsClean, opsDepth] at hc hd
      have hcfg : h.core.cfg.replace = none := by
        show h.core.options.replace = none
        rw [hs.2.1]; exact hr
      have he : h.core.cfg.env = h0.env := hs.1
      have hx : h.core.cfg.extras = h0.extras := hs.2.2
      obtain ⟨ts1, ms1, a1, a2, a3, _⟩ := allTexts_clean (cfg := h.core.cfg) hcfg (as := bs)
        (by rw [he, hx]; exact hc.1) (n := h.core.cfg.env.stack) (by rw [he]; omega)
      rw [he, hx] at a2
      let h1 : H := .plain { h.core with
        pfx := (St.addTexts ⟨h.core.pfx, h.core.pfx.length > 0 && !endsOpen h.core.pfx⟩ ts1).buffer }
      have hw : h.withAttrs bs = some h1 := by
        simp only [H.withAttrs, Handler.withAttrs, addAttributes_eq a1]
        rfl
      obtain ⟨h', tops, pl, b1, b2, b3, b4, b5⟩ := ih h1 hs hc.2 (by omega)
      refine ⟨h', .texts ts1 :: tops, ms1 ++ pl, ?_, .cons ⟨shut_of_members a3, rfl⟩ b2, ?_, ?_, ?_⟩
      · simp [H.derive, H.step, hw, b1]
      · simp [place, a2, b3]
      · exact forall2_append a3 b4
      · simp [tGroupsOnly, groupsOnly]
    | group n =>
      simp only [OpsClean, opsDepth] at hc hd
      have hs1 : SameAs h0 (h.withGroup n).core := by
        unfold H.withGroup
        split <;> exact hs
      obtain ⟨h', tops, pl, b1, b2, b3, b4, b5⟩ := ih (h.withGroup n) hs1 hc.2 hd
      have hg : tGroupsOnly (TOp.group n :: tops) = groupsOnly (Op.group n :: ops) := by
        simp only [tGroupsOnly, groupsOnly, List.all_cons] at b5 ⊢
        rw [b5]
      have hder : h.derive (.group n :: ops) = some h' := by simp [H.derive, H.step, b1]
      by_cases hn : n.isEmpty = true
      · exact ⟨h', .group n :: tops, pl, hder, .cons rfl b2, by simp [place, hn, b3],
          by simpa [chain, hn] using b4, hg⟩
      · by_cases hq : (as.all Attr.isEmpty && groupsOnly ops) = true
        · refine ⟨h', .group n :: tops, [], hder, .cons rfl b2, by simp [place, hn, hq], ?_, hg⟩
          have h2 := hq
          simp only [Bool.and_eq_true] at h2
          rw [listMembers_quiet h2.1] at hms
          simp at hms; subst hms
          cases hts
          simp [chain, hn, b5, hq]
        · refine ⟨h', .group n :: tops, [(n, .obj pl)], hder, .cons rfl b2, ?_, ?_, hg⟩
          · simp [place, hn, hq, b3]
          · simp only [chain, hn, b5, hq]
            exact .cons (rawKey_member hc.1 (objText_text b4)) .nil

/-- The line of a derived handler denotes the specified object; names of small letters are not
escaped. -/
theorem handle_spelled {env : Env} {x : Extras} {o : Options} (ho : o.replace = none)
    (he : EnvClean env) {ops : List Op} {r : Record} (hops : OpsClean env x.timeFormat ops)
    (hrec : RecordClean env x r) (hd : max (opsDepth ops) (listDepth r.attrs) < env.stack) :
    ∃ h pl b, (H.plain (newHandler env o x)).derive ops = some h ∧
      place env x.timeFormat .viaAny ops r.attrs = some pl ∧
      h.handle none r = .line (b ++ [0x0A]) ∧
      LineText b (.obj (builtins env x o.addSource r ++ pl)) ∧ Spelled b := by
  let h0 := newHandler env o x
  have cfgOf : ∀ {h : Handler}, SameAs h0 h → h.cfg.replace = none ∧ h.cfg.env = env ∧
      h.cfg.extras = x := by
    intro h hs
    exact ⟨by show h.options.replace = none; rw [hs.2.1]; exact ho, hs.1, hs.2.2⟩
  have texts : ∃ ts ms, listMembers env x.timeFormat .viaAny r.attrs = some ms ∧
      List.Forall₂ MemberText ts ms ∧
      ∀ h, SameAs h0 h → allTexts (attrTexts h.cfg h.cfg.env.stack) r.attrs = some ts := by
    obtain ⟨ts, ms, a1, a2, a3, _⟩ := allTexts_clean (cfg := h0.cfg) ho (as := r.attrs)
      hrec.attrs (n := env.stack) (by omega)
    refine ⟨ts, ms, a2, a3, ?_⟩
    intro h hs
    obtain ⟨c1, c2, c3⟩ := cfgOf hs
    obtain ⟨ts', ms', a1', a2', a3', _⟩ := allTexts_clean (cfg := h.cfg) c1 (as := r.attrs)
      (by rw [c2, c3]; exact hrec.attrs) (n := h.cfg.env.stack) (by rw [c2]; omega)
    rw [a1']
    -- without a replacement function the texts do not depend on the groups
    have indep : ∀ (n : Nat) (a : Attr), attrTexts h.cfg n a = attrTexts h0.cfg n a := by
      have c0 : h0.cfg.replace = none := ho
      have p : ∀ a, prep h.cfg a = prep h0.cfg a := by intro a; simp [prep, c1, c0]
      have l : ∀ f v, leafText h.cfg f v = leafText h0.cfg f v := by
        intro f v
        have : h.cfg.env = h0.cfg.env ∧ h.cfg.extras = h0.cfg.extras := ⟨hs.1, hs.2.2⟩
        unfold leafText
        rw [this.1, this.2]
      intro n
      induction n with
      | zero => intro a; rfl
      | succ n ih =>
        intro a
        have hall : attrTexts h.cfg n = attrTexts h0.cfg n := funext ih
        simp only [attrTexts, p, l, hall]
    have : attrTexts h.cfg h.cfg.env.stack = attrTexts h0.cfg env.stack := by
      rw [c2]; exact funext (indep _)
    rw [this, a1] at a1'
    exact a1'.symm
  obtain ⟨ts, ms, t1, t2, t3⟩ := texts
  obtain ⟨h, tops, pl, d1, d2, d3, d4, _⟩ := derive_clean (h0 := h0) ho t1 t2 ops (.plain h0)
    ⟨rfl, rfl, rfl⟩ hops (by show _ < env.stack; omega)
  obtain ⟨bs, _, b2⟩ := basics_clean (h := h0) ho he hrec
  have basics : ∀ h, SameAs h0 h → ∃ bs, h.basics r = .ok (St.addTexts ⟨[0x7B], false⟩ bs) ∧
      List.Forall₂ MemberText bs (builtins env x o.addSource r) := by
    intro h hs
    have := basics_clean (h := h) (r := r) (by rw [hs.2.1]; exact ho) (by rw [hs.1]; exact he)
      (by rw [hs.1, hs.2.2]; exact hrec)
    rw [hs.1, hs.2.1, hs.2.2] at this
    exact this
  obtain ⟨s1, s2⟩ := d2.same (h0 := h0) ⟨rfl, rfl, rfl⟩ ⟨rfl, rfl, rfl⟩
  have hbr : (H.plain h0).core.Braces := by intro b hb; simp [H.core, h0, newHandler] at hb
  cases hq : r.attrs.all Attr.isEmpty with
  | false =>
    obtain ⟨bs, b1, b2⟩ := basics _ s1
    refine ⟨h, pl, objText (bs ++ chain false tops ts), d1, d3, ?_, ?_⟩
    · rw [H.handle_loud h r hq, handle_texts b1 (t3 _ s1), finish_core d2 hbr]
      exact congrArg _ (finish_new env o x bs _)
    · rw [hq] at d4
      exact ⟨objText_text (forall2_append b2 d4), objText_spelled (forall2_append b2 d4)⟩
  | true =>
    obtain ⟨bs, b1, b2⟩ := basics _ s2
    refine ⟨h, pl, objText (bs ++ chain true tops ts), d1, d3, ?_, ?_⟩
    · rw [H.handle_quiet h none r hq, handle_texts b1 (t3 _ s2), finish_root d2 hbr]
      have : (if tGroupsOnly tops = true then (H.plain h0).root.finish (St.addTexts ⟨[0x7B], false⟩ bs) ts
          else (H.plain h0).core.finish (St.addTexts ⟨[0x7B], false⟩ bs) (chain true tops ts)) =
          h0.finish (St.addTexts ⟨[0x7B], false⟩ bs) (chain true tops ts) := by
        split
        · rename_i hg; rw [chain_groupsOnly hg]; rfl
        · rfl
      rw [this]
      exact congrArg _ (finish_new env o x bs _)
    · rw [hq] at d4
      exact ⟨objText_text (forall2_append b2 d4), objText_spelled (forall2_append b2 d4)⟩

/-- The line of a derived handler denotes the specified object. -/
theorem handle_clean {env : Env} {x : Extras} {o : Options} (ho : o.replace = none)
    (he : EnvClean env) {ops : List Op} {r : Record} (hops : OpsClean env x.timeFormat ops)
    (hrec : RecordClean env x r) (hd : max (opsDepth ops) (listDepth r.attrs) < env.stack) :
    ∃ h pl b, (H.plain (newHandler env o x)).derive ops = some h ∧
      place env x.timeFormat .viaAny ops r.attrs = some pl ∧
      h.handle none r = .line (b ++ [0x0A]) ∧
      LineText b (.obj (builtins env x o.addSource r ++ pl)) := by
  obtain ⟨h, pl, b, h1, h2, h3, h4, _⟩ := handle_spelled ho he hops hrec hd
  exact ⟨h, pl, b, h1, h2, h3, h4⟩

end Verif.Flash
