import Verif.Props.SloggyLine

/-
Property C78: what a replacement function can do to the line sloggy writes.
-/

set_option linter.unusedSimpArgs false

namespace Verif.Props.SloggyReplace
open Slog Json LogTree Sloggy
open Flash (EnvClean objText allTexts MemberText objText_text forall2_append chain tGroupsOnly chain_groupsOnly finish_core
  finish_root endsOpen Shut)
open SloggyLine (handle_ok)

/-! ### Specification -/

mutual
/-- Keys and values can be printed. A LogValuer is printed as the object it is. -/
def APrint (env : Env) : Attr → Prop
  | .mk k v => Quotable env.isPrint k ∧ VPrint env v
/-- The same for a value. -/
def VPrint (env : Env) : Value → Prop
  | .logValuer o _ => SAnyClean env.isPrint (.obj o)
  | .group as => LPrint env as
  | v => SLeafClean env v
/-- The same for a list. -/
def LPrint (env : Env) : List Attr → Prop
  | [] => True
  | a :: as => APrint env a ∧ LPrint env as
end

/-- The attributes of a chain can be printed, and group names can stand in a JSON string as they
are. -/
def OPrint (env : Env) : List Op → Prop
  | [] => True
  | .attrs as :: ops => LPrint env as ∧ OPrint env ops
  | .group n :: ops => decodeBody n = some n ∧ OPrint env ops

/-- A replacement function that makes printable attributes of printable ones, and does not go on for
ever: if it makes a group of an attribute, the members of the group have a smaller rank. Otherwise
it may do what it likes: rename, remove, make groups of values and values of groups, depending on
the groups it is told. -/
structure Printing (env : Env) (f : AttrFn) (rank : Attr → Nat) : Prop where
  clean : ∀ gs a, APrint env a → APrint env (f gs a)
  ends : ∀ gs a k as, f gs a = .mk k (.group as) → ∀ b ∈ as, rank b < rank a

/-- All attributes of a list and a chain have at most some rank. -/
def Within (rank : Attr → Nat) (n : Nat) (ops : List Op) (as : List Attr) : Prop :=
  (∀ bs, Op.attrs bs ∈ ops → ∀ b ∈ bs, rank b ≤ n) ∧ ∀ a ∈ as, rank a ≤ n

/-- The handler that takes the record: groups opened last are left out if there is nothing to log. -/
def taker (h : H) (r : Record) : Handler := if r.attrs.all Attr.isEmpty then h.root else h.core

/-! ### Printable attributes have images -/

theorem vprint_shown {env : Env} {v : Value} (h : VPrint env v) (hg : v.isGroup = false) : ∃ t, SShown env v t := by
  cases v with
  | logValuer o r =>
    simp only [VPrint] at h
    obtain ⟨t, ht⟩ := sAnyClean_tree h
    exact ⟨t, h, ht⟩
  | group as => cases hg
  | _ =>
    simp only [VPrint] at h
    obtain ⟨t, _, ht⟩ := sLeafClean_tree h
    exact ⟨t, ht⟩

theorem print_attr {S : View} {f : AttrFn} {rank : Attr → Nat} (hS : S.f = some f) (hf : Printing S.env f rank)
    (gs : List Bytes) : ∀ (n : Nat) (a : Attr), APrint S.env a → rank a ≤ n → ∃ ms, SAttr S gs n a ms := by
  intro n
  induction n with
  | zero =>
    intro a ha hd
    cases hgone : S.gone gs a with
    | true => exact ⟨[], .gone hgone⟩
    | false =>
      have hap : S.apply gs a = f (if sBasic a.key then [] else gs) a := by simp [View.apply, hS]
      have h1 := hf.clean (if sBasic a.key then [] else gs) a ha
      have h2 := hf.ends (if sBasic a.key then [] else gs) a
      rw [← hap] at h1 h2
      rcases he : S.apply gs a with ⟨k, v⟩
      rw [he] at h1 h2
      simp only [APrint] at h1
      cases v with
      | group as =>
        cases as with
        | nil => exact ⟨[], .hollow he rfl⟩
        | cons b bs => exact absurd (h2 k _ rfl b (by simp)) (by omega)
      | _ =>
        obtain ⟨t, ht⟩ := vprint_shown h1.2 rfl
        exact ⟨_, .leaf hgone he h1.1 ht⟩
  | succ n ih =>
    intro a ha hd
    cases hgone : S.gone gs a with
    | true => exact ⟨[], .gone hgone⟩
    | false =>
      have hap : S.apply gs a = f (if sBasic a.key then [] else gs) a := by simp [View.apply, hS]
      have h1 := hf.clean (if sBasic a.key then [] else gs) a ha
      have h2 := hf.ends (if sBasic a.key then [] else gs) a
      rw [← hap] at h1 h2
      rcases he : S.apply gs a with ⟨k, v⟩
      rw [he] at h1 h2
      simp only [APrint] at h1
      cases v with
      | group as =>
        have list : ∀ as, LPrint S.env as → (∀ b ∈ as, rank b ≤ n) → ∃ ms, SList S gs n as ms := by
          intro as
          induction as with
          | nil => exact fun _ _ => ⟨[], .nil⟩
          | cons b bs ihb =>
            intro hl hd
            simp only [LPrint] at hl
            obtain ⟨x, hx⟩ := ih b hl.1 (hd b (by simp))
            obtain ⟨y, hy⟩ := ihb hl.2 fun c hc => hd c (by simp [hc])
            exact ⟨_, .cons hx hy⟩
        obtain ⟨ms, hms⟩ := list as (by simpa only [VPrint] using h1.2) fun b hb => by
          have := h2 k as rfl b hb
          omega
        cases hl : listHasLeaf as with
        | false => exact ⟨[], .hollow he hl⟩
        | true =>
          cases k with
          | nil => exact ⟨ms, .inline hgone he hl hms⟩
          | cons c k => exact ⟨_, .group hgone he (by simp) h1.1 hl hms⟩
      | _ =>
        obtain ⟨t, ht⟩ := vprint_shown h1.2 rfl
        exact ⟨_, .leaf hgone he h1.1 ht⟩

theorem print_list {S : View} {f : AttrFn} {rank : Attr → Nat} (hS : S.f = some f) (hf : Printing S.env f rank)
    (gs : List Bytes) (n : Nat) : ∀ as, LPrint S.env as → (∀ a ∈ as, rank a ≤ n) → ∃ ms, SList S gs n as ms := by
  intro as
  induction as with
  | nil => exact fun _ _ => ⟨[], .nil⟩
  | cons b bs ihb =>
    intro hl hd
    simp only [LPrint] at hl
    obtain ⟨x, hx⟩ := print_attr hS hf gs n b hl.1 (hd b (by simp))
    obtain ⟨y, hy⟩ := ihb hl.2 fun c hc => hd c (by simp [hc])
    exact ⟨_, .cons hx hy⟩

theorem print_place {S : View} {f : AttrFn} {rank : Attr → Nat} (hS : S.f = some f) (hf : Printing S.env f rank)
    (n : Nat) {as : List Attr} (has : LPrint S.env as) :
    ∀ (ops : List Op) (gs : List Bytes), OPrint S.env ops → Within rank n ops as → ∃ pl, SPlace S n gs ops as pl := by
  intro ops
  induction ops with
  | nil =>
    intro gs _ hw
    exact print_list hS hf gs n as has hw.2
  | cons op ops ih =>
    intro gs ho hw
    have hw' : Within rank n ops as := ⟨fun bs hbs => hw.1 bs (by simp [hbs]), hw.2⟩
    cases op with
    | attrs bs =>
      simp only [OPrint] at ho
      obtain ⟨x, h1⟩ := print_list hS hf gs n bs ho.1 (hw.1 bs (by simp))
      obtain ⟨y, h2⟩ := ih gs ho.2 hw'
      exact ⟨x ++ y, x, y, h1, h2, rfl⟩
    | group g =>
      simp only [OPrint] at ho
      by_cases hg : g.isEmpty = true
      · obtain ⟨y, h⟩ := ih gs ho.2 hw'
        exact ⟨y, by rw [SPlace, if_pos hg]; exact h⟩
      · by_cases hq : (as.all Attr.isEmpty && groupsOnly ops) = true
        · exact ⟨[], by rw [SPlace, if_neg hg, if_pos hq]⟩
        · obtain ⟨y, h⟩ := ih (gs ++ [g]) ho.2 hw'
          exact ⟨[(g, .obj y)], by rw [SPlace, if_neg hg, if_neg hq]; exact ⟨ho.1, y, h, rfl⟩⟩

/-! ### Without built-in fields -/

/-- `Handle` without a prefix. -/
theorem handle_plain {h : Handler} {r : Record} {bs ts : List Bytes}
    (hb : allTexts (attrTexts (h.cfg sure) h.env.stack) (basics h.env h.options.addSource r) = some bs)
    (hp : h.pfx = [])
    (ht : allTexts (attrTexts (h.cfg sure) h.env.stack) r.attrs = some ts) :
    ∃ st, h.handle sure r = .ok st ∧ st.out.flatten =
      h.toFlash.finish (Flash.St.addTexts ⟨[0x7B], false⟩ bs) ts ++ [0x7D, 0x0D, 0x0A] := by
  obtain ⟨c1, e1, f1⟩ := addAttributes_adds (cfg := h.cfg sure) rfl hb ⟨[[0x7B]], false⟩
  simp only at e1 f1
  have w : ∀ b st, write (h.cfg sure) b st = .ok ⟨st.out ++ [b], st.started⟩ := by
    intro b st; rfl
  have hp' : ¬ h.pfx.length > 0 := by rw [hp]; decide
  have hp'' : ¬ h.toFlash.pfx.length > 0 := hp'
  rw [Handler.handle]
  simp only [w, Out.bind, List.nil_append, e1, Handler.addPrefix]
  rw [if_neg hp']
  obtain ⟨c2, e2, f2⟩ := addAttributes_adds (cfg := h.cfg sure) rfl ht ⟨[[0x7B]] ++ c1, false || !bs.isEmpty⟩
  simp only [e2]
  refine ⟨_, rfl, ?_⟩
  simp only at f2
  simp only [Flash.Handler.finish, Flash.Handler.addPrefix, if_neg hp'']
  simp [f1, f2, Flash.St.addTexts, Handler.toFlash]

/-- `Handle` with a prefix, all built-in fields removed. -/
theorem handle_bare {h : Handler} {r : Record} {ts : List Bytes}
    (hb : allTexts (attrTexts (h.cfg sure) h.env.stack) (basics h.env h.options.addSource r) = some [])
    (hp : h.pfx ≠ [])
    (ht : allTexts (attrTexts (h.cfg sure) h.env.stack) r.attrs = some ts) :
    ∃ st b, h.handle sure r = .ok st ∧ st.out.flatten = b!"{, " ++ b ++ [0x0D, 0x0A] := by
  obtain ⟨c1, e1, f1⟩ := addAttributes_adds (cfg := h.cfg sure) rfl hb ⟨[[0x7B]], false⟩
  simp only at e1 f1
  have w : ∀ b st, write (h.cfg sure) b st = .ok ⟨st.out ++ [b], st.started⟩ := by
    intro b st; rfl
  have hp' : h.pfx.length > 0 := List.length_pos_iff.2 hp
  rw [Handler.handle]
  simp only [w, Out.bind, List.nil_append, e1, Handler.addPrefix]
  rw [if_pos hp']
  cases ho : endsOpen h.pfx with
  | true =>
    obtain ⟨c2, e2, f2⟩ := addAttributes_adds (cfg := h.cfg sure) rfl ht
      ⟨[[0x7B]] ++ c1 ++ [[0x2C, 0x20]] ++ [h.pfx], false⟩
    simp only [if_true, e2]
    refine ⟨_, h.pfx ++ (c2.flatten ++ (h.sfx ++ [0x7D])), rfl, ?_⟩
    have f1' : c1.flatten = [] := f1
    simp [f1', -List.flatten_eq_nil_iff]
  | false =>
    obtain ⟨c2, e2, f2⟩ := addAttributes_adds (cfg := h.cfg sure) rfl ht
      ⟨[[0x7B]] ++ c1 ++ [[0x2C, 0x20]] ++ [h.pfx], false || !List.isEmpty ([] : List Bytes)⟩
    simp only [Bool.false_eq_true, if_false, e2]
    refine ⟨_, h.pfx ++ (c2.flatten ++ (h.sfx ++ [0x7D])), rfl, ?_⟩
    have f1' : c1.flatten = [] := f1
    simp [f1', -List.flatten_eq_nil_iff]

/-- No JSON value begins with `{, `. -/
theorem bare_not_json (b : Bytes) : ¬ ∃ t, Denotes (b!"{, " ++ b) t := by
  rintro ⟨t, c, hc, _⟩
  have := parse_of_val hc
  rw [parse] at this
  simp [skipWs, isWs, parseVal, parseMembers] at this

/-- The line of a derived handler, whatever is left of the built-in fields. -/
theorem handle_any {env : Env} {o : Flash.Options} {ops : List Op} {r : Record} {n : Nat}
    (hn : n < env.stack) {bm pl : List (Bytes × Tree)}
    (hb : SList (viewOf env o) (opened (r.attrs.all Attr.isEmpty) [] ops) n (basics env o.addSource r) bm)
    (hp : SPlace (viewOf env o) n [] ops r.attrs pl) :
    ∃ h st b, (H.plain (newHandler env o)).derive ops = some h ∧
      h.handle none sure r = .ok st ∧ st.out.flatten = b ++ [0x0D, 0x0A] ∧
      ((bm ≠ [] ∨ (taker h r).pfx = []) → LineText b (.obj (bm ++ pl))) ∧
      ((∃ t, Denotes b t) → bm ≠ [] ∨ (taker h r).pfx = []) := by
  by_cases hne : bm ≠ []
  · obtain ⟨h, st, b, h1, h2, h3, h4⟩ := handle_shown hn hb hne hp
    exact ⟨h, st, b, h1, h2, h3, fun _ => h4, fun _ => .inl hne⟩
  simp only [ne_eq, not_not] at hne
  subst hne
  let h0 := newHandler env o
  obtain ⟨h, tops, ts, d1, d2, d3, d4, _, d6, s1, s2⟩ := derive_shown (h0 := h0) (as := r.attrs) (n := n)
    hn ops (.plain h0) pl ⟨rfl, rfl⟩ ⟨rfl, rfl⟩ (fun _ _ => rfl) hp
  have hbr : (H.plain h0).toFlash.core.Braces := by
    intro b hb; simp [Flash.H.core, H.toFlash, Handler.toFlash, h0, newHandler] at hb
  have basics : ∀ hh : Handler, SameAs h0 hh → hh.groups = opened (r.attrs.all Attr.isEmpty) [] ops →
      allTexts (attrTexts (hh.cfg sure) hh.env.stack) (basics hh.env hh.options.addSource r) = some [] := by
    intro hh hs hg
    obtain ⟨bs, e1, e2⟩ := slist_texts (matches_of hs sure) (by rw [hg]; exact hb) _ hn
    cases e2
    rw [hs.1, hs.2]; exact e1
  have line : ∀ hh : Handler, taker h r = hh → SameAs h0 hh → hh.groups = opened (r.attrs.all Attr.isEmpty) [] ops →
      allTexts (attrTexts (hh.cfg sure) h0.env.stack) r.attrs = some ts →
      h.handle none sure r = hh.handle sure r →
      (hh.pfx = [] → hh.toFlash.finish (Flash.St.addTexts ⟨[0x7B], false⟩ []) ts ++ [0x7D, 0x0D, 0x0A] =
        objText (chain (r.attrs.all Attr.isEmpty) tops ts) ++ [0x0D, 0x0A]) →
      ∃ h st b, (H.plain (newHandler env o)).derive ops = some h ∧
        h.handle none sure r = .ok st ∧ st.out.flatten = b ++ [0x0D, 0x0A] ∧
        (([] : List (Bytes × Tree)) ≠ [] ∨ (taker h r).pfx = [] → LineText b (.obj ([] ++ pl))) ∧
        ((∃ t, Denotes b t) → ([] : List (Bytes × Tree)) ≠ [] ∨ (taker h r).pfx = []) := by
    intro hh ht hs hg ha hh1 hfin
    have hst : hh.env.stack = h0.env.stack := by rw [hs.1]
    by_cases hpf : hh.pfx = []
    · obtain ⟨st, e1, e2⟩ := handle_plain (basics hh hs hg) hpf (by rw [hst]; exact ha)
      refine ⟨h, st, objText (chain (r.attrs.all Attr.isEmpty) tops ts), d1, by rw [hh1, e1], ?_, fun _ => ?_, fun _ => ?_⟩
      · rw [e2, hfin hpf]
      · exact objText_text d4
      · rw [ht]; exact .inr hpf
    · obtain ⟨st, b, e1, e2⟩ := handle_bare (basics hh hs hg) hpf (by rw [hst]; exact ha)
      refine ⟨h, st, b!"{, " ++ b, d1, by rw [hh1, e1], e2, ?_, fun h => (bare_not_json _ h).elim⟩
      rintro (h | h)
      · exact (h rfl).elim
      · rw [ht] at h; exact (hpf h).elim
  cases hq : r.attrs.all Attr.isEmpty with
  | false =>
    rw [hq] at d3 d6 line
    refine line h.core (by simp [taker, hq]) s1 d6 d3 (H.handle_loud h sure r hq) fun _ => ?_
    rw [← core_toFlash, finish_core d2 hbr]
    exact finish_new env o [] _
  | true =>
    rw [hq] at d3 d6 line
    refine line h.root (by simp [taker, hq]) s2 d6 d3 (H.handle_quiet h none sure r hq) fun _ => ?_
    rw [← root_toFlash, finish_root d2 hbr]
    have : (if tGroupsOnly tops = true then
        (H.plain h0).toFlash.root.finish (Flash.St.addTexts ⟨[0x7B], false⟩ []) ts
        else (H.plain h0).toFlash.core.finish (Flash.St.addTexts ⟨[0x7B], false⟩ []) (chain true tops ts)) =
        h0.toFlash.finish (Flash.St.addTexts ⟨[0x7B], false⟩ []) (chain true tops ts) := by
      split
      · rename_i hg; rw [chain_groupsOnly hg]; rfl
      · rfl
    rw [this]
    exact finish_new env o [] _

/-! ### C78 -/

theorem basics_print {env : Env} (he : EnvClean env) {r : Record} (hc : SRecordClean env { r with attrs := [] })
    (src : Bool) : LPrint env (basics env src r) := by
  have q : ∀ {s : Bytes}, s.all (fun a => 0x20 ≤ a && a < 0x7F) = true → Quotable env.isPrint s := quotable_ascii
  obtain ⟨b, h1, h2⟩ := source_clean he hc.function hc.file
  simp only [sourceObj, Res.ok.injEq] at h1
  subst h1
  have hl := levelString_quotable env.isPrint r.level
  have ht := hc.time
  have hm := hc.message
  unfold basics
  cases e : r.time <;> cases src <;> cases e3 : (r.pc != 0) <;>
    simp_all [LPrint, APrint, VPrint, SLeafClean, SAnyClean, sourceObj, q] <;>
    exact ⟨_, h2⟩

/-- C78 in full: the line is a JSON value whatever the replacement function does. -/
def C78_statement : Prop :=
  ∀ (env : Env) (o : Flash.Options) (f : AttrFn) (rank : Attr → Nat) (n : Nat) (ops : List Op) (r : Record),
    o.replace = some f → EnvClean env → Printing env f rank → OPrint env ops →
    SRecordClean env { r with attrs := [] } → LPrint env r.attrs →
    Within rank n ops (basics env o.addSource r ++ r.attrs) → n < env.stack →
    ∃ h b, (H.plain (newHandler env o)).derive ops = some h ∧ (∃ t, Denotes b t) ∧
      ∀ w st, h.handle none w r = .ok st → st.out.flatten = b ++ [0x0D, 0x0A]

/-- C78, exactly: for every function that makes printable attributes of printable ones, the handler
exists and a call that succeeds has written a line. It is a JSON object with the members that are
left of the built-in fields and of the attributes, unless none of the built-in fields is left and
the handler has a prefix; then it is not JSON at all. -/
theorem C78_sloggy_partial (env : Env) (o : Flash.Options) (f : AttrFn) (rank : Attr → Nat) (n : Nat) (ops : List Op)
    (r : Record) (ho : o.replace = some f) (he : EnvClean env) (hf : Printing env f rank) (hops : OPrint env ops)
    (hr : SRecordClean env { r with attrs := [] }) (has : LPrint env r.attrs)
    (hw : Within rank n ops (basics env o.addSource r ++ r.attrs)) (hd : n < env.stack) :
    ∃ h b bm pl, (H.plain (newHandler env o)).derive ops = some h ∧
      (∃ st, h.handle none sure r = .ok st) ∧
      (∀ w st, h.handle none w r = .ok st → st.out.flatten = b ++ [0x0D, 0x0A]) ∧
      SList ⟨env, some f⟩ (opened (r.attrs.all Attr.isEmpty) [] ops) n (basics env o.addSource r) bm ∧
      SPlace ⟨env, some f⟩ n [] ops r.attrs pl ∧
      ((∃ t, Denotes b t) ↔ bm ≠ [] ∨ (taker h r).pfx = []) ∧
      ((bm ≠ [] ∨ (taker h r).pfx = []) → LineText b (.obj (bm ++ pl))) := by
  have e : (⟨env, some f⟩ : View) = viewOf env o := by rw [← ho]; rfl
  obtain ⟨bm, hb⟩ := print_list (S := viewOf env o) (f := f) ho hf (opened (r.attrs.all Attr.isEmpty) [] ops)
    n _ (basics_print he hr o.addSource) fun a ha => hw.2 a (by simp [ha])
  obtain ⟨pl, hp⟩ := print_place (S := viewOf env o) (f := f) ho hf n has ops [] hops
    ⟨hw.1, fun a ha => hw.2 a (by simp [ha])⟩
  obtain ⟨h, st, b, h1, h2, h3, h4, h5⟩ := handle_any hd hb hp
  exact ⟨h, b, bm, pl, h1, ⟨st, h2⟩, fun w st' hw => by rw [handle_ok h2 hw, h3], by rw [e]; exact hb,
    by rw [e]; exact hp, ⟨h5, fun hc => ⟨_, (h4 hc).1⟩⟩, h4⟩

theorem slist_kept {S : View} {gs : List Bytes} {n : Nat} {as : List Attr} {ms : List (Bytes × Tree)}
    (h : SList S gs n as ms) {a : Attr} (ha : a ∈ as) (hg : S.gone gs a = false)
    (hv : (S.apply gs a).value.isGroup = false) : ms ≠ [] := by
  induction as generalizing ms with
  | nil => cases ha
  | cons b bs ih =>
    cases h with
    | cons h1 h2 =>
      rcases List.mem_cons.1 ha with rfl | ha
      · cases h1 with
        | gone h => rw [hg] at h; cases h
        | hollow h _ => rw [h] at hv; cases hv
        | inline _ h _ _ => rw [h] at hv; cases hv
        | group _ h _ _ _ _ => simp
        | leaf _ _ _ _ => simp
      · simp [ih h2 ha]

/-- In particular the line is a JSON object if one of the built-in fields is kept, perhaps renamed or
with another value, or if no attributes were given and no groups opened before. -/
theorem C78_kept_partial (env : Env) (o : Flash.Options) (f : AttrFn) (rank : Attr → Nat) (n : Nat) (ops : List Op)
    (r : Record) (ho : o.replace = some f) (he : EnvClean env) (hf : Printing env f rank) (hops : OPrint env ops)
    (hr : SRecordClean env { r with attrs := [] }) (has : LPrint env r.attrs)
    (hw : Within rank n ops (basics env o.addSource r ++ r.attrs)) (hd : n < env.stack)
    (hk : ops = [] ∨ ∃ a ∈ basics env o.addSource r, (f [] a).isEmpty = false ∧ (f [] a).value.isGroup = false) :
    ∃ h b ms, (H.plain (newHandler env o)).derive ops = some h ∧ LineText b (.obj ms) ∧
      (∃ st, h.handle none sure r = .ok st) ∧
      ∀ w st, h.handle none w r = .ok st → st.out.flatten = b ++ [0x0D, 0x0A] := by
  obtain ⟨h, b, bm, pl, h1, h2, h3, h4, _, _, h7⟩ := C78_sloggy_partial env o f rank n ops r ho he hf hops hr has hw hd
  refine ⟨h, b, bm ++ pl, h1, h7 ?_, h2, h3⟩
  rcases hk with rfl | ⟨a, ha, hg, hv⟩
  · right
    rw [H.derive, Option.some.injEq] at h1
    subst h1
    unfold taker
    split <;> rfl
  · left
    have hb : sBasic a.key = true ∧ a.isEmpty = false := by
      unfold basics at ha
      simp only [List.mem_append, List.mem_cons, List.not_mem_nil, or_false] at ha
      rcases ha with (ha | rfl | rfl) | ha
      · cases ht : r.time with
        | none => rw [ht] at ha; cases ha
        | some t =>
          rw [ht] at ha
          rw [List.mem_singleton.1 ha]
          exact ⟨rfl, rfl⟩
      · exact ⟨rfl, rfl⟩
      · exact ⟨rfl, rfl⟩
      · split at ha
        · rw [List.mem_singleton.1 ha]
          exact ⟨rfl, rfl⟩
        · cases ha
    have ap : (⟨env, some f⟩ : View).apply (opened (r.attrs.all Attr.isEmpty) [] ops) a = f [] a := by
      simp [View.apply, hb.1]
    refine slist_kept h4 ha ?_ (by rw [ap]; exact hv)
    rw [View.gone, ap, hb.2, hg]
    rfl

theorem attr_depth_mem {as : List Attr} {a : Attr} (h : a ∈ as) : attrDepth a ≤ listDepth as := by
  induction as with
  | nil => cases h
  | cons b bs ih =>
    simp only [listDepth]
    rcases List.mem_cons.1 h with rfl | h
    · omega
    · have := ih h; omega

/-- Dropping attributes is fine for the rank: the depth. -/
theorem drop_printing (env : Env) (p : List Bytes → Attr → Bool) :
    Printing env (fun gs a => if p gs a then emptyAttr else a) attrDepth where
  clean := by
    intro gs a ha
    split
    · simp only [emptyAttr, APrint, VPrint, SLeafClean, SAnyClean]
      exact ⟨.nil, trivial⟩
    · exact ha
  ends := by
    intro gs a k as h b hb
    split at h
    · cases h
    · subst h
      have := attr_depth_mem hb
      simp only [attrDepth, valDepth]
      omega

/-- C78 is false: with attributes given before and no built-in field the line begins with `{, `. -/
theorem C78_fails : ¬ C78_statement := by
  intro h
  have q : ∀ {s : Bytes}, s.all (fun a => 0x20 ≤ a && a < 0x7F) = true → Quotable Flash.Sample.env.isPrint s := quotable_ascii
  obtain ⟨h', b, h1, ⟨t, c, hc, _⟩, h3⟩ := h Flash.Sample.env { replace := some fun _ a => if sBasic a.key then emptyAttr else a } _ attrDepth 0
    [.attrs [Flash.Sample.s b!"a" b!"x"]] { time := none, level := 0, message := b!"m" } rfl Flash.Sample.env_clean
    (drop_printing _ fun _ a => sBasic a.key)
    ⟨⟨⟨q (by decide), q (by decide)⟩, trivial⟩, trivial⟩
    ⟨by simp, q (by decide), by decide, by decide, trivial⟩ trivial
    ⟨by simp [Flash.Sample.s, attrDepth, valDepth], by simp [basics, attrDepth, valDepth]⟩ (by decide)
  cases h1
  have := h3 sure _ rfl
  have e : (b!"{, \"a\": \"x\"}" : Bytes) ++ [0x0D, 0x0A] = b ++ [0x0D, 0x0A] := by
    rw [← this]; decide +kernel
  rw [← List.append_cancel_right e] at hc
  exact not_val_of_parse (by decide +kernel) ⟨c, hc⟩

/-! ### Example -/

/-- A function that removes `a`, renames the message, and makes a group of `user`. -/
def remake : AttrFn := fun _ a =>
  if a.key == b!"a" then emptyAttr
  else if a.key == b!"msg" then .mk b!"text" a.value
  else if a.key == b!"user" then .mk b!"who" (.group [.mk b!"id" a.value, .mk b!"a" (.int64 1)])
  else a

/-- Its rank. -/
def remakeRank (a : Attr) : Nat := 2 * attrDepth a + if a.key == b!"user" then 1 else 0

theorem remake_printing (env : Env) : Printing env remake remakeRank where
  clean := by
    intro gs a ha
    have q : ∀ {s : Bytes}, s.all (fun a => 0x20 ≤ a && a < 0x7F) = true → Quotable env.isPrint s := quotable_ascii
    have hv : VPrint env a.value := by cases a; simp only [APrint] at ha; exact ha.2
    unfold remake
    split
    · simp only [emptyAttr, APrint, VPrint, SLeafClean, SAnyClean]
      exact ⟨.nil, trivial⟩
    · split
      · simp only [APrint]; exact ⟨q (by decide), hv⟩
      · split
        · simp only [APrint, VPrint, LPrint, SLeafClean]
          exact ⟨q (by decide), ⟨q (by decide), hv⟩, ⟨q (by decide), trivial⟩, trivial⟩
        · exact ha
  ends := by
    intro gs a k as h b hb
    unfold remake at h
    split at h
    · cases h
    · split at h
      · rcases a with ⟨ka, v⟩
        simp only [Attr.value, Attr.mk.injEq] at h
        rw [h.2]
        have := attr_depth_mem hb
        simp only [remakeRank, attrDepth, valDepth]
        split <;> omega
      · split at h
        · rename_i hk
          rcases a with ⟨ka, v⟩
          simp only [Attr.value, Attr.mk.injEq, Value.group.injEq] at h
          rw [← h.2] at hb
          have hk' : (ka == b!"user") = true := hk
          simp only [List.mem_cons, List.not_mem_nil, or_false] at hb
          rcases hb with rfl | rfl <;> simp [remakeRank, attrDepth, valDepth, Attr.key, beq_iff_eq.1 hk']
        · subst h
          have := attr_depth_mem hb
          simp only [remakeRank, attrDepth, valDepth]
          split <;> omega

/-- The record of the example: a group that loses its only member, and a value that becomes a group. -/
def remakeRecord : Record :=
  { time := some 7, level := 0, message := b!"m",
    attrs := [.grp b!"g" [Flash.Sample.i b!"a" 1], Flash.Sample.i b!"user" 5] }

/-- A case meeting the hypotheses, for both theorems. -/
example : OPrint Flash.Sample.env [.attrs [Flash.Sample.s b!"user" b!"x"], .group b!"h"] ∧
    SRecordClean Flash.Sample.env { remakeRecord with attrs := [] } ∧ LPrint Flash.Sample.env remakeRecord.attrs ∧
    Within remakeRank 2 [.attrs [Flash.Sample.s b!"user" b!"x"], .group b!"h"]
      (basics Flash.Sample.env false remakeRecord ++ remakeRecord.attrs) ∧
    (∃ a ∈ basics Flash.Sample.env false remakeRecord, (remake [] a).isEmpty = false ∧ (remake [] a).value.isGroup = false) := by
  have q : ∀ {s : Bytes}, s.all (fun a => 0x20 ≤ a && a < 0x7F) = true → Quotable Flash.Sample.env.isPrint s := quotable_ascii
  refine ⟨⟨⟨⟨q (by decide), q (by decide)⟩, trivial⟩, by decide, trivial⟩,
    ⟨fun t _ => SloggyLine.time_quotable t, q (by decide), by decide, by decide, trivial⟩, ?_, ?_, ?_⟩
  · simp only [remakeRecord, Attr.grp, Flash.Sample.i, LPrint, APrint, VPrint, SLeafClean]
    exact ⟨⟨q (by decide), ⟨q (by decide), trivial⟩, trivial⟩, ⟨q (by decide), trivial⟩, trivial⟩
  · constructor
    · simp [Flash.Sample.s, remakeRank, attrDepth, valDepth, Attr.key]
    · simp [basics, remakeRecord, Flash.Sample.i, Attr.grp, remakeRank, attrDepth, valDepth, listDepth, Attr.key]
  · exact ⟨.mk b!"level" (.string (levelString 0)), by simp [basics, remakeRecord], by rfl, by rfl⟩

/-- The line written in that case. -/
example : ((H.plain (newHandler Flash.Sample.env { replace := some remake })).derive
      [.attrs [Flash.Sample.s b!"user" b!"x"], .group b!"h"]).map
      (fun h => match h.handle none sure remakeRecord with
        | .ok st => st.out.flatten
        | _ => []) =
    some b!"{\"time\": \"T7\", \"level\": \"INFO\", \"text\": \"m\", \"who\": {\"id\": \"x\"}, \"h\": {\"g\": {}, \"who\": {\"id\": 5}}}\r\n" := by
  decide +kernel

end Verif.Props.SloggyReplace
