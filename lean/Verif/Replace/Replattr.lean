import Verif.Spec.Letters

/-
The replattr handler against a plain flash handler: lemmas for property C26.
-/

set_option linter.unusedSimpArgs false

namespace Verif.Replace
open Slog Flash Letters

/-- The keys the replattr handler treats in a special way. -/
def reserved : List Bytes := [b!"message", b!"msg", b!"lvl", b!"level"]

mutual
/-- Attributes the replattr functions leave alone: no reserved key at any depth.
`user` tells whether there is a ReplaceAttr of the user; without one there are no
LogValuers, with one no attribute has neither key nor members. -/
def AttrPlain (user : Bool) : Attr → Prop
  | .mk k v => k ∉ reserved ∧ (user = true → k = [] → v.isGroup = true) ∧ ValPlain user v
/-- The values of such attributes. -/
def ValPlain (user : Bool) : Value → Prop
  | .group as => ListPlain user as
  | .logValuer _ r => user = true ∧ ValPlain user r
  | _ => True
/-- All members. -/
def ListPlain (user : Bool) : List Attr → Prop
  | [] => True
  | a :: as => AttrPlain user a ∧ ListPlain user as
end

theorem listPlain_iff {user : Bool} {as : List Attr} :
    ListPlain user as ↔ ∀ a ∈ as, AttrPlain user a := by
  induction as with
  | nil => simp [ListPlain]
  | cons a as ih => simp [ListPlain, ih]

theorem valPlain_resolve {user : Bool} : ∀ {v : Value}, ValPlain user v → ValPlain user v.resolve
  | .logValuer _ r, h => by
    rw [Value.resolve]
    exact valPlain_resolve (by simp only [ValPlain] at h; exact h.2)
  | .any _, h => h
  | .bool _, h => h
  | .duration _, h => h
  | .float64 _, h => h
  | .int64 _, h => h
  | .string _, h => h
  | .time _, h => h
  | .uint64 _, h => h
  | .group _, h => h

/-- The functions in front, one by one. -/
theorem front_message (L : Lib) (groups : List Bytes) (a : Attr) (hk : a.key ≠ b!"message") :
    changeKey L b!"message" b!"msg" false (some topCheck) groups a = a := by
  unfold changeKey checkFieldGroups
  simp only [Bool.false_eq_true, if_false, beq_eq_false_iff_ne.2 hk, Bool.false_and]

theorem front_lvl (L : Lib) (groups : List Bytes) (a : Attr) (hk : a.key ≠ b!"lvl") :
    changeKey L b!"lvl" b!"level" false (some topCheck) groups a = a := by
  unfold changeKey checkFieldGroups
  simp only [Bool.false_eq_true, if_false, beq_eq_false_iff_ne.2 hk, Bool.false_and]

theorem front_case (L : Lib) : changeCase L b!"level" 2 false (some topCheck) =
    changeValue L b!"level" (fun v => .string (L.toUpper (L.valueString v))) false (some topCheck) := by
  unfold changeCase caseFn
  simp only [ne_eq, (by decide : ¬ (2 : UInt8) = 0), (by decide : ¬ (2 : UInt8) = 1), not_false_eq_true,
    if_true, if_false]

theorem front_level (L : Lib) (groups : List Bytes) (a : Attr) (hk : a.key ≠ b!"level") :
    changeCase L b!"level" 2 false (some topCheck) groups a = a := by
  rw [front_case]
  unfold changeValue checkFieldGroups
  simp only [Bool.false_eq_true, if_false, beq_eq_false_iff_ne.2 hk, Bool.false_and]

/-- The user's function, or none. -/
def last (user : Option AttrFn) : AttrFn := user.getD fun _ a => a

theorem multiple_tail (user : Option AttrFn) (groups : List Bytes) (a : Attr) :
    multiple (match user with | none => [] | some f => [f]) groups a = last user groups a := by
  cases user with
  | none => rfl
  | some f =>
    simp only [multiple, last, Option.getD_some]
    split <;> rfl

/-- The three functions in front leave such a key alone. -/
theorem replattr_same (L : Lib) (user : Option AttrFn) (groups : List Bytes) (a : Attr)
    (hk : a.key ∉ reserved) (he : user.isSome = true → a.isEmpty = false) :
    multiple (replattrFns L user) groups a = last user groups a := by
  have hk : a.key ≠ b!"message" ∧ a.key ≠ b!"msg" ∧ a.key ≠ b!"lvl" ∧ a.key ≠ b!"level" := by
    simpa [reserved] using hk
  unfold replattrFns
  simp only [List.cons_append, List.nil_append, multiple, front_message L groups a hk.1,
    front_lvl L groups a hk.2.2.1, front_level L groups a hk.2.2.2]
  by_cases h : a.isEmpty = true
  · cases user with
    | none => simp [h, last]
    | some f => rw [he rfl] at h; exact absurd h (by decide)
  · simp only [h, Bool.false_eq_true, if_false]
    exact multiple_tail user groups a

theorem isEmpty_key {a : Attr} (h : a.key ≠ []) : a.isEmpty = false := by
  obtain ⟨k, v⟩ := a
  unfold Attr.isEmpty
  split
  · rename_i e; cases e; exact absurd rfl h
  · rfl

/-- The message. -/
theorem replattr_message (L : Lib) (user : Option AttrFn) (v : Value) :
    multiple (replattrFns L user) [] (.mk b!"message" v) = last user [] (.mk b!"msg" v) := by
  have h1 : changeKey L b!"message" b!"msg" false (some topCheck) [] (.mk b!"message" v) = .mk b!"msg" v := rfl
  have h2 := front_lvl L [] (.mk b!"msg" v) (by simp [Attr.key])
  have h3 := front_level L [] (.mk b!"msg" v) (by simp [Attr.key])
  have h4 : (Attr.mk b!"msg" v).isEmpty = false := isEmpty_key (by simp [Attr.key])
  unfold replattrFns
  simp only [List.cons_append, List.nil_append, multiple, h1, h2, h3, h4,
    Bool.false_eq_true, if_false]
  exact multiple_tail user _ _

/-- The level. -/
theorem replattr_level (L : Lib) (user : Option AttrFn) (v : Value) :
    multiple (replattrFns L user) [] (.mk b!"lvl" v) =
      last user [] (.mk b!"level" (.string (L.toUpper (L.valueString v)))) := by
  have h1 := front_message L [] (.mk b!"lvl" v) (by simp [Attr.key])
  have h2 : changeKey L b!"lvl" b!"level" false (some topCheck) [] (.mk b!"lvl" v) = .mk b!"level" v := rfl
  have h3 : changeCase L b!"level" 2 false (some topCheck) [] (.mk b!"level" v) =
      .mk b!"level" (.string (L.toUpper (L.valueString v))) := by rw [front_case]; rfl
  have h4 : (Attr.mk b!"lvl" v).isEmpty = false := isEmpty_key (by simp [Attr.key])
  have h5 : ∀ v, (Attr.mk b!"level" v).isEmpty = false := fun v => isEmpty_key (by simp [Attr.key])
  unfold replattrFns
  simp only [List.cons_append, List.nil_append, multiple, h1, h2, h3, h4, h5,
    Bool.false_eq_true, if_false]
  exact multiple_tail user _ _

/-- Two composer settings, one with the replattr functions in front. -/
structure Beside (L : Lib) (user : Option AttrFn) (c c' : Cfg) : Prop where
  env : c'.env = c.env
  replace : c.replace = user
  replace' : c'.replace = some (multiple (replattrFns L user))
  groups : user.isSome = true → c'.groups = c.groups
  time : c'.extras.timeFormat = c.extras.timeFormat
  basic : ∀ k, k ∉ reserved → c'.isBasic k = c.isBasic k

/-- What is asked of the user's ReplaceAttr: it does not make up reserved keys inside
groups. -/
def UserPlain (user : Option AttrFn) : Prop :=
  ∀ f, user = some f → ∀ gs a, ValPlain true a.value → ValPlain true (f gs a).value

theorem addLeaf_beside {L user} {c c' : Cfg} (hb : Beside L user c c') (fa : Bool) (st : St) (v : Value) :
    addLeaf c' fa st v = addLeaf c fa st v := by
  have ht : ∀ st : St, ∀ t, st.addTime c' t = st.addTime c t := by
    intro st t; unfold St.addTime; rw [hb.env, hb.time]
  unfold addLeaf
  cases fa <;> cases v <;> simp [ht, hb.env]

theorem prep_beside {L user} {c c' : Cfg} (hb : Beside L user c c') {a : Attr}
    (hk : a.key ∉ reserved) (hv : ValPlain user.isSome a.value)
    (he : user.isSome = true → a.key = [] → a.value.resolve.isGroup = true) :
    prep c' a = prep c a := by
  unfold prep
  simp only [hb.replace, hb.replace']
  cases user with
  | none =>
    have hl : a.value.isLogValuer = false := by
      obtain ⟨k, v⟩ := a
      cases v <;> simp_all [Value.isLogValuer, ValPlain]
    simp only [hl, Bool.false_eq_true, if_false]
    rw [replattr_same L none _ a hk (by simp)]
    rfl
  | some f =>
    simp only
    generalize h1 : (if a.value.isLogValuer = true then Attr.mk a.key a.value.resolve else a) = a1
    have hkey : a1.key = a.key := by rw [← h1]; split <;> rfl
    have hval : a1.value = a.value.resolve := by
      rw [← h1]
      split
      · rfl
      · rename_i h
        obtain ⟨k, v⟩ := a
        cases v <;> first | rfl | simp [Value.isLogValuer] at h
    rw [hkey, hb.basic _ hk, replattr_same L (some f) _ a1 (by rw [hkey]; exact hk) (fun _ => ?_),
      hb.groups rfl]
    · simp only [last, Option.getD_some]
    · by_cases hz : a.key = []
      · have := he rfl hz
        rw [← hval] at this
        clear h1 hval
        obtain ⟨k, v⟩ := a1
        cases v with
        | group as => cases k <;> rfl
        | _ => simp [Value.isGroup, Attr.value] at this
      · exact isEmpty_key (by rw [hkey]; exact hz)

theorem addAll_congr {f g : St → Attr → Out} : ∀ (as : List Attr), (∀ a ∈ as, ∀ st, f st a = g st a) →
    ∀ st, addAll f st as = addAll g st as
  | [], _, _ => rfl
  | a :: as, h, st => by
    unfold addAll
    rw [h a (by simp) st]
    cases g st a with
    | ok st' => exact addAll_congr as (fun x hx => h x (by simp [hx])) st'
    | err st' m => rfl
    | overflow => rfl

/-- What comes out of `prep` has plain members. -/
theorem prep_plain {L user} (hu : UserPlain user) {c c' : Cfg} (hb : Beside L user c c') {a : Attr}
    (hv : ValPlain user.isSome a.value) : ValPlain user.isSome (prep c a).1.value := by
  have hres : ValPlain user.isSome
      (if a.value.isLogValuer = true then Attr.mk a.key a.value.resolve else a).value := by
    split
    · exact valPlain_resolve hv
    · exact hv
  unfold prep
  rw [hb.replace]
  cases user with
  | none => exact hres
  | some f => exact hu f rfl _ _ hres

/-- One attribute, if the same comes out of `prep`. -/
theorem addAttribute_same {L user} {c c' : Cfg} (hb : Beside L user c c') {n : Nat}
    (ih : ∀ (st : St) (a : Attr), AttrPlain user.isSome a → addAttribute c' n st a = addAttribute c n st a)
    {a a' : Attr} (hp : prep c' a' = prep c a) (hm : ValPlain user.isSome (prep c a).1.value) (st : St) :
    addAttribute c' (n + 1) st a' = addAttribute c (n + 1) st a := by
  unfold addAttribute
  rw [hp]
  generalize prep c a = p at hm
  obtain ⟨a1, fa⟩ := p
  simp only at hm ⊢
  by_cases he : a1.isEmpty = true
  · rw [if_pos he, if_pos he]
  · rw [if_neg he, if_neg he]
    obtain ⟨k1, v1⟩ := a1
    cases fa with
    | true =>
      cases v1 <;> exact addLeaf_beside hb _ _ _
    | false =>
      cases v1 with
      | group as =>
        have hp := (listPlain_iff (as := as)).1 (by simpa only [ValPlain, Attr.value] using hm)
        have hall := addAll_congr as (fun a ha st => ih st a (hp a ha))
        simp only [Attr.value, Attr.key, hall]
        rfl
      | _ => exact addLeaf_beside hb _ _ _

theorem addAttribute_beside {L user} (hu : UserPlain user) {c c' : Cfg} (hb : Beside L user c c') (n : Nat) :
    ∀ (st : St) (a : Attr), AttrPlain user.isSome a → addAttribute c' n st a = addAttribute c n st a := by
  induction n with
  | zero => intro st a _; rfl
  | succ n ih =>
    intro st a ha
    obtain ⟨k, v⟩ := a
    obtain ⟨hk, hz, hv⟩ : k ∉ reserved ∧ (user.isSome = true → k = [] → v.isGroup = true) ∧ ValPlain user.isSome v := by
      simpa only [AttrPlain] using ha
    refine addAttribute_same hb ih (prep_beside hb (a := .mk k v) hk hv ?_) (prep_plain hu hb (a := .mk k v) hv) st
    intro h1 h2
    have := hz h1 h2
    cases v <;> simp_all [Value.isGroup, Value.resolve, Attr.value]

theorem addAttributes_beside {L user} (hu : UserPlain user) {c c' : Cfg} (hb : Beside L user c c')
    (st : St) (as : List Attr) (ha : ListPlain user.isSome as) :
    addAttributes c' st as = addAttributes c st as := by
  unfold addAttributes
  rw [hb.env]
  exact addAll_congr as (fun a h st => addAttribute_beside hu hb _ st a (listPlain_iff.1 ha a h)) st

/-! ### Handlers -/

/-- A replattr handler and the flash handler it stands beside. -/
structure Twin (L : Lib) (env : Env) (o : RawOptions) (h h' : Handler) : Prop where
  shape : h = { build env (some o) none with pfx := h.pfx, sfx := h.sfx, groups := h.groups }
  shape' : h' = { replattr L env o with pfx := h.pfx, sfx := h.sfx, groups := h'.groups }
  groups : o.replace.isSome = true → h'.groups = h.groups

theorem fix_view (o : RawOptions) : (fixOptions (some o)).view =
    { addSource := o.addSource, replace := o.replace, level := o.level.getD fun _ => levelInfo } := by
  obtain ⟨s, l, r⟩ := o
  cases l <;> rfl

theorem Twin.cfg {L : Lib} {env : Env} {o : RawOptions} {h h' : Handler} (t : Twin L env o h h') :
    Beside L o.replace h.cfg h'.cfg where
  env := by rw [t.shape, t.shape']; rfl
  replace := by
    rw [t.shape]
    show (fixOptions (some o)).view.replace = _
    rw [fix_view]
  replace' := by
    rw [t.shape']
    show (fixOptions (some _)).view.replace = _
    rw [fix_view]
  groups := t.groups
  time := by rw [t.shape, t.shape']; rfl
  basic := by
    intro k hk
    rw [t.shape, t.shape']
    have hk : k ≠ b!"message" ∧ k ≠ b!"msg" ∧ k ≠ b!"lvl" ∧ k ≠ b!"level" := by
      simpa [reserved] using hk
    show (k == b!"lvl" || k == b!"message" || k == b!"source" || k == b!"time") =
      (k == b!"level" || k == b!"msg" || k == b!"source" || k == b!"time")
    rw [beq_eq_false_iff_ne.2 hk.1, beq_eq_false_iff_ne.2 hk.2.1, beq_eq_false_iff_ne.2 hk.2.2.1,
      beq_eq_false_iff_ne.2 hk.2.2.2]

/-- Plain operations. -/
def OpPlain (user : Bool) : Op → Prop
  | .attrs as => ListPlain user as
  | .group _ => True

theorem twin_withAttrs {L : Lib} {env : Env} {o : RawOptions} (hu : UserPlain o.replace) {h h' : Handler}
    (t : Twin L env o h h') {as : List Attr} (ha : ListPlain o.replace.isSome as) :
    (h.withAttrs as = none ∧ h'.withAttrs as = none) ∨
    ∃ g g', h.withAttrs as = some g ∧ h'.withAttrs as = some g' ∧ Twin L env o g g' := by
  unfold Handler.withAttrs
  have ep : h'.pfx = h.pfx := by rw [t.shape']
  rw [ep]
  simp only
  rw [addAttributes_beside hu t.cfg _ as ha]
  obtain ⟨s1, s2, s3⟩ := t
  cases addAttributes h.cfg ⟨h.pfx, decide (h.pfx.length > 0) && !endsOpen h.pfx⟩ as with
  | overflow => exact .inl ⟨rfl, rfl⟩
  | ok st =>
    refine .inr ⟨_, _, rfl, rfl, ?_, ?_, s3⟩
    · rw [s1]
    · rw [s2]
  | err st m =>
    refine .inr ⟨_, _, rfl, rfl, ?_, ?_, s3⟩
    · rw [s1]
    · rw [s2]

theorem twin_openGroup {L : Lib} {env : Env} {o : RawOptions} {h h' : Handler}
    (t : Twin L env o h h') (name : Bytes) : Twin L env o (h.openGroup name) (h'.openGroup name) := by
  have c1 := t.cfg.replace
  have c2 := t.cfg.replace'
  obtain ⟨s1, s2, s3⟩ := t
  have ep : h'.pfx = h.pfx := by rw [s2]
  have es : h'.sfx = h.sfx := by rw [s2]
  refine ⟨?_, ?_, ?_⟩
  · unfold Handler.openGroup; simp only; rw [s1]
  · unfold Handler.openGroup; simp only [ep, es]; rw [s2]
  · intro hs
    have e1 : h.options.replace = o.replace := c1
    have e2 : h'.options.replace = some _ := c2
    unfold Handler.openGroup
    simp only [e1, e2, hs, Option.isSome_some, if_true, s3 hs]

/-! ### The built-in fields -/

/-- A built-in field, written as attribute `a` by the flash handler. -/
theorem addBasic_beside {L user} (hu : UserPlain user) {c c' : Cfg} (hb : Beside L user c c')
    (hs : 0 < c.env.stack) {key key' : Bytes} {v v' : Value} {direct direct' : St → Out} (st : St)
    (hk : key ≠ []) (hg : v.isGroup = false) (hl : v.isLogValuer = false) (hl' : v'.isLogValuer = false)
    (hd : ∀ st, direct st = addLeaf c false st v)
    (hbas : c.isBasic key = true) (hbas' : c'.isBasic key' = true)
    (hm : multiple (replattrFns L user) [] (.mk key' v') = last user [] (.mk key v)) :
    addBasic c' st key' direct' v' = addBasic c st key direct v := by
  obtain ⟨n, hn⟩ : ∃ n, c.env.stack = n + 1 := ⟨c.env.stack - 1, by omega⟩
  have hv : ValPlain user.isSome v := by
    cases v <;> simp_all [ValPlain, Value.isGroup, Value.isLogValuer]
  have hp' : prep c' (.mk key' v') = (last user [] (.mk key v), false) := by
    unfold prep
    simp only [Attr.value, Attr.key, hl', hb.replace', Bool.false_eq_true, if_false, hbas', if_true, hm]
  have e' : addBasic c' st key' direct' v' = addAttribute c' (n + 1) st (.mk key' v') := by
    unfold addBasic; rw [hb.replace', hb.env, hn]
  rw [e']
  cases user with
  | none =>
    rw [show addBasic c st key direct v = direct (st.addSeparator.addKey key) by
      unfold addBasic; rw [hb.replace], hd]
    unfold addAttribute
    rw [hp']
    show (if (Attr.mk key v).isEmpty = true then _ else _) = _
    rw [isEmpty_key (by simpa [Attr.key] using hk), if_neg (by decide)]
    rw [← addLeaf_beside hb]
    cases v <;> first | rfl | simp [Value.isGroup] at hg
  | some f =>
    have hp : prep c (.mk key v) = (last (some f) [] (.mk key v), false) := by
      unfold prep
      simp only [Attr.value, Attr.key, hl, hb.replace, Bool.false_eq_true, if_false, hbas, if_true]
      rfl
    unfold addBasic
    simp only [hb.replace, hn]
    exact addAttribute_same hb (addAttribute_beside hu hb n) (hp'.trans hp.symm) (prep_plain hu hb hv) st

theorem upper_eq {L : Lib} (hL : Good L) {s : Bytes} (ha : Ascii s) : L.toUpper s = s.map up :=
  ((hL.upper s ha).1.trans (up_text s).1.symm).eq_of_noLower (hL.upper s ha).2 (up_text s).2

/-- The level names agree; a level without a name has none in either handler. -/
theorem level_upper {L : Lib} (hL : Good L) (l : Int) :
    L.toUpper ((fixExtras (some replattrExtras)).view.levelNames l) =
      (fixExtras none).view.levelNames l := by
  by_cases h : l = -4 ∨ l = 0 ∨ l = 4 ∨ l = 8
  · rcases h with rfl | rfl | rfl | rfl
    · rw [upper_eq hL (by unfold Ascii; decide)]; decide
    · rw [upper_eq hL (by unfold Ascii; decide)]; decide
    · rw [upper_eq hL (by unfold Ascii; decide)]; decide
    · rw [upper_eq hL (by unfold Ascii; decide)]; decide
  · have h : l ≠ -4 ∧ l ≠ 0 ∧ l ≠ 4 ∧ l ≠ 8 := by omega
    obtain ⟨h1, h2, h3, h4⟩ := h
    have e1 : (fixExtras (some replattrExtras)).view.levelNames l = [] := by
      simp [fixExtras, RawExtras.view, fixLevel, replattrExtras, levelError, levelWarn, levelInfo, levelDebug, *]
    have e2 : (fixExtras none).view.levelNames l = [] := by
      simp [fixExtras, RawExtras.view, fixLevel, levelError, levelWarn, levelInfo, levelDebug, *]
    rw [e1, e2, upper_eq hL (by unfold Ascii; decide)]
    rfl

theorem Out.bind_congr {o : Out} {f g : St → Out} (h : ∀ st, f st = g st) : o.bind f = o.bind g := by
  cases o <;> simp [Out.bind, h]

theorem twin_basics {L : Lib} (hL : Good L) {env : Env} {o : RawOptions} (hu : UserPlain o.replace)
    (hs : 0 < env.stack) {h h' : Handler} (t : Twin L env o h h') {r : Record} :
    h'.basics r = h.basics r := by
  have hb := t.cfg
  have hs' : 0 < h.cfg.env.stack := by rw [t.shape]; exact hs
  have x : h.extras = (fixExtras none).view := by rw [t.shape]; rfl
  have x' : h'.extras = (fixExtras (some replattrExtras)).view := by rw [t.shape']; rfl
  have cx : h.cfg.extras = h.extras := rfl
  have cx' : h'.cfg.extras = h'.extras := rfl
  have src : h'.options.addSource = h.options.addSource := by
    rw [t.shape, t.shape']
    show (fixOptions _).view.addSource = (fixOptions _).view.addSource
    rw [fix_view, fix_view]
  have ev : h'.env = h.env := hb.env
  unfold Handler.basics
  simp only
  have e1 : (match r.time with
      | none => Out.ok { buffer := [0x7B], started := false }
      | some t => addBasic h'.cfg { buffer := [0x7B], started := false } h'.extras.timeKey
          (fun st => .ok (st.addTime h'.cfg t)) (.time t)) =
      (match r.time with
      | none => Out.ok { buffer := [0x7B], started := false }
      | some t => addBasic h.cfg { buffer := [0x7B], started := false } h.extras.timeKey
          (fun st => .ok (st.addTime h.cfg t)) (.time t)) := by
    cases r.time with
    | none => rfl
    | some tm =>
      refine addBasic_beside hu hb hs' _ ?_ rfl rfl rfl (fun st => rfl) ?_ ?_ ?_
      · rw [x]; decide
      · unfold Cfg.isBasic; rw [cx, x]; decide
      · unfold Cfg.isBasic; rw [cx', x']; decide
      · rw [x, x']
        exact replattr_same L _ _ _ (by show b!"time" ∉ reserved; decide) (fun _ => isEmpty_key (by show b!"time" ≠ []; decide))
  refine (congrArg (fun o => Out.bind o _) e1).trans ?_
  refine Out.bind_congr fun st => ?_
  have e2 : addBasic h'.cfg st h'.extras.levelKey
      (fun st => .ok (st.addString (h'.extras.levelNames r.level))) (.string (h'.extras.levelNames r.level)) =
      addBasic h.cfg st h.extras.levelKey
      (fun st => .ok (st.addString (h.extras.levelNames r.level))) (.string (h.extras.levelNames r.level)) := by
    refine addBasic_beside hu hb hs' _ ?_ rfl rfl rfl (fun st => rfl) ?_ ?_ ?_
    · rw [x]; decide
    · unfold Cfg.isBasic; rw [cx, x]; decide
    · unfold Cfg.isBasic; rw [cx', x']; decide
    · rw [x, x']
      refine (replattr_level L _ _).trans ?_
      rw [hL.string, level_upper hL _]
      rfl
  rw [e2]
  refine Out.bind_congr fun st => ?_
  have e3 : addBasic h'.cfg st h'.extras.messageKey
      (fun st => .ok (st.addString r.message)) (.string r.message) =
      addBasic h.cfg st h.extras.messageKey
      (fun st => .ok (st.addString r.message)) (.string r.message) := by
    refine addBasic_beside hu hb hs' _ ?_ rfl rfl rfl (fun st => rfl) ?_ ?_ ?_
    · rw [x]; decide
    · unfold Cfg.isBasic; rw [cx, x]; decide
    · unfold Cfg.isBasic; rw [cx', x']; decide
    · rw [x, x']
      exact replattr_message L _ _
  rw [e3]
  refine Out.bind_congr fun st => ?_
  rw [src]
  by_cases hsrc : (h.options.addSource && r.pc != 0) = true
  · rw [if_pos hsrc, if_pos hsrc, ev]
    refine addBasic_beside hu hb hs' _ ?_ rfl rfl rfl (fun st => rfl) ?_ ?_ ?_
    · rw [x]; decide
    · unfold Cfg.isBasic; rw [cx, x]; decide
    · unfold Cfg.isBasic; rw [cx', x']; decide
    · rw [x, x']
      exact replattr_same L _ _ _ (by show b!"source" ∉ reserved; decide) (fun _ => isEmpty_key (by show b!"source" ≠ []; decide))
  · rw [if_neg hsrc, if_neg hsrc]

theorem twin_handle {L : Lib} (hL : Good L) {env : Env} {o : RawOptions} (hu : UserPlain o.replace)
    (hs : 0 < env.stack) {h h' : Handler} (t : Twin L env o h h') {r : Record}
    (ha : ListPlain o.replace.isSome r.attrs) : h'.handle r = h.handle r := by
  have hp : h'.addPrefix = h.addPrefix := by
    funext st
    unfold Handler.addPrefix
    rw [t.shape']
  have hx : h'.sfx = h.sfx := by rw [t.shape']
  unfold Handler.handle
  rw [twin_basics hL hu hs t, Out.bind_congr (fun st => by rw [hp, addAttributes_beside hu t.cfg _ _ ha]), hx]

/-- Handlers of either type, side by side. -/
inductive TwinH (L : Lib) (env : Env) (o : RawOptions) : H → H → Prop
  | plain {h h' : Handler} : Twin L env o h h' → TwinH L env o (.plain h) (.plain h')
  | group {h h' : Handler} {p p' : H} (name : Bytes) : Twin L env o h h' → TwinH L env o p p' →
      TwinH L env o (.group h name p) (.group h' name p')

theorem TwinH.core {L : Lib} {env : Env} {o : RawOptions} {h h' : H} (t : TwinH L env o h h') :
    Twin L env o h.core h'.core := by
  cases t with
  | plain t => exact t
  | group _ t _ => exact t

theorem twinH_handle {L : Lib} (hL : Good L) {env : Env} {o : RawOptions} (hu : UserPlain o.replace)
    (hs : 0 < env.stack) {r : Record} (ha : ListPlain o.replace.isSome r.attrs)
    {h h' : H} (t : TwinH L env o h h') : ∀ ctx, h'.handle ctx r = h.handle ctx r := by
  induction t with
  | plain t => intro ctx; exact twin_handle hL hu hs t ha
  | group name t _ ih =>
    intro ctx
    unfold H.handle
    rw [ih, twin_handle hL hu hs t ha]

theorem twinH_derive {L : Lib} {env : Env} {o : RawOptions} (hu : UserPlain o.replace) :
    ∀ (ops : List Op) {h h' : H}, TwinH L env o h h' → (∀ op ∈ ops, OpPlain o.replace.isSome op) →
    (h.derive ops = none ∧ h'.derive ops = none) ∨
    ∃ g g', h.derive ops = some g ∧ h'.derive ops = some g' ∧ TwinH L env o g g'
  | [], h, h', t, _ => .inr ⟨h, h', rfl, rfl, t⟩
  | .attrs as :: ops, h, h', t, hp => by
    have h1 := hp (.attrs as) (by simp)
    simp only [H.derive, H.step, H.withAttrs]
    rcases twin_withAttrs hu t.core (as := as) (by simpa [OpPlain] using h1) with ⟨e, e'⟩ | ⟨g, g', e, e', tg⟩
    · rw [e, e']; exact .inl ⟨rfl, rfl⟩
    · rw [e, e']
      exact twinH_derive hu ops (.plain tg) (fun op ho => hp op (by simp [ho]))
  | .group name :: ops, h, h', t, hp => by
    simp only [H.derive, H.step, H.withGroup, Option.bind_some]
    refine twinH_derive hu ops ?_ (fun op ho => hp op (by simp [ho]))
    by_cases e : name = []
    · rw [if_pos e, if_pos e]; exact .plain t.core
    · rw [if_neg e, if_neg e]; exact .group name (twin_openGroup t.core name) t

theorem twin_start (L : Lib) (env : Env) (o : RawOptions) :
    Twin L env o (build env (some o) none) (replattr L env o) := ⟨rfl, rfl, fun _ => rfl⟩

end Verif.Replace
