import Verif.Props.BenchFlash
import Verif.Props.SloggyDerive
import Verif.Props.SloggyLine
import Verif.Bench.SloggyRun

/-
The benchmark suite finds nothing wrong with sloggy: C99.
-/

namespace Verif.Props.BenchSloggy
open Go Bench Warning Slog LogTree Json Flash BenchFlash

variable {F : Type} [DecidableEq F]

/-- The surroundings of the run: those for flash, and times that can be quoted. -/
structure SWorld (env : Env) (clock : Nat → Nat × Nat) (start : Nat) : Prop extends World env clock start where
  quoteNow : Quotable env.isPrint (env.formatTime sLayout start)
  quoteTime : ∀ i, Quotable env.isPrint (env.formatTime sLayout (clock i).1)

/-! ### What sloggy writes -/

theorem sloggy_writes {env : Env} {clock : Nat → Nat × Nat} {now : Nat} (W : SWorld env clock now)
    (bm : Benchmark) (hops : SOpsClean env bm.ops) (hd : opsDeep bm.ops < env.stack) :
    ∃ h, sloggyHandler env bm = some h ∧ ∀ i msg attrs, Quotable env.isPrint msg → SListClean env attrs →
      listDeep attrs < env.stack → ∃ b pl, logCallS h ⟨levelInfo, msg, attrs⟩ (clock i).1 (clock i).2 = b ++ [0x0D, 0x0A] ∧
        placeBy (sLeafTree env) bm.ops attrs = some pl ∧
        LineText b (.obj (Sloggy.sBuiltins env bm.addSource (recordOf clock i msg attrs) ++ pl)) := by
  have go : ∀ i msg attrs, Quotable env.isPrint msg → SListClean env attrs → listDeep attrs < env.stack →
      ∃ h pl st b, sloggyHandler env bm = some h ∧ placeBy (sLeafTree env) bm.ops attrs = some pl ∧
        h.handle none Sloggy.sure (recordOf clock i msg attrs) = .ok st ∧ st.out.flatten = b ++ [0x0D, 0x0A] ∧
        LineText b (.obj (Sloggy.sBuiltins env bm.addSource (recordOf clock i msg attrs) ++ pl)) := by
    intro i msg attrs hm ha hda
    exact Sloggy.handle_clean (r := recordOf clock i msg attrs) (o := (Sloggy.fixOptions (some ⟨bm.addSource, some fun _ => levelInfo, none⟩)).view) rfl W.clean hops
      { time := fun t ht => by cases ht; exact W.quoteTime i
        message := hm
        function := (W.function i).1
        file := (W.file i).1
        attrs := ha } (by show max _ (listDeep attrs) < _; omega)
  obtain ⟨h, _, _, _, hh, _⟩ := go 0 [] [] .nil trivial (by have := W.stack; simp only [listDeep]; omega)
  refine ⟨h, hh, fun i msg attrs hm ha hda => ?_⟩
  obtain ⟨h', pl, st, b, hh', h1, h2, h3, h4⟩ := go i msg attrs hm ha hda
  rw [hh] at hh'
  cases hh'
  refine ⟨b, pl, ?_, h1, h4⟩
  have en : h.enabled (clock i).1 levelInfo = true :=
    ((SloggyDerive.C13_sloggy_enabled env _ bm.ops h hh (clock i).1 levelInfo).1 _ (fun _ => levelInfo) rfl rfl).2
      (Int.le_refl _)
  unfold logCallS
  dsimp only
  rw [if_pos en]
  have : h.handle none Sloggy.sure ⟨some (clock i).1, levelInfo, msg, (clock i).2, attrs⟩ = .ok st := h2
  rw [this]
  exact h3

/-- The members are those the specification of flash names, if no LogValuers and no objects with several faces are involved. -/
theorem place_both {env : Env} (he : EnvClean env) {ops : List Op} {as : List Attr} {pl : List (Bytes × Tree)}
    (hp : place env defaultTimeFormat .viaAny ops as = some pl) (h1 : ListPlain env as) (h2 : OpsPlainKinds env ops)
    (h3 : ListAlike as) (h4 : OpsAlike ops) : placeBy (sLeafTree env) ops as = some pl := by
  rw [← place_alike env h3 ops h4, ← place_plain he h1 ops h2]
  exact hp

/-! ### The attributes of the benchmarks -/

/-- What is needed of attributes. -/
structure Fine (env : Env) (as : List Attr) : Prop where
  clean : SListClean env as
  plain : ListPlain env as
  alike : ListAlike as
  deep : listDeep as ≤ 6

theorem fine_nil (env : Env) : Fine env [] := ⟨trivial, trivial, trivial, by decide⟩

theorem q {p : Nat → Bool} {s : Bytes} (h : s.all (fun a => 0x20 ≤ a && a < 0x7F) = true) : Quotable p s :=
  Sloggy.quotable_ascii h

theorem fine_cons {env : Env} {a : Attr} {as : List Attr} (h1 : SAttrClean env a) (h2 : AttrPlain env a) (h3 : AttrAlike a)
    (h4 : attrDeep a ≤ 6) (h : Fine env as) : Fine env (a :: as) where
  clean := by rw [SListClean]; exact ⟨h1, h.clean⟩
  plain := by rw [ListPlain]; exact ⟨h2, h.plain⟩
  alike := by rw [ListAlike]; exact ⟨h3, h.alike⟩
  deep := by rw [listDeep]; have := h.deep; omega

/-- A value that is neither object, group nor LogValuer. -/
def Simple : Value → Bool
  | .any _ | .group _ | .logValuer _ _ => false
  | _ => true

theorem fine_leaf {env : Env} {k : Bytes} {v : Value} {as : List Attr} (hk : k.all (fun a => 0x20 ≤ a && a < 0x7F) = true)
    (hs : Simple v = true) (hv : SLeafClean env v) (h : Fine env as) : Fine env (.mk k v :: as) := by
  refine fine_cons ?_ ?_ ?_ ?_ h
  · rw [SAttrClean]
    refine ⟨q hk, ?_⟩
    cases v <;> first | exact hv | cases hs
  · rw [AttrPlain]
    cases v <;> trivial
  · rw [AttrAlike]
    cases v <;> trivial
  · rw [attrDeep]
    cases v <;> first | exact Nat.zero_le _ | cases hs

theorem fine_common (env : Env) : Fine env [valGroup, .mk b!"Any" valAny, .mk b!"Error" Bench.valError] where
  clean := by
    simp only [SListClean, SAttrClean, valGroup, Attr.grp, SValClean, SLeafClean, valAny, Bench.valError, SAnyClean]
    exact ⟨⟨q (by decide), ⟨q (by decide), q (by decide)⟩, ⟨q (by decide), q (by decide)⟩, trivial⟩,
      ⟨q (by decide), thingTree, thing_denotes, by decide⟩, ⟨q (by decide), q (by decide)⟩, trivial⟩
  plain := by simp [ListPlain, AttrPlain, valGroup, Attr.grp, ValPlain, valAny, Bench.valError]
  alike := by
    simp [ListAlike, AttrAlike, valGroup, Attr.grp, ValAlike, valAny, Bench.valError, LeafAlike, ObjAlike]
  deep := by simp [listDeep, attrDeep, valDeep, valGroup, Attr.grp, valAny, Bench.valError]

theorem fine_all {env : Env} {now : Nat} (h : Quotable env.isPrint (env.formatTime sLayout now)) :
    Fine env (allAttributes now) :=
  fine_leaf (by decide) rfl trivial <| fine_leaf (by decide) rfl trivial <| fine_leaf (by decide) rfl trivial <|
  fine_leaf (by decide) rfl trivial <| fine_leaf (by decide) rfl trivial <| fine_leaf (by decide) rfl (q (by decide)) <|
  fine_leaf (by decide) rfl h <| fine_leaf (by decide) rfl trivial <| fine_common env

theorem fine_with {env : Env} {now : Nat} (h : Quotable env.isPrint (env.formatTime sLayout now)) :
    Fine env (withAttributes now) :=
  fine_leaf (by decide) rfl trivial <| fine_leaf (by decide) rfl trivial <| fine_leaf (by decide) rfl trivial <|
  fine_leaf (by decide) rfl trivial <| fine_leaf (by decide) rfl trivial <| fine_leaf (by decide) rfl (q (by decide)) <|
  fine_leaf (by decide) rfl h <| fine_leaf (by decide) rfl trivial <| fine_common env

theorem kid_printable {stem : Bytes} (h : stem.all (fun a => 0x20 ≤ a && a < 0x7F) = true) (i : Nat) :
    (stem ++ 0x2D :: decNat i).all (fun a => 0x20 ≤ a && a < 0x7F) = true := by
  rw [List.all_append, h, List.all_cons, Sloggy.digits_ascii (decNat_digits i)]
  rfl

theorem fine_builder (env : Env) (rand : Nat → Fin 5) (limit : Nat) :
    ∀ (left : Nat) (stem : Bytes) (drawn : Nat), stem.all (fun a => 0x20 ≤ a && a < 0x7F) = true →
      SAttrClean env (bigGroupBuilder rand limit left stem drawn).1 ∧
      AttrPlain env (bigGroupBuilder rand limit left stem drawn).1 ∧
      AttrAlike (bigGroupBuilder rand limit left stem drawn).1 ∧
      attrDeep (bigGroupBuilder rand limit left stem drawn).1 ≤ left := by
  intro left
  induction left with
  | zero =>
    intro stem drawn _
    simp only [bigGroupBuilder, emptyAttr, SAttrClean, SValClean, SLeafClean, SAnyClean, AttrPlain, ValPlain, AttrAlike, ValAlike,
      LeafAlike, attrDeep, valDeep]
    exact ⟨⟨.nil, trivial⟩, trivial, trivial, Nat.le_refl _⟩
  | succ left ih =>
    intro stem drawn hs
    have kids : ∀ (todo i drawn : Nat),
        SListClean env (childLoop (bigGroupBuilder rand limit left) stem todo i drawn).1 ∧
        ListPlain env (childLoop (bigGroupBuilder rand limit left) stem todo i drawn).1 ∧
        ListAlike (childLoop (bigGroupBuilder rand limit left) stem todo i drawn).1 ∧
        listDeep (childLoop (bigGroupBuilder rand limit left) stem todo i drawn).1 ≤ left := by
      intro todo
      induction todo with
      | zero => intro i drawn; exact ⟨trivial, trivial, trivial, Nat.zero_le _⟩
      | succ todo ihk =>
        intro i drawn
        obtain ⟨h1, h2, h3, h4⟩ := ih (stem ++ 0x2D :: decNat i) drawn (kid_printable hs i)
        obtain ⟨k1, k2, k3, k4⟩ := ihk (i + 1) (bigGroupBuilder rand limit left (stem ++ 0x2D :: decNat i) drawn).2
        rw [childLoop]
        dsimp only
        split
        · exact ⟨k1, k2, k3, k4⟩
        · simp only [SListClean, ListPlain, ListAlike, listDeep]
          exact ⟨⟨h1, k1⟩, ⟨h2, k2⟩, ⟨h3, k3⟩, by omega⟩
    obtain ⟨h1, h2, h3, h4⟩ := kids ((rand drawn).val + 1) 0 (drawn + 1)
    rw [builder_shape]
    simp only [Attr.grp, SAttrClean, SValClean, AttrPlain, ValPlain, AttrAlike, ValAlike, LeafAlike, attrDeep, valDeep,
      List.cons_append, List.nil_append, SListClean, SLeafClean, ListPlain, ListAlike, listDeep]
    exact ⟨⟨q hs, ⟨q (by decide), trivial⟩, ⟨q (by decide), trivial⟩, ⟨q (by decide), trivial⟩, h1⟩, ⟨trivial, trivial, trivial, h2⟩,
      ⟨trivial, trivial, trivial, h3⟩, by omega⟩

/-! ### The first members -/

/-- The built-in members of a line. -/
def headS (env : Env) (t pc : Nat) (addSource : Bool) (msg : Bytes) : List (Bytes × Tree) :=
  [(b!"time", .str (env.formatTime defaultTimeFormat t)), (b!"level", .str b!"INFO"), (b!"msg", .str msg)] ++
  (if addSource then
    [(b!"source", .obj [(b!"file", .str (env.frame pc).2.1), (b!"function", .str (env.frame pc).1),
      (b!"line", .num (decNat (env.frame pc).2.2))])]
  else [])

theorem builtins_headS {env : Env} {clock : Nat → Nat × Nat} {now : Nat} (W : World env clock now) (i : Nat)
    (addSource : Bool) (msg : Bytes) (attrs : List Attr) :
    Sloggy.sBuiltins env addSource (recordOf clock i msg attrs) = headS env (clock i).1 (clock i).2 addSource msg := by
  have h : ((clock i).2 != 0) = true := by simpa using W.caller i
  have hl : levelString levelInfo = b!"INFO" := by decide
  unfold Sloggy.sBuiltins headS recordOf
  dsimp only
  rw [h, Bool.and_true, hl]
  rfl

theorem headS_fits {env : Env} {clock : Nat → Nat × Nat} {now : Nat} (W : World env clock now) (i : Nat)
    (addSource : Bool) {msg : Bytes} (hm : NoRepl msg = true) :
    fitsMembers 8 (headS env (clock i).1 (clock i).2 addSource msg) = true := by
  have k : ∀ s, s ∈ [b!"time", b!"level", b!"msg", b!"source", b!"function", b!"file", b!"line", b!"INFO"] →
      NoRepl s = true := by decide +kernel
  have k1 := k b!"time" (by simp)
  have k2 := k b!"level" (by simp)
  have k3 := k b!"msg" (by simp)
  have k4 := k b!"source" (by simp)
  have k5 := k b!"function" (by simp)
  have k6 := k b!"file" (by simp)
  have k7 := k b!"line" (by simp)
  have k8 := k b!"INFO" (by simp)
  refine fitsMembers_append ?_ ?_
  · simp only [fitsMembers, Go.fits, k1, k2, k3, k8, (W.time i).2, hm, Bool.and_self]
  · split
    · simp only [fitsMembers, Go.fits, k4, k5, k6, k7, (W.function i).2, (W.file i).2, Bool.and_self]
    · rfl

omit [DecidableEq F] in
theorem headS_nums {env : Env} {clock : Nat → Nat × Nat} {now : Nat} (W : World env clock now) {L : Lib F}
    {N : Nums F} {num : Bytes → Option F} (D : Decoding L N num) (i : Nat) (addSource : Bool) (msg : Bytes) :
    NumsOk num (headS env (clock i).1 (clock i).2 addSource msg) := by
  intro s hs
  have hl := W.line i
  have : s = decNat (env.frame (clock i).2).2.2 := by
    unfold headS at hs
    cases addSource with
    | false => simp [numeralsMembers, numerals] at hs
    | true => simpa [numeralsMembers, numerals] using hs
  rw [this, D.nat (by omega)]; rfl

theorem headS_level (env : Env) (t pc : Nat) (addSource : Bool) (msg : Bytes) :
    lastOf (headS env t pc addSource msg) b!"level" = some (.str b!"INFO") := by
  cases addSource <;> rfl

theorem headS_msg (env : Env) (t pc : Nat) (addSource : Bool) (msg : Bytes) :
    lastOf (headS env t pc addSource msg) b!"msg" = some (.str msg) := by
  cases addSource <;> rfl

theorem headS_message (env : Env) (t pc : Nat) (addSource : Bool) (msg : Bytes) :
    lastOf (headS env t pc addSource msg) b!"message" = none := by
  cases addSource <;> rfl

omit [DecidableEq F] in
theorem expect_basicS {env : Env} {t pc : Nat} {addSource : Bool} {num : Bytes → Option F} {pl : List (Bytes × Tree)}
    (R : Rest num pl) : Expect num (headS env t pc addSource message ++ pl) expectedBasic := by
  refine Expect.before ?_ ?_
  · exact expect_cons (by decide) (headS_level ..) (.str _)
      (expect_cons (by decide) (headS_msg ..) (.str _) (expect_nil _ _))
  · intro p hp
    simp only [expectedBasic, List.mem_cons, List.not_mem_nil, or_false] at hp
    rcases hp with rfl | rfl
    · exact R.level
    · exact R.msg

theorem ws_crlf : Ws [0x0D, 0x0A] := by
  intro b hb
  simp only [List.mem_cons, List.not_mem_nil, or_false] at hb
  rcases hb with rfl | rfl <;> decide

omit [DecidableEq F] in
/-- One call: what is left to show of a benchmark. -/
theorem singleS {env : Env} {clock : Nat → Nat × Nat} {now : Nat} (W : SWorld env clock now) {L : Lib F}
    {N : Nums F} {num : Bytes → Option F} (D : Decoding L N num) {bm : Benchmark} {attrs : List Attr}
    (hc : bm.calls = info attrs) (hops : SOpsClean env bm.ops) (hd : opsDeep bm.ops < env.stack)
    (ha : Fine env attrs) (ho1 : OpsPlainKinds env bm.ops) (ho2 : OpsAlike bm.ops) {pl : List (Bytes × Tree)}
    (hp : place env defaultTimeFormat .viaAny bm.ops attrs = some pl) (R : Rest num pl) {m : Manager}
    (h : ∀ captured x, getLogMap L captured none m = (some x, m) →
      IsAny num (.obj ((headS env (clock 0).1 (clock 0).2 bm.addSource message ++ pl).filter fun e => e.1 ≠ b!"time"))
        (.map x) → bm.check captured m = some (m, none)) :
    verifySloggy env clock bm m = some (m, none) := by
  obtain ⟨hd, hh, hw⟩ := sloggy_writes W bm hops hd
  obtain ⟨b, pl', h1, h2, h3⟩ := hw 0 message attrs (q (by decide)) ha.clean (by have := W.stack; have := ha.deep; omega)
  rw [place_both W.clean hp ha.plain ho1 ha.alike ho2] at h2
  cases h2
  have hb := h3.1
  rw [builtins_headS W.toWorld] at hb
  obtain ⟨x, g, hx⟩ := logMap_of D hb ws_crlf (fitsMembers_mono _ (n := 8) (by decide)
    (fitsMembers_append (headS_fits W.toWorld 0 _ (by decide +kernel)) R.fits)) (nums_append (headS_nums W.toWorld D 0 _ _) R.nums)
    (by rw [lastOf_append, R.level, headS_level]; rfl) (by rw [lastOf_append, R.message, headS_message]; rfl) m
  unfold verifySloggy
  rw [hh, Option.bind_some, hc]
  have : logCallsS hd clock 0 (info attrs) = b ++ [0x0D, 0x0A] := by
    unfold info
    rw [logCallsS, logCallsS, h1, List.append_nil]
  rw [this]
  exact h _ _ g hx

omit [DecidableEq F] in
theorem sourcererS_ok {L : Lib F} {num : Bytes → Option F} {ms : List (Bytes × Tree)} {x : AMap F}
    (hx : IsAny num (.obj ms) (.map x)) {f g l : Tree}
    (hs : lastOf ms b!"source" = some (.obj [(b!"file", f), (b!"function", g), (b!"line", l)]))
    (name captured : Bytes) (m : Manager) : sourcerer L name captured (some x) m = (some x, m, none) := by
  obtain ⟨a, ga, ha⟩ := isAny_get hx hs
  obtain ⟨src, rfl⟩ : ∃ src, a = .map src := by cases ha; exact ⟨_, rfl⟩
  obtain ⟨_, h2, _⟩ := isAny_obj ha
  have k1 : (Map.get src b!"file").isSome = true := h2 _
  have k2 : (Map.get src b!"function").isSome = true := h2 _
  have k3 : (Map.get src b!"line").isSome = true := h2 _
  unfold sourcerer
  simp only [getLogMap, lookup, Option.bind_some, ga, missingOf, k1, k2, k3]
  rfl

/-! ### The benchmark Logging -/

/-- What gin logs of a request (gin/parser.go:43-57): a code of 64 bits and four texts that can be quoted. -/
def SRequest (env : Env) (attrs : List Attr) : Prop :=
  ∃ (code : Nat) (elapsed client method url : Bytes), code < 2 ^ 63 ∧
    (∀ s ∈ [elapsed, client, method, url], Quotable env.isPrint s ∧ NoRepl s = true) ∧
    attrs = [.mk b!"code" (.int64 code), .mk b!"elapsed" (.string elapsed), .mk b!"client" (.string client),
      .mk b!"method" (.string method), .mk b!"url" (.string url)]

theorem dropCR_crlf (b : Bytes) : dropCR (b ++ [0x0D]) = b := by
  unfold dropCR
  rw [List.getLast?_append]
  simp

/-- The lines of the benchmark Logging, each with a carriage return at its end. -/
theorem logging_linesS {env : Env} {clock : Nat → Nat × Nat} {now : Nat} (W : SWorld env clock now) {h : Sloggy.H}
    (hw : ∀ i msg attrs, Quotable env.isPrint msg → SListClean env attrs →
      listDeep attrs < env.stack → ∃ b pl, logCallS h ⟨levelInfo, msg, attrs⟩ (clock i).1 (clock i).2 = b ++ [0x0D, 0x0A] ∧
        placeBy (sLeafTree env) [] attrs = some pl ∧
        LineText b (.obj (Sloggy.sBuiltins env false (recordOf clock i msg attrs) ++ pl))) :
    ∀ (logData : List (List Attr)) (i : Nat), (∀ attrs ∈ logData, SRequest env attrs) →
    ∃ ls, Cut (logCallsS h clock i (logData.map fun attrs => ⟨levelInfo, b!"Handle", attrs⟩)) ls [] ∧
      ∀ l ∈ ls, ∃ (b : Bytes) (i code : Nat) (elapsed client method url : Bytes), l = b ++ [0x0D] ∧ code < 2 ^ 63 ∧
        (∀ s ∈ [elapsed, client, method, url], Utf8.Valid s ∧ NoRepl s = true) ∧
        Denotes b (.obj (head env (clock i).1 (clock i).2 false b!"Handle" ++
          requestTree code elapsed client method url))
  | [], i, _ => ⟨[], .tail (t := []) (by simp), fun l hl => by cases hl⟩
  | attrs :: logData, i, hl => by
    obtain ⟨ls, h1, h2⟩ := logging_linesS W hw logData (i + 1) fun a ha => hl a (List.mem_cons_of_mem _ ha)
    obtain ⟨code, elapsed, client, method, url, hc, ht, rfl⟩ := hl attrs List.mem_cons_self
    have fine : Fine env [.mk b!"code" (.int64 code), .mk b!"elapsed" (.string elapsed),
        .mk b!"client" (.string client), .mk b!"method" (.string method), .mk b!"url" (.string url)] :=
      fine_leaf (by decide) rfl trivial <| fine_leaf (by decide) rfl (ht _ (by simp)).1 <|
      fine_leaf (by decide) rfl (ht _ (by simp)).1 <| fine_leaf (by decide) rfl (ht _ (by simp)).1 <|
      fine_leaf (by decide) rfl (ht _ (by simp)).1 <| fine_nil env
    obtain ⟨b, pl, e1, e2, e3⟩ := hw i b!"Handle" _ (q (by decide)) fine.clean
      (by have := W.stack; have := fine.deep; omega)
    have hp : pl = requestTree code elapsed client method url := by
      have := Option.some.inj e2
      exact this.symm
    subst hp
    have e4 := e3.1
    rw [builtins_headS W.toWorld] at e4
    refine ⟨(b ++ [0x0D]) :: ls, ?_, ?_⟩
    · rw [List.map_cons, logCallsS, e1, show b ++ [(0x0D : UInt8), 0x0A] = (b ++ [0x0D]) ++ [0x0A] by simp, List.append_assoc _ [0x0A]]
      refine .line ?_ h1
      have := e3.2
      simp [this]
    · intro l hl
      rcases List.mem_cons.1 hl with rfl | hl
      · exact ⟨b, i, code, elapsed, client, method, url, rfl, hc,
          fun s hs => ⟨Sloggy.Quotable.valid (ht s hs).1, (ht s hs).2⟩, e4⟩
      · exact h2 l hl

omit [DecidableEq F] in
theorem disabledS_ok {env : Env} {clock : Nat → Nat × Nat} {now : Nat} (W : SWorld env clock now) (L : Lib F)
    (m : Manager) : verifySloggy env clock
      { name := b!"Disabled", calls := [⟨levelDebug, message, []⟩], dontCount := true, check := disabledCheck L } m = some (m, none) := by
  obtain ⟨h, hh, _⟩ := sloggy_writes W
    { name := b!"Disabled", calls := [⟨levelDebug, message, []⟩], dontCount := true, check := disabledCheck L } trivial
    (by have := W.stack; show 0 < _; omega)
  have en : h.enabled (clock 0).1 levelDebug = false := by
    cases he : h.enabled (clock 0).1 levelDebug with
    | false => rfl
    | true =>
      have := ((SloggyDerive.C13_sloggy_enabled env _ [] h hh (clock 0).1 levelDebug).1 _ (fun _ => levelInfo) rfl
        rfl).1 he
      exact absurd this (by decide)
  unfold verifySloggy
  rw [hh]
  dsimp only [Option.bind_some]
  rw [logCallsS, logCallsS, logCallS]
  dsimp only
  rw [en]
  rfl

/-! ### C99 -/

/-- C99: the suite finds nothing wrong with sloggy: no benchmark adds a warning or gives an error, whatever the times, the callers,
the random numbers of the big group, the requests logged, and the decoding of JSON. -/
theorem C99_sloggy {env : Env} {clock : Nat → Nat × Nat} {now : Nat} (W : SWorld env clock now) {L : Lib F}
    {N : Nums F} {num : Bytes → Option F} (D : Decoding L N num) (rand : Nat → Fin 5) {logData : List (List Attr)}
    (hl : ∀ attrs ∈ logData, SRequest env attrs) {m : Manager} (hm : Unwarned L m) :
    ∀ bm ∈ benchmarks L N now rand logData, verifySloggy env clock bm m = some (m, none) := by
  have hst := W.stack
  have fAll := fine_all W.quoteNow
  have fWith := fine_with W.quoteNow
  have dWith : opsDeep [.attrs (withAttributes now)] < env.stack := by
    have := fWith.deep
    simp only [opsDeep]
    omega
  have cWith : SOpsClean env [.attrs (withAttributes now)] := ⟨fWith.clean, trivial⟩
  have pkWith : OpsPlainKinds env [.attrs (withAttributes now)] := ⟨fWith.plain, trivial⟩
  have akWith : OpsAlike [.attrs (withAttributes now)] := ⟨fWith.alike, trivial⟩
  have cNil : SOpsClean env [] := trivial
  have pkNil : OpsPlainKinds env [] := trivial
  have akNil : OpsAlike [] := trivial
  have cGroup : SOpsClean env [.group b!"withGroup"] := ⟨by decide, trivial⟩
  have pkGroup : OpsPlainKinds env [.group b!"withGroup"] := trivial
  have akGroup : OpsAlike [.group b!"withGroup"] := trivial
  have dNil : opsDeep [] < env.stack := by show 0 < _; omega
  have dGroup : opsDeep [.group b!"withGroup"] < env.stack := by show 0 < _; omega
  have fin : ∀ {captured x ms} {e : AMap F}, Expect num ms e →
      IsAny num (.obj (ms.filter fun p => p.1 ≠ b!"time")) (.map x) → ∀ name,
      finder L name e captured (some x) m = (some x, m, none) :=
    fun he hx name => finder_ok hm he.covers hx name _
  have pAll : place env defaultTimeFormat .viaAny [] (allAttributes now) = some (allTree env now) :=
    all_members env now
  have pBoth : place env defaultTimeFormat .viaAny [.attrs (withAttributes now)] (allAttributes now) =
      some (withTree env now ++ allTree env now) := by
    simp only [place, with_members, all_members]
  have pWith : place env defaultTimeFormat .viaAny [.attrs (withAttributes now)] [] = some (withTree env now) := by
    simp only [place, with_members, listMembers, List.append_nil]
  have pGroup : place env defaultTimeFormat .viaAny [.group b!"withGroup"] (allAttributes now) =
      some [(b!"withGroup", .obj (allTree env now))] := by
    simp only [place, all_members]
    rfl
  have attributes : ∀ name, verifySloggy env clock
      { name, calls := info (allAttributes now),
        check := (verify L [finder L name expectedBasic, finder L name (allValuesMap N), noDuplicates L name]).run } m =
        some (m, none) := by
    intro name
    refine singleS W D (attrs := allAttributes now) rfl cNil dNil fAll pkNil akNil pAll
      (rest_all D W.now) fun captured x g hx => verify_ok g ?_
    intro f hf
    simp only [List.mem_cons, List.not_mem_nil, or_false] at hf
    rcases hf with rfl | rfl | rfl
    · exact fin (expect_basicS (rest_all D W.now)) hx _
    · exact fin (expect_all D env now).after hx _
    · exact noDuplicates_ok ..
  have both : ∀ name, verifySloggy env clock
      { name, ops := [.attrs (withAttributes now)], calls := info (allAttributes now),
        check := (bothChecks L N name).run } m = some (m, none) := by
    intro name
    refine singleS W D (attrs := allAttributes now) rfl cWith dWith fAll pkWith akWith pBoth
      (rest_both D W.now) fun captured x g hx => verify_ok g ?_
    intro f hf
    simp only [List.mem_cons, List.not_mem_nil, or_false] at hf
    rcases hf with rfl | rfl | rfl | rfl
    · exact fin (expect_basicS (rest_both D W.now)) hx _
    · exact fin (expect_all D env now).after.after hx _
    · exact fin (expect_both D env now).after hx _
    · exact noDuplicates_ok ..
  have rGroup : Rest num [(b!"withGroup", .obj (allTree env now))] :=
    rest_one (fitsMembers_mono _ (by decide) (all_fits W.now)) (.inr rfl) (by
      simp only [numerals]; exact all_nums D env now)
  have group : ∀ name dup, verifySloggy env clock
      { name, ops := [.group b!"withGroup"], calls := info (allAttributes now),
        check := (groupChecks L N name dup).run } m = some (m, none) := by
    intro name dup
    refine singleS W D (attrs := allAttributes now) rfl cGroup dGroup fAll pkGroup akGroup pGroup rGroup
      fun captured x g hx => verify_ok g ?_
    intro f hf
    simp only [List.mem_cons, List.not_mem_nil, or_false] at hf
    rcases hf with rfl | rfl | rfl
    · exact fin (expect_basicS rGroup) hx _
    · refine fin (Expect.after ?_) hx _
      exact expect_cons (by decide) rfl (expect_all D env now).plain (expect_nil _ _)
    · exact noDuplicates_ok ..
  intro bm hbm
  simp only [benchmarks, List.mem_cons, List.not_mem_nil, or_false] at hbm
  rcases hbm with rfl | rfl | rfl | rfl | rfl | rfl | rfl | rfl | rfl | rfl | rfl | rfl
  · exact disabledS_ok W L m
  · exact singleS W D (attrs := []) rfl cNil dNil (fine_nil env) pkNil akNil rfl (rest_nil num)
      fun captured x g hx => matcher_ok (pc := (clock 0).2) D g hx _
  · refine singleS W D (attrs := []) rfl cNil dNil (fine_nil env) pkNil akNil rfl (rest_nil num)
      fun captured x g hx => verify_ok g ?_
    intro f hf
    simp only [List.mem_cons, List.not_mem_nil, or_false] at hf
    rcases hf with rfl | rfl
    · exact fin (expect_basicS (rest_nil num)) hx _
    · exact sourcererS_ok hx (f := .str (env.frame (clock 0).2).2.1) (g := .str (env.frame (clock 0).2).1)
        (l := .num (decNat (env.frame (clock 0).2).2.2)) rfl _ _ _
  · exact attributes _
  · exact attributes _
  · refine singleS W D (attrs := []) rfl cWith dWith (fine_nil env) pkWith akWith pWith
      (rest_with D W.now) fun captured x g hx => verify_ok g ?_
    intro f hf
    simp only [List.mem_cons, List.not_mem_nil, or_false] at hf
    rcases hf with rfl | rfl | rfl
    · exact fin (expect_basicS (rest_with D W.now)) hx _
    · exact fin (expect_with D env now).after hx _
    · exact noDuplicates_ok ..
  · exact both _
  · exact both _
  · exact group _ _
  · exact group _ _
  · obtain ⟨t, ht, hb⟩ := builder_tree env defaultTimeFormat .viaAny rand bigGroupLimit bigGroupLimit b!"group" 0
      (by decide)
    obtain ⟨c1, c2, c3, c4⟩ := fine_builder env rand bigGroupLimit (bigGroupLimit + 1) b!"group" 0 (by decide)
    have fBig : Fine env [bigGroup rand] := fine_cons c1 c2 c3 c4 (fine_nil env)
    have hf : fits 8 t = true :=
      fits_mono t (by decide) (bigTree_fits bigGroupLimit bigGroupLimit b!"group" t (by decide) hb)
    have hn : ∀ s ∈ numerals t, (num s).isSome = true := by
      intro s hs
      obtain ⟨n, rfl, h5⟩ := bigTree_numerals bigGroupLimit bigGroupLimit b!"group" t hb s hs
      have : n ≤ 5 := h5
      rw [D.nat (by omega)]; rfl
    refine singleS W D (attrs := [bigGroup rand]) rfl cNil dNil fBig pkNil akNil (pl := [(b!"group", t)]) ?_
      (rest_one hf (.inl rfl) hn) fun captured x g hx => ?_
    · have e : attrMembers env defaultTimeFormat .viaAny (bigGroup rand) = some [(b!"group", t)] := ht
      show listMembers env defaultTimeFormat .viaAny [bigGroup rand] = _
      simp only [listMembers, e, List.append_nil]
    · obtain ⟨a, ga, ha⟩ := isAny_get hx (k := b!"group") (t := t) (by
        rw [lastOf_filter, if_neg (by decide), lastOf_append]; rfl)
      have hcheck := bigTree_check bigGroupLimit bigGroupLimit b!"group" t a 0 hb ha
      obtain ⟨ms, rfl⟩ := bigTree_obj hb
      obtain ⟨gm, rfl⟩ : ∃ gm, a = .map gm := by cases ha; exact ⟨_, rfl⟩
      show some (bigGroupChecker L b!"BigGroup" captured none m).2 = _
      unfold bigGroupChecker
      rw [g]
      simp only [lookup, Option.bind_some, ga, hcheck]
      rfl
  · obtain ⟨h, hh, hw⟩ := sloggy_writes W
      { name := b!"Logging", calls := logData.map fun attrs => ⟨levelInfo, b!"Handle", attrs⟩,
        dontCount := true, check := verifyLinesWith L 4096 [fields L b!"Logging"
          [b!"level", b!"msg", b!"code", b!"elapsed", b!"method", b!"url"]] } trivial dNil
    obtain ⟨ls, hcut, hls⟩ := logging_linesS W hw logData 0 hl
    unfold verifySloggy
    rw [hh, Option.bind_some]
    dsimp only
    rw [BenchChecks.C67_terminated_partial L _ hcut m]
    rw [inTurn_ok]
    intro l hm'
    obtain ⟨l', hl', rfl⟩ := List.mem_map.1 hm'
    obtain ⟨b, i, code, elapsed, client, method, url, rfl, hc, ht, hb⟩ := hls l' hl'
    rw [dropCR_crlf]
    exact onLine_ok W.toWorld D hc ht hb _ m

/-! ### The embedded data -/

/-- A check for texts that can be quoted: of ASCII and characters of two bytes. -/
def textOk : Bytes → Bool
  | [] => true
  | [a] => commonByte a
  | a :: b :: s => (commonByte a && textOk (b :: s)) || (Utf8.lead2 a && Utf8.cont b && textOk s)

theorem text_quotable (p : Nat → Bool) : ∀ s : Bytes, textOk s = true → Quotable p s
  | [], _ => .nil
  | [a], h => .byte h .nil
  | a :: b :: s, h => by
    rw [textOk, Bool.or_eq_true, Bool.and_eq_true, Bool.and_eq_true, Bool.and_eq_true] at h
    rcases h with ⟨h1, h2⟩ | ⟨⟨h1, h2⟩, h3⟩
    · exact .byte h1 (text_quotable p (b :: s) h2)
    · exact .two h1 h2 (text_quotable p s h3)

/-- The texts of a request can be quoted. -/
def textsOk (attrs : List Attr) : Bool :=
  attrs.all fun a =>
    match a with
    | .mk _ (.string s) => textOk s
    | _ => true

theorem request_of (env : Env) {attrs : List Attr} (h : requestOk attrs = true) (ht : textsOk attrs = true) : SRequest env attrs := by
  obtain ⟨code, e, c, m, u, h1, h2, rfl⟩ := isRequest_of h
  refine ⟨code, e, c, m, u, h1, fun s hs => ⟨text_quotable _ _ ?_, (h2 s hs).2⟩, rfl⟩
  simp only [textsOk, List.all_cons, List.all_nil, Bool.and_true, Bool.true_and, Bool.and_eq_true] at ht
  obtain ⟨t1, t2, t3, t4⟩ := ht
  simp only [List.mem_cons, List.not_mem_nil, or_false] at hs
  rcases hs with rfl | rfl | rfl | rfl <;> assumption

theorem logging_dataS (env : Env) : ∃ data, load loggingText = some data ∧ data.length = 51 ∧ ∀ attrs ∈ data, SRequest env attrs := by
  have hc : Cut loggingText loggingLines [] := cut_lines (by decide +kernel)
  have hall : ∀ l ∈ loggingLines, ((Gin.parse (trimTimeLevel (dropCR l))).map fun a => requestOk a && textsOk a) = some true := by
    decide +kernel
  obtain ⟨es, h1, h2⟩ := C71_load hc
  have key : ∀ {ls : List Bytes} {es : List (Option (List Attr))}, List.Forall₂ EntryOf ls es →
      (∀ l ∈ ls, ((Gin.parse (trimTimeLevel (dropCR l))).map fun a => requestOk a && textsOk a) = some true) →
      (es.filterMap id).length = ls.length ∧ ∀ attrs ∈ es.filterMap id, SRequest env attrs := by
    intro ls es hf
    induction hf with
    | nil => intro _; exact ⟨rfl, fun a ha => by cases ha⟩
    | @cons l e ls es he _ ih =>
      intro h
      obtain ⟨i1, i2⟩ := ih fun l hl => h l (List.mem_cons_of_mem _ hl)
      have h0 := h l List.mem_cons_self
      obtain ⟨r, hr, rfl⟩ := he
      rw [(C71_trim _ _).2 hr] at h0
      obtain ⟨a, ha, hok⟩ := Option.map_eq_some_iff.1 h0
      rw [ha]
      have e : List.filterMap id (some a :: es) = a :: List.filterMap id es := rfl
      rw [e]
      rw [Bool.and_eq_true] at hok
      refine ⟨by simp only [List.length_cons, i1], fun x hx => ?_⟩
      rcases List.mem_cons.1 hx with rfl | hx
      · exact request_of env hok.1 hok.2
      · exact i2 x hx
  obtain ⟨k1, k2⟩ := key h2 hall
  exact ⟨_, h1, by rw [k1]; decide +kernel, k2⟩

/-- C99 with the data of the embedded file. -/
theorem C99_sloggy_embedded {env : Env} {clock : Nat → Nat × Nat} {now : Nat} (W : SWorld env clock now) {L : Lib F}
    {N : Nums F} {num : Bytes → Option F} (D : Decoding L N num) (rand : Nat → Fin 5) {m : Manager}
    (hm : Unwarned L m) : ∃ data, load loggingText = some data ∧ data.length = 51 ∧
      ∀ bm ∈ benchmarks L N now rand data, verifySloggy env clock bm m = some (m, none) := by
  obtain ⟨data, h1, h0, h2⟩ := logging_dataS env
  exact ⟨data, h1, h0, C99_sloggy W D rand h2 hm⟩

/-! ### A run that meets the hypotheses -/

theorem sample_sworld (clock : Nat → Nat × Nat) (now : Nat) (hc : ∀ i, (clock i).2 ≠ 0 ∧ (clock i).2 < 2 ^ 63) :
    SWorld Flash.Sample.env clock now :=
  have ht : ∀ t, Quotable Flash.Sample.env.isPrint (Flash.Sample.env.formatTime sLayout t) := fun t => by
    refine q ?_
    show (b!"T" ++ decNat t).all _ = true
    rw [List.all_append, Sloggy.digits_ascii (decNat_digits t)]
    decide
  { sample_world clock now hc with quoteNow := ht now, quoteTime := fun i => ht _ }

/-- What is written in the benchmark SimpleSource. -/
example : ((sloggyHandler Flash.Sample.env ⟨b!"SimpleSource", true, [], info [], false, fun _ m => some (m, none)⟩).map
    fun h => logCallsS h (fun i => (7 + i, 3)) 0 (info [])) =
      some b!"{\"time\": \"T7\", \"level\": \"INFO\", \"msg\": \"This is a message\", \"source\": {\"file\":\"main.go\",\"function\":\"main.f\",\"line\":3}}\r\n" := by
  decide +kernel

example : ∃ data, load loggingText = some data ∧ data.length = 51 ∧
    ∀ bm ∈ benchmarks Sample.lib sampleNums 11 (fun i => Fin.ofNat 5 i) data,
    verifySloggy Flash.Sample.env (fun i => (7 + i, 3)) bm {} = some ({}, none) :=
  C99_sloggy_embedded (sample_sworld _ 11 fun i => by simp) sample_decoding _ (by decide +kernel)

end Verif.Props.BenchSloggy
