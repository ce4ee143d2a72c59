import Verif.Verify.ComplexMap
import Verif.Flash.Ideal
import Verif.Props.BenchFlash
import Verif.Spec.Contract

/-
Properties of the generated test cases of the verification suite (C73).
-/

namespace Verif.Props.VerifyComplex
open Go Warning Slog Bench Verify TestProgram LogTree Json Flash

variable {F : Type} [DecidableEq F]

/-! ### C73 -/

/-- The claim in full: every program is found to match with flash. -/
def C73_statement : Prop :=
  ∀ (C : Ctx Bytes) (num : Bytes → Option Bytes) (unmarshal : Bytes → Option (AMap Bytes) × Option Bytes) (env : Env)
    (clock : Nat → Nat × Nat) (now : Nat) (s : Bytes) (ops : List Op) (as : List Attr) (i : Nat),
    Quiet C → NumsFit C.N num → Faithful num unmarshal → World env clock now →
    Utf8.Valid C.stamp ∧ NoRepl C.stamp = true → Prog (attributes C.stamp) s ops as → ops.length < 9000 →
    complexCase C unmarshal (flashInfo env (clock i).1 (clock i).2) s = some true

omit [DecidableEq F] in
/-- Running a program gives no error and logs one record, through the derivations and with
the attributes the text of the program says. -/
theorem C73_program {C : Ctx F} (Q : Quiet C) {s : Bytes} {ops : List Op} {as : List Attr}
    (h : Prog (attributes C.stamp) s ops as) :
    (runProgram C s).2 = false ∧ (runProgram C s).1.logged = [(ops, as)] := by
  obtain ⟨p', h1, h2, _⟩ := parse_run Q h s.length (newParser s) rfl (Nat.le_refl _)
  unfold runProgram
  rw [h1]
  exact ⟨rfl, h2⟩

omit [DecidableEq F] in
/-- What the program expects is what is to be logged, unless a group in which nothing is
logged has the name of an attribute given before: if it has, it is something else. -/
theorem C73_expected_partial {C : Ctx F} (Q : Quiet C) {num : Bytes → Option F} (D : NumsFit C.N num) {env : Env}
    (he : EnvClean env) (l : Bytes) (hs : Utf8.Valid C.stamp ∧ NoRepl C.stamp = true) {s : Bytes} {ops : List Op}
    {as : List Attr} (h : Prog (attributes C.stamp) s ops as) :
    ∃ pl, placeIdeal env l .ideal ops as = some pl ∧
      (IsAny num (.obj ([(b!"level", .str b!"INFO"), (b!"msg", .str Verify.message)] ++ pl))
        (.map ((runProgram C s).1.expected C)) ↔ ¬ Hides [] ops as) := by
  obtain ⟨p', h1, h2, h3⟩ := parse_run Q h s.length (newParser s) rfl (Nat.le_refl _)
  obtain ⟨ho, ha⟩ := prog_ops (ok := fun bs => ∃ ts, Listed C num env l bs ts)
    (fun c bs hc => listed Q D l hs he hc) h
  obtain ⟨pl, P, hg⟩ := grow_ok ha ho
  refine ⟨pl, P.place, ?_⟩
  have hw : (runProgram C s).1.expected C = stripMap C.has 1 (grow C true [] ops as) := by
    unfold runProgram Parser.expected
    rw [h1, h3]
    exact congrArg _ ((endMap_grow C as ho).1 [])
  rw [hw]
  refine ⟨fun hi hh => ?_, fun hh => ?_⟩
  · exact grow_hides ho P ha true 1 [] [] [] (sAny_nil _ _ _) (by simp) hh hi
  · exact (hg true 1 [] [] [] (sAny_nil _ _ _) (by simp) (by simp) hh).isAny

omit [DecidableEq F] in
theorem filled_strip {has : Warning → Bool} {num : Bytes → Option F} {t : Tree} {a : Any F} (h : IsAny num t a) :
    Verify.Filled t → ∀ d, ∃ a', stripAny has d a = some a' ∧ IsAny num t a' := by
  induction h with
  | null => intro _ d; exact ⟨_, by simp only [stripAny], .null⟩
  | bool b => intro _ d; exact ⟨_, by simp only [stripAny], .bool b⟩
  | num h => intro _ d; exact ⟨_, by simp only [stripAny], .num h⟩
  | str s => intro _ d; exact ⟨_, by simp only [stripAny], .str s⟩
  | arr h1 h2 _ => intro _ d; exact ⟨_, by simp only [stripAny], .arr h1 h2⟩
  | @obj ms m h1 h2 _ ih =>
    intro hf d
    cases hf with
    | obj hne hf =>
      have : SAny has num (d + 1) ms m := by
        refine ⟨h1, fun k => ?_⟩
        cases hl : lastOf ms k with
        | none =>
          have := h2 k
          rw [hl, Option.isSome_none, Option.isSome_eq_false_iff, Option.isNone_iff_eq_none] at this
          rw [this]; exact .none
        | some t =>
          have := h2 k
          rw [hl] at this
          obtain ⟨a, ha⟩ := Option.isSome_iff_exists.1 this
          obtain ⟨a', i1, i2⟩ := ih k t a hl ha (hf k t (lastOf_mem hl)) (d + 1)
          rw [ha, Option.bind_some, i1]; exact .some i2
      exact ⟨_, stripAny_full hne this, this.isAny⟩

omit [DecidableEq F] in
/-- Decoded forms of the same tree are exchangeable. -/
theorem same_isAny {num : Bytes → Option F} {t : Tree} {b : Any F} (h : IsAny num t b) :
    ∀ {a : Any F}, a.Ok → Any.Same a b → IsAny num t a := by
  induction h with
  | null => intro a _ hs; cases hs; exact .null
  | bool x => intro a _ hs; cases hs; exact .bool x
  | num h => intro a _ hs; cases hs; exact .num h
  | str s => intro a _ hs; cases hs; exact .str s
  | @arr es l hlen _ ih =>
    intro a ho hs
    cases hs with
    | @list l0 _ hl h2 =>
      cases ho with
      | list ho =>
        refine .arr (by omega) fun i t x ht hx => ?_
        obtain ⟨hi, _⟩ := List.getElem?_eq_some_iff.1 hx
        have hy := List.getElem?_eq_getElem (l := l) (i := i) (by omega)
        exact ih i t _ ht hy (ho x (List.mem_of_getElem? hx)) (h2 i _ _ hx hy)
  | @obj ms m hn hsome _ ih =>
    intro a ho hs
    cases hs with
    | @map m0 _ hk h2 =>
      cases ho with
      | map ho1 ho2 =>
        refine .obj ho1 (fun k => by rw [hk, hsome]) fun k t x ht hx => ?_
        have := hk k
        rw [hx] at this
        obtain ⟨y, hy⟩ := Option.isSome_iff_exists.1 this.symm
        exact ih k t y ht hy (ho2 _ (Map.mem_of_get hx)) (h2 k x y hx hy)

/-- Group names can stand in a JSON string as they are. -/
def PlainNames : List Op → Prop
  | [] => True
  | .attrs _ :: ops => PlainNames ops
  | .group n :: ops => decodeBody n = some n ∧ PlainNames ops

omit [DecidableEq F] in
theorem ops_facts {C : Ctx F} {num : Bytes → Option F} {env : Env} {l : Bytes} : ∀ {ops : List Op},
    OpsOk (fun bs => ∃ ts, Listed C num env l bs ts) ops → PlainNames ops →
    OpsClean env l ops ∧ opsDepth ops ≤ 1 ∧ OpsPlain env l ops
  | [], _, _ => ⟨trivial, by simp [opsDepth], trivial⟩
  | .attrs bs :: ops, h, hn => by
    obtain ⟨⟨ts, T⟩, h⟩ := h
    obtain ⟨h1, h2, h3⟩ := ops_facts h hn
    refine ⟨⟨T.clean, h1⟩, ?_, T.plain, ?_, h3⟩
    · have := T.depth
      simp only [opsDepth]; omega
    · rw [T.members]
      intro e
      exact T.ne (Option.some.inj e)
  | .group n :: ops, h, hn => by
    obtain ⟨h1, h2, h3⟩ := ops_facts h.2 hn.2
    exact ⟨⟨hn.1, h1⟩, h2, h.1.free.2, h3⟩

omit [DecidableEq F] in
/-- What a program logs can be printed. -/
theorem prog_clear {C : Ctx F} (Q : Quiet C) {num : Bytes → Option F} (D : NumsFit C.N num) {env : Env}
    {clock : Nat → Nat × Nat} {now : Nat} (W : World env clock now)
    (hs : Utf8.Valid C.stamp ∧ NoRepl C.stamp = true) {s : Bytes} {ops : List Op}
    {as : List Attr} (h : Prog (attributes C.stamp) s ops as) (hn : PlainNames ops) : ∃ pl, Clear env ops as pl := by
  obtain ⟨ho, ha⟩ := prog_ops (ok := fun bs => ∃ ts, Listed C num env defaultTimeFormat bs ts)
    (fun c bs hc => listed Q D defaultTimeFormat hs W.clean hc) h
  obtain ⟨pl, P, _⟩ := grow_ok ha ho
  obtain ⟨k1, k2, k3⟩ := ops_facts ho hn
  have hst := W.stack
  have aok : ListClean env defaultTimeFormat as ∧ listDepth as < env.stack ∧ ListPlain env as ∧
      (as.all Attr.isEmpty = true ∨ listMembers env defaultTimeFormat .ideal as ≠ some []) := by
    rcases ha with rfl | ⟨ts, T⟩
    · exact ⟨trivial, by simp only [listDepth]; omega, trivial, .inl rfl⟩
    · refine ⟨T.clean, by have := T.depth; omega, T.plain, .inr ?_⟩
      rw [T.members]
      intro e
      exact T.ne (Option.some.inj e)
  have e := (place_ideal W.clean aok.2.2.1 aok.2.2.2 ops k3).1
  exact ⟨pl, k1, by omega, aok.1, aok.2.1, P.place, by rw [e]; exact P.place⟩

/-- The line a program is to log is found to match, unless a group in which nothing is logged has
the name of an attribute given before. -/
theorem C73_line {C : Ctx F} (Q : Quiet C) {num : Bytes → Option F} (D : NumsFit C.N num)
    {unmarshal : Bytes → Option (AMap F) × Option Bytes} (hu : Faithful num unmarshal) {env : Env}
    {clock : Nat → Nat × Nat} {now : Nat} (W : World env clock now)
    (hs : Utf8.Valid C.stamp ∧ NoRepl C.stamp = true) {s : Bytes} {ops : List Op}
    {as : List Attr} (h : Prog (attributes C.stamp) s ops as) (hl : ops.length < 9000) (i : Nat)
    {pl : List (Bytes × Tree)} (hc : Clear env ops as pl) {b : Bytes}
    (hb : Denotes b (.obj (BenchFlash.head env (clock i).1 (clock i).2 false Verify.message ++ pl))) :
    ∃ x, unmarshal (b ++ [0x0A]) = (some x, none) ∧
      (deepEqual (.map ((runProgram C s).1.expected C)) (.map (fixActual C x)) = true ↔ ¬ Hides [] ops as) := by
  obtain ⟨p', h1, h2, h3⟩ := parse_run Q h s.length (newParser s) rfl (Nat.le_refl _)
  obtain ⟨ho, ha⟩ := prog_ops (ok := fun bs => ∃ ts, Listed C num env defaultTimeFormat bs ts)
    (fun c bs hc => listed Q D defaultTimeFormat hs W.clean hc) h
  obtain ⟨pl', P, hg⟩ := grow_ok ha ho
  have hpl : pl' = pl := Option.some.inj (P.place.symm.trans hc.ideal)
  subst hpl
  have hfit : fits 10000 (.obj (BenchFlash.head env (clock i).1 (clock i).2 false Verify.message ++ pl')) = true := by
    show fitsMembers 9999 _ = true
    exact fitsMembers_append (fitsMembers_mono _ (by decide) (BenchFlash.head_fits W i false (by decide +kernel)))
      (fitsMembers_mono _ (by omega) P.fits)
  -- some decoded form
  let line := BenchFlash.head env (clock i).1 (clock i).2 false Verify.message ++ pl'
  have hline : line = (b!"time", Tree.str (env.formatTime defaultTimeFormat (clock i).1)) :: (heads true ++ pl') := rfl
  have plfree : ∀ k ∈ [b!"time", b!"level", b!"msg", b!"message"], lastOf pl' k = none := by
    intro k hk
    refine lastOf_none fun hm => ?_
    exact P.free k hm hk
  have hlook : ∀ k, lastOf line k = if k = b!"time" then
      some (.str (env.formatTime defaultTimeFormat (clock i).1)) else lastOf (heads true ++ pl') k := by
    intro k
    rw [hline, lastOf_cons]
    by_cases hk : k = b!"time"
    · subst hk
      rw [if_pos rfl, if_pos rfl, lastOf_append, plfree _ (by simp)]
      rfl
    · rw [if_neg hk, if_neg (Ne.symm hk), Option.or_none]
  obtain ⟨m0, hm0⟩ := placed_any ha ho P.place (d := 0)
    (((sAny_nil C.has num 0).set (k := b!"time")
      (v := .str (env.formatTime defaultTimeFormat (clock i).1))
      (t := .str (env.formatTime defaultTimeFormat (clock i).1)) (by simp only [stripAny]) (.str _)).fin true)
  obtain ⟨x, hx, hi⟩ := hu b line [0x0A] _ hb BenchFlash.ws_newline hfit hm0.isAny
  obtain ⟨x1, x2, x3⟩ := isAny_obj hi
  -- what is made of it
  have nomsg : Map.get (Map.del x b!"time") b!"message" = none := by
    have := x2 b!"message"
    rw [hlook, if_neg (by decide), lastOf_append, plfree _ (by simp),
      show lastOf (heads true) b!"message" = none from rfl] at this
    rw [Map.get_del, if_neg (by decide)]
    simpa using this
  have hfix : fixActual C x = stripMap C.has 0 (Map.del x b!"time") := by
    unfold fixActual fixLvl fixMsg
    rw [nomsg, Q.levelCase]
    simp only [Bool.false_eq_true, if_false]
  have hs0 : SAny C.has num 0 (heads true ++ pl') (Map.del x b!"time") := by
    refine ⟨Map.nodup_del x1 _, fun k => ?_⟩
    rw [Map.get_del]
    by_cases hk : k = b!"time"
    · subst hk
      rw [if_pos rfl, lastOf_append, plfree _ (by simp)]
      exact .none
    · rw [if_neg hk]
      have hk2 := x2 k
      have hk3 := x3 k
      rw [hlook, if_neg hk] at hk2 hk3
      cases ht : lastOf (heads true ++ pl') k with
      | none =>
        rw [ht, Option.isSome_none, Option.isSome_eq_false_iff, Option.isNone_iff_eq_none] at hk2
        rw [hk2]; exact .none
      | some t =>
        rw [ht] at hk2
        obtain ⟨a, ga⟩ := Option.isSome_iff_exists.1 hk2
        have hf : Verify.Filled t := by
          have := lastOf_mem ht
          rw [List.mem_append] at this
          rcases this with hm | hm
          · simp only [heads, if_true, List.mem_cons, Prod.mk.injEq, List.not_mem_nil, or_false] at hm
            rcases hm with ⟨_, rfl⟩ | ⟨_, rfl⟩ <;> exact .str _
          · exact P.filled k t hm
        obtain ⟨a', s1, s2⟩ := filled_strip (has := C.has) (hk3 t a ht ga) hf 0
        rw [ga, Option.bind_some, s1]
        exact .some s2
  have hact := hs0.isAny
  -- what was expected
  have hexp : (runProgram C s).1.expected C = stripMap C.has 1 (grow C true [] ops as) := by
    unfold runProgram Parser.expected
    rw [h1, h3]
    exact congrArg _ ((endMap_grow C as ho).1 [])
  have hok : (Any.map (stripMap C.has 1 (grow C true [] ops as))).Ok :=
    ok_stripMap _ _ _ (grow_okAny ha ho true [] ok_nil)
  refine ⟨x, hx, ?_⟩
  rw [hexp, hfix]
  refine ⟨fun he hh => ?_, fun hh => ?_⟩
  · have hsame := (deep_iff _ _ hok (isAny_ok hact)).1 he
    exact grow_hides ho P ha true 1 [] [] [] (sAny_nil _ _ _) (by simp) hh (same_isAny hact hok hsame)
  · have hi2 := (hg true 1 [] [] [] (sAny_nil _ _ _) (by simp) (by simp) hh).isAny
    exact (deep_iff _ _ hok (isAny_ok hact)).2 (isAny_same hi2 hact)

/-- A program is found to match with flash, unless a group in which nothing is logged has the
name of an attribute given before. -/
theorem C73_flash_partial {C : Ctx F} (Q : Quiet C) {num : Bytes → Option F} (D : NumsFit C.N num)
    {unmarshal : Bytes → Option (AMap F) × Option Bytes} (hu : Faithful num unmarshal) {env : Env}
    {clock : Nat → Nat × Nat} {now : Nat} (W : World env clock now)
    (hs : Utf8.Valid C.stamp ∧ NoRepl C.stamp = true) {s : Bytes} {ops : List Op}
    {as : List Attr} (h : Prog (attributes C.stamp) s ops as) (hn : PlainNames ops) (hl : ops.length < 9000) (i : Nat) :
    complexCase C unmarshal (flashInfo env (clock i).1 (clock i).2) s = some true ∧ ¬ Hides [] ops as ∨
    complexCase C unmarshal (flashInfo env (clock i).1 (clock i).2) s = some false ∧ Hides [] ops as := by
  obtain ⟨pl, hc⟩ := prog_clear Q D W hs h hn
  obtain ⟨hd, hh, hw⟩ := flash_writes W ⟨[], false, ops, [], false, fun _ m => some (m, none)⟩ hc.chain hc.chainDepth
  obtain ⟨b, pl', w1, w2, w3⟩ := hw i Verify.message as (by decide) hc.attrs hc.depth
  have e : pl' = pl := Option.some.inj (w2.symm.trans hc.place)
  subst e
  have hb := w3.1
  rw [BenchFlash.builtins_head W] at hb
  have hwrite : flashInfo env (clock i).1 (clock i).2 ops as = b ++ [0x0A] := by
    have hh' : (Flash.H.plain (Flash.build env (some ⟨false, some fun _ => levelInfo, none⟩) none)).derive ops =
      some hd := hh
    unfold flashInfo
    rw [hh']
    exact w1
  obtain ⟨x, hx, hi⟩ := C73_line Q D hu W hs h hl i hc hb
  have hcase : complexCase C unmarshal (flashInfo env (clock i).1 (clock i).2) s =
      some (deepEqual (.map ((runProgram C s).1.expected C)) (.map (fixActual C x))) := by
    have hlog : (runProgram C s).1.logged = [(ops, as)] := (C73_program Q h).2
    unfold complexCase
    dsimp only
    rw [hlog]
    simp only [List.map_cons, List.map_nil, List.flatten_cons, List.flatten_nil, List.append_nil, hwrite, hx]
  rw [hcase]
  by_cases hh : Hides [] ops as
  · refine .inr ⟨congrArg some ?_, hh⟩
    rw [Bool.eq_false_iff]
    exact fun he => hi.1 he hh
  · exact .inl ⟨congrArg some (hi.2 hh), hh⟩

/-! ### The programs of the suite -/

/-- Reading a program. -/
def readProg (lists : UInt8 → Option (List Attr)) : Nat → Bytes → Option (List Op × List Attr)
  | 0, _ => none
  | n + 1, s =>
    match s with
    | 0x20 :: s => readProg lists n s
    | 0x4D :: 0x2B :: c :: w => if w.all (· == 0x20) then (lists c).map fun as => ([], as) else none
    | 0x4D :: w => if w.all (· == 0x20) then some ([], []) else none
    | 0x57 :: 0x2B :: c :: s =>
      match lists c, readProg lists n s with
      | some bs, some (ops, as) => some (.attrs bs :: ops, as)
      | _, _ => none
    | 0x47 :: c :: 0x2B :: x :: s =>
      match lists x, readProg lists n s with
      | some bs, some (ops, as) => some (.group (b!"group" ++ Utf8.encode c.toNat) :: .attrs bs :: ops, as)
      | _, _ => none
    | 0x47 :: c :: s => (readProg lists n s).map fun r => (.group (b!"group" ++ Utf8.encode c.toNat) :: r.1, r.2)
    | _ => none

theorem readProg_prog {lists : UInt8 → Option (List Attr)} : ∀ {n : Nat} {s : Bytes} {r : List Op × List Attr},
    readProg lists n s = some r → Prog lists s r.1 r.2
  | 0, _, _, h => by cases h
  | n + 1, s, r, h => by
    have sp : ∀ {w : Bytes}, w.all (· == 0x20) = true → ∀ b ∈ w, b = 0x20 := by
      intro w hw b hb
      simpa using List.all_eq_true.1 hw b hb
    unfold readProg at h
    split at h
    · exact .space (readProg_prog h)
    · split at h
      · rename_i c w hw
        rw [Option.map_eq_some_iff] at h
        obtain ⟨as, ha, rfl⟩ := h
        exact .messageAttrs ha (sp hw)
      · cases h
    · split at h
      · rename_i hw
        cases h
        exact .message (sp hw)
      · cases h
    · split at h
      · rename_i hb hr
        cases h
        exact .attrs hb (readProg_prog hr)
      · cases h
    · split at h
      · rename_i hb hr
        cases h
        exact .groupAttrs hb (readProg_prog hr)
      · cases h
    · rw [Option.map_eq_some_iff] at h
      obtain ⟨x, hx, rfl⟩ := h
      exact .group (readProg_prog hx)
    · cases h

/-- Operations alike but for the values of attributes. -/
inductive Alike : List Op → List Op → Prop
  | nil : Alike [] []
  | attrs {bs bs' ops ops'} : bs.map Attr.key = bs'.map Attr.key → Alike ops ops' → Alike (.attrs bs :: ops) (.attrs bs' :: ops')
  | group {n ops ops'} : Alike ops ops' → Alike (.group n :: ops) (.group n :: ops')

theorem prog_alike {l l' : UInt8 → Option (List Attr)}
    (hl : ∀ c bs, l c = some bs → ∃ bs', l' c = some bs' ∧ bs.map Attr.key = bs'.map Attr.key)
    {s : Bytes} {ops : List Op} {as : List Attr} (h : Prog l s ops as) :
    ∃ ops' as', Prog l' s ops' as' ∧ Alike ops ops' ∧ as.map Attr.key = as'.map Attr.key := by
  induction h with
  | message hw => exact ⟨_, _, .message hw, .nil, rfl⟩
  | messageAttrs hc hw =>
    obtain ⟨bs', h1, h2⟩ := hl _ _ hc
    exact ⟨_, _, .messageAttrs h1 hw, .nil, h2⟩
  | space _ ih => obtain ⟨_, _, h1, h2, h3⟩ := ih; exact ⟨_, _, .space h1, h2, h3⟩
  | without _ ih => obtain ⟨_, _, h1, h2, h3⟩ := ih; exact ⟨_, _, .without h1, h2, h3⟩
  | attrs hc _ ih =>
    obtain ⟨_, _, h1, h2, h3⟩ := ih
    obtain ⟨bs', g1, g2⟩ := hl _ _ hc
    exact ⟨_, _, .attrs g1 h1, .attrs g2 h2, h3⟩
  | group _ ih => obtain ⟨_, _, h1, h2, h3⟩ := ih; exact ⟨_, _, .group h1, .group h2, h3⟩
  | groupAttrs hx _ ih =>
    obtain ⟨_, _, h1, h2, h3⟩ := ih
    obtain ⟨bs', g1, g2⟩ := hl _ _ hx
    exact ⟨_, _, .groupAttrs g1 h1, .group (.attrs g2 h2), h3⟩

theorem alike_groupsOnly {ops ops' : List Op} (h : Alike ops ops') : groupsOnly ops = groupsOnly ops' := by
  induction h with
  | nil => rfl
  | attrs _ _ _ => rfl
  | group _ ih => simp only [groupsOnly, List.all_cons] at ih ⊢; rw [ih]

theorem alike_hides {ops ops' : List Op} (h : Alike ops ops') {as as' : List Attr}
    (ha : as.map Attr.key = as'.map Attr.key) : ∀ seen, Hides seen ops as ↔ Hides seen ops' as' := by
  have he : as = [] ↔ as' = [] := by
    rw [← List.map_eq_nil_iff (f := Attr.key), ha, List.map_eq_nil_iff]
  induction h with
  | nil => intro _; rfl
  | attrs hk _ ih => intro seen; simp only [Hides, hk]; exact ih _
  | group hs ih => intro seen; simp only [Hides, alike_groupsOnly hs, he, ih]

theorem alike_names {ops ops' : List Op} (h : Alike ops ops') : PlainNames ops → PlainNames ops' := by
  induction h with
  | nil => exact id
  | attrs _ _ ih => exact ih
  | group _ ih => exact fun h => ⟨h.1, ih h.2⟩

theorem alike_length {ops ops' : List Op} (h : Alike ops ops') : ops.length = ops'.length := by
  induction h with
  | nil => rfl
  | attrs _ _ ih => simp [ih]
  | group _ ih => simp [ih]

theorem attributes_alike (stamp stamp' : Bytes) (c : UInt8) (bs : List Attr) (h : attributes stamp c = some bs) :
    ∃ bs', attributes stamp' c = some bs' ∧ bs.map Attr.key = bs'.map Attr.key := by
  unfold attributes at h ⊢
  by_cases h1 : c = 0x41
  · rw [if_pos h1] at h ⊢; cases h; exact ⟨_, rfl, rfl⟩
  by_cases h2 : c = 0x42
  · rw [if_neg h1, if_pos h2] at h ⊢; cases h; exact ⟨_, rfl, rfl⟩
  by_cases h3 : c = 0x43
  · rw [if_neg h1, if_neg h2, if_pos h3] at h ⊢; cases h; exact ⟨_, rfl, rfl⟩
  by_cases h4 : c = 0x44
  · rw [if_neg h1, if_neg h2, if_neg h3, if_pos h4] at h ⊢; cases h; exact ⟨_, rfl, rfl⟩
  rw [if_neg h1, if_neg h2, if_neg h3, if_neg h4] at h
  cases h

/-- `Hides` as a function. -/
def hides (seen : List Bytes) : List Op → List Attr → Bool
  | [], _ => false
  | .attrs bs :: ops, as => hides (seen ++ bs.map Attr.key) ops as
  | .group n :: ops, as => (seen.contains n && groupsOnly ops && as.isEmpty) || hides [] ops as

theorem hides_iff : ∀ (ops : List Op) (seen : List Bytes) (as : List Attr), hides seen ops as = true ↔ Hides seen ops as
  | [], _, _ => by simp [hides, Hides]
  | .attrs bs :: ops, seen, as => by simp only [hides, Hides, hides_iff ops]
  | .group n :: ops, seen, as => by
    simp only [hides, Hides, Bool.or_eq_true, Bool.and_eq_true, hides_iff ops, List.contains_iff_mem, List.isEmpty_iff,
      and_assoc]

/-- `PlainNames` as a function. -/
def plainNames : List Op → Bool
  | [] => true
  | .attrs _ :: ops => plainNames ops
  | .group n :: ops => decide (decodeBody n = some n) && plainNames ops

theorem plainNames_iff : ∀ {ops : List Op}, plainNames ops = true → PlainNames ops
  | [], _ => trivial
  | .attrs _ :: ops, h => plainNames_iff (ops := ops) h
  | .group n :: ops, h => by
    simp only [plainNames, Bool.and_eq_true, decide_eq_true_eq] at h
    exact ⟨h.1, plainNames_iff h.2⟩

/-- The programs of the suite are programs, and none of them has a group hidden. -/
theorem suite_program {s : Bytes} (h : s ∈ programs) (stamp : Bytes) : ∃ ops as, Prog (attributes stamp) s ops as ∧
    PlainNames ops ∧ ops.length < 9000 ∧ ¬ Hides [] ops as := by
  have key : ∀ s ∈ programs, ∃ r, readProg (attributes []) 40 s = some r ∧ hides [] r.1 r.2 = false ∧
      plainNames r.1 = true ∧ r.1.length < 9000 := by
    have : ∀ s ∈ programs, ((readProg (attributes []) 40 s).map fun r =>
        !hides [] r.1 r.2 && plainNames r.1 && decide (r.1.length < 9000)) = some true := by decide +kernel
    intro s h
    obtain ⟨r, h1, h2⟩ := Option.map_eq_some_iff.1 (this s h)
    simp only [Bool.and_eq_true, Bool.not_eq_true', decide_eq_true_eq] at h2
    exact ⟨r, h1, h2.1.1, h2.1.2, h2.2⟩
  obtain ⟨r, h1, h2, h3, h4⟩ := key s h
  obtain ⟨ops, as, p1, p2, p3⟩ := prog_alike (attributes_alike [] stamp) (readProg_prog h1)
  refine ⟨ops, as, p1, alike_names p2 (plainNames_iff h3), by rw [← alike_length p2]; exact h4, ?_⟩
  rw [← alike_hides p2 p3, ← hides_iff, h2]
  decide

/-- All programs of the suite are found to match with flash. -/
theorem C73_suite {C : Ctx F} (Q : Quiet C) {num : Bytes → Option F} (D : NumsFit C.N num)
    {unmarshal : Bytes → Option (AMap F) × Option Bytes} (hu : Faithful num unmarshal) {env : Env}
    {clock : Nat → Nat × Nat} {now : Nat} (W : World env clock now)
    (hs : Utf8.Valid C.stamp ∧ NoRepl C.stamp = true) {s : Bytes} (h : s ∈ programs) (i : Nat) :
    complexCase C unmarshal (flashInfo env (clock i).1 (clock i).2) s = some true := by
  obtain ⟨ops, as, p1, p2, p3, p4⟩ := suite_program h C.stamp
  rcases C73_flash_partial Q D hu W hs p1 p2 p3 i with h | h
  · exact h.1
  · exact absurd h.2 p4

/-! ### Cases -/

/-- Numbers as numerals. -/
def sampleCtx : Ctx Bytes where
  has := fun w => w == duplicates
  N := ⟨decInt, F64.text, decInt⟩
  durationString := decInt
  valueString := fun _ => []
  goValue := fun _ => .nil
  upper := Sample.upper
  stamp := b!"2024-03-01T12:00:00Z"

theorem sample_quiet : Quiet sampleCtx := by
  constructor <;> decide +kernel

theorem sample_fit : NumsFit sampleCtx.N Sample.num := ⟨fun _ _ _ => rfl, rfl, rfl⟩

/-- A program with groups inside each other, read and run. -/
example : ∃ ops as, Prog (attributes sampleCtx.stamp) b!"W+A G1 W+C G2+B G3 M+D" ops as ∧ ops.length = 6 ∧
    PlainNames ops ∧ ¬ Hides [] ops as := by
  obtain ⟨r, h1, h2⟩ := Option.map_eq_some_iff.1 (show ((readProg (attributes sampleCtx.stamp) 40
    b!"W+A G1 W+C G2+B G3 M+D").map fun r => decide (r.1.length = 6) && plainNames r.1 && !hides [] r.1 r.2) = some true by
    decide +kernel)
  simp only [Bool.and_eq_true, decide_eq_true_eq, Bool.not_eq_true'] at h2
  refine ⟨r.1, r.2, readProg_prog h1, h2.1.1, plainNames_iff h2.1.2, ?_⟩
  rw [← hides_iff, h2.2]; decide

/-- What it writes. -/
example : flashInfo Flash.Sample.env 7 3 [.attrs [.mk b!"E" (.float64 e64)], .group b!"group1"] [.mk b!"uint64" (.uint64 79)] =
    b!"{\"time\": \"T7\", \"level\": \"INFO\", \"msg\": \"This is a message\", \"E\": 2.718281828459045, \"group1\": {\"uint64\": 79}}\n" := by
  decide +kernel

/-- A program run and compared. -/
example : complexCase sampleCtx Sample.unmarshal (flashInfo Flash.Sample.env 7 3) b!"W+A G1 W+C G2+B G3 M+D" = some true := by
  decide +kernel

/-- The group of the list C is taken for the group that is opened after it. -/
theorem C73_hidden : complexCase sampleCtx Sample.unmarshal (flashInfo Flash.Sample.env 7 3) b!"W+C GC M" = some false := by
  decide +kernel

/-- With a quotation mark in the name of a group the text cannot be decoded. -/
theorem C73_quoted : complexCase sampleCtx Sample.unmarshal (flashInfo Flash.Sample.env 7 3) b!"G\"M+A" = none := by
  decide +kernel

theorem C73_fails : ¬ C73_statement := by
  intro h
  obtain ⟨r, h1, h2⟩ := Option.map_eq_some_iff.1 (show ((readProg (attributes sampleCtx.stamp) 40
    b!"W+C GC M").map fun r => decide (r.1.length = 2)) = some true by decide +kernel)
  have := h sampleCtx Sample.num Sample.unmarshal Flash.Sample.env (fun _ => (7, 3)) 0 b!"W+C GC M" r.1 r.2 0 sample_quiet
    sample_fit Sample.faithful (BenchFlash.sample_world _ _ (fun _ => by decide)) (by decide +kernel) (readProg_prog h1)
    (by simp only [decide_eq_true_eq] at h2; omega)
  rw [C73_hidden] at this
  cases this

end Verif.Props.VerifyComplex
