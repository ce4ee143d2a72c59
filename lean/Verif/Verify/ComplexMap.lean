import Verif.Verify.ComplexRun
import Verif.Bench.FlashRun

/-
Lemmas on the map a test program expects: it is the decoded form of the members the record
should have.
-/

namespace Verif.Verify
open Go Warning Slog Bench TestProgram LogTree Json Flash

variable {F : Type} [DecidableEq F]

/-! ### Removing empty groups -/

omit [DecidableEq F] in
theorem stripAny_map (has : Warning → Bool) (d : Nat) (g : List (Bytes × Any F)) :
    stripAny has d (.map g) =
      if (stripMap has (d + 1) g).length < 1 then none else some (.map (stripMap has (d + 1) g)) := by
  simp only [stripAny]
  have : (if g.length > 0 then stripMap has (d + 1) g else g) = stripMap has (d + 1) g := by
    cases g with
    | nil => simp [stripMap]
    | cons e g => simp
  rw [this]
  by_cases h : (decide (d > 0) || !has groupEmpty) = true
  · rw [if_pos h]
  · rw [if_neg h]
    have : has groupEmpty = true := by
      simp only [Bool.or_eq_true, not_or, Bool.not_eq_true', Bool.not_eq_false] at h
      exact h.2
    rw [if_pos this]

omit [DecidableEq F] in
theorem strip_keys (has : Warning → Bool) (d : Nat) (m : AMap F) :
    (Map.keys (stripMap has d m)).Sublist (Map.keys m) := by
  induction m with
  | nil => simp [stripMap, Map.keys]
  | cons e m ih =>
    obtain ⟨k, a⟩ := e
    simp only [stripMap]
    split
    · simpa [Map.keys] using ih
    · exact ih.trans (by simp [Map.keys])

omit [DecidableEq F] in
theorem strip_get (has : Warning → Bool) (d : Nat) {m : AMap F} (h : (Map.keys m).Nodup) (k : Bytes) :
    Map.get (stripMap has d m) k = (Map.get m k).bind (stripAny has d) := by
  induction m with
  | nil => rfl
  | cons e m ih =>
    obtain ⟨k', a⟩ := e
    have hn : (Map.keys m).Nodup ∧ k' ∉ Map.keys m := by
      simp only [Map.keys, List.map_cons, List.nodup_cons] at h
      exact ⟨h.2, h.1⟩
    simp only [stripMap]
    rw [Map.get_cons]
    by_cases hk : k' = k
    · subst hk
      rw [if_pos rfl, Option.bind_some]
      cases hs : stripAny has d a with
      | some a' => simp only [Map.get_cons, if_true]
      | none =>
        simp only
        rw [ih hn.1]
        have : Map.get m k' = none := by
          have := Map.mem_keys m k'
          cases hg : Map.get m k' with
          | none => rfl
          | some v => rw [hg] at this; exact absurd (this.2 rfl) hn.2
        rw [this]; rfl
    · rw [if_neg hk]
      cases hs : stripAny has d a with
      | some a' => simp only [Map.get_cons, if_neg hk]; exact ih hn.1
      | none => exact ih hn.1

/-- After empty groups have been removed, the map is the decoded form of the members. -/
def SAny (has : Warning → Bool) (num : Bytes → Option F) (d : Nat) (ms : List (Bytes × Tree)) (m : AMap F) : Prop :=
  (Map.keys m).Nodup ∧ ∀ k, Option.Rel (IsAny num) (lastOf ms k) ((Map.get m k).bind (stripAny has d))

omit [DecidableEq F] in
theorem SAny.isAny {has : Warning → Bool} {num : Bytes → Option F} {d : Nat} {ms : List (Bytes × Tree)} {m : AMap F}
    (h : SAny has num d ms m) : IsAny num (.obj ms) (.map (stripMap has d m)) := by
  refine .obj ((strip_keys has d m).nodup h.1) (fun k => ?_) (fun k t a ht ha => ?_)
  · rw [strip_get has d h.1]
    have := h.2 k
    generalize lastOf ms k = x at this ⊢
    generalize (Map.get m k).bind (stripAny has d) = y at this ⊢
    cases this with
    | some h => rfl
    | none => rfl
  · rw [strip_get has d h.1] at ha
    have := h.2 k
    rw [ht, ha] at this
    cases this with
    | some h => exact h

omit [DecidableEq F] in
theorem SAny.congr {has : Warning → Bool} {num : Bytes → Option F} {d : Nat} {ms ms' : List (Bytes × Tree)}
    {m m' : AMap F} (h : SAny has num d ms m) (hn : (Map.keys m').Nodup) (h1 : ∀ k, lastOf ms' k = lastOf ms k)
    (h2 : ∀ k, Map.get m' k = Map.get m k) : SAny has num d ms' m' :=
  ⟨hn, fun k => by rw [h1, h2]; exact h.2 k⟩

theorem lastOf_append {V : Type} (a b : List (Bytes × V)) (k : Bytes) :
    lastOf (a ++ b) k = (lastOf b k).or (lastOf a k) := by
  induction a with
  | nil => rw [List.nil_append, lastOf_nil, Option.or_none]
  | cons e a ih =>
    obtain ⟨k', t⟩ := e
    rw [List.cons_append, lastOf_cons, lastOf_cons, ih, Option.or_assoc]

theorem lastOf_one {V : Type} (k : Bytes) (t : V) (x : Bytes) :
    lastOf [(k, t)] x = if k = x then some t else none := by
  rw [lastOf_cons, lastOf_nil, Option.none_or]

omit [DecidableEq F] in
theorem SAny.set {has : Warning → Bool} {num : Bytes → Option F} {d : Nat} {ms : List (Bytes × Tree)} {m : AMap F}
    (h : SAny has num d ms m) {k : Bytes} {v a : Any F} {t : Tree} (hv : stripAny has d v = some a)
    (ht : IsAny num t a) : SAny has num d (ms ++ [(k, t)]) (m.set k v) := by
  refine ⟨Map.nodup_set h.1 _ _, fun x => ?_⟩
  rw [lastOf_append, lastOf_one, Map.get_set]
  by_cases hk : x = k
  · subst hk
    rw [if_pos rfl, if_pos rfl, Option.bind_some, hv, Option.some_or]
    exact .some ht
  · rw [if_neg hk, if_neg (Ne.symm hk), Option.none_or]
    exact h.2 x

omit [DecidableEq F] in
theorem SAny.unset {has : Warning → Bool} {num : Bytes → Option F} {d : Nat} {ms : List (Bytes × Tree)} {m : AMap F}
    (h : SAny has num d ms m) {k : Bytes} {v : Any F} (hv : stripAny has d v = none) (hk : k ∉ ms.map Prod.fst) :
    SAny has num d ms (m.set k v) := by
  refine ⟨Map.nodup_set h.1 _ _, fun x => ?_⟩
  rw [Map.get_set]
  by_cases hx : x = k
  · subst hx
    rw [if_pos rfl, Option.bind_some, hv]
    have : lastOf ms x = none := by
      cases hl : lastOf ms x with
      | none => rfl
      | some t => exact absurd (lastOf_isSome.1 (by rw [hl]; rfl)) hk
    rw [this]
    exact .none
  · rw [if_neg hx]; exact h.2 x

/-! ### Lists of attributes -/

/-- An entry for a member, the value having something besides empty groups. -/
def Entry (has : Warning → Bool) (num : Bytes → Option F) (t : Bytes × Tree) (e : Bytes × Any F) : Prop :=
  t.1 = e.1 ∧ e.2.Ok ∧ ∀ d, ∃ a, stripAny has d e.2 = some a ∧ IsAny num t.2 a

omit [DecidableEq F] in
theorem SAny.entries {has : Warning → Bool} {num : Bytes → Option F} {d : Nat} :
    ∀ {ts : List (Bytes × Tree)} {es : List (Bytes × Any F)}, List.Forall₂ (Entry has num) ts es →
    ∀ {ms : List (Bytes × Tree)} {m : AMap F}, SAny has num d ms m →
    SAny has num d (ms ++ ts) (es.foldl (fun m e => Map.set m e.1 e.2) m)
  | _, _, .nil, ms, m, h => by rw [List.append_nil]; exact h
  | (k, t) :: ts, (k', v) :: es, .cons h1 h2, ms, m, h => by
    obtain ⟨rfl, _, hd⟩ := h1
    obtain ⟨a, ha, hi⟩ := hd d
    have := SAny.entries h2 (h.set (k := k) ha hi)
    rw [List.foldl_cons]
    simpa using this

omit [DecidableEq F] in
theorem ok_set {m : AMap F} (h : (Any.map m).Ok) {k : Bytes} {v : Any F} (hv : v.Ok) : (Any.map (Map.set m k v)).Ok := by
  cases h with
  | map h1 h2 =>
    refine .map (Map.nodup_set h1 _ _) fun e he => ?_
    have hg := Map.get_of_mem (Map.nodup_set h1 k v) (k := e.1) (v := e.2) he
    rw [Map.get_set] at hg
    split at hg
    · cases hg; exact hv
    · exact h2 _ (Map.mem_of_get hg)

omit [DecidableEq F] in
theorem ok_nil : (Any.map ([] : AMap F)).Ok := .map List.nodup_nil (by simp)

omit [DecidableEq F] in
theorem ok_entries {has : Warning → Bool} {num : Bytes → Option F} :
    ∀ {ts : List (Bytes × Tree)} {es : List (Bytes × Any F)}, List.Forall₂ (Entry has num) ts es →
    ∀ {m : AMap F}, (Any.map m).Ok → (Any.map (es.foldl (fun m e => Map.set m e.1 e.2) m)).Ok
  | _, _, .nil, _, h => h
  | _ :: _, _ :: _, .cons h1 h2, _, h => ok_entries h2 (ok_set h h1.2.1)

omit [DecidableEq F] in
mutual
theorem ok_stripAny (has : Warning → Bool) : ∀ (d : Nat) (a a' : Any F), a.Ok → stripAny has d a = some a' → a'.Ok
  | d, .map g, a', h, hs => by
    rw [stripAny_map] at hs
    split at hs
    · cases hs
    · cases hs
      exact ok_stripMap has (d + 1) g h
  | d, .nil, a', h, hs => by simp only [stripAny, Option.some.injEq] at hs; subst hs; exact h
  | d, .bool b, a', h, hs => by simp only [stripAny, Option.some.injEq] at hs; subst hs; exact h
  | d, .num x, a', h, hs => by simp only [stripAny, Option.some.injEq] at hs; subst hs; exact h
  | d, .str s, a', h, hs => by simp only [stripAny, Option.some.injEq] at hs; subst hs; exact h
  | d, .list l, a', h, hs => by simp only [stripAny, Option.some.injEq] at hs; subst hs; exact h
theorem ok_stripMap (has : Warning → Bool) : ∀ (d : Nat) (m : List (Bytes × Any F)), (Any.map m).Ok →
    (Any.map (stripMap has d m)).Ok
  | d, [], h => by simpa only [stripMap] using h
  | d, (k, a) :: m, h => by
    have hk := (strip_keys has d ((k, a) :: m))
    cases h with
    | map h1 h2 =>
      have hm : (Any.map m).Ok := .map (by
        simp only [Map.keys, List.map_cons, List.nodup_cons] at h1
        exact h1.2) fun e he => h2 e (by simp [he])
      have ih := ok_stripMap has d m hm
      refine .map (hk.nodup h1) fun e he => ?_
      cases ih with
      | map i1 i2 =>
        simp only [stripMap] at he
        split at he
        · rename_i a' ha
          rcases List.mem_cons.1 he with rfl | he
          · exact ok_stripAny has d a a' (h2 (k, a) (by simp)) ha
          · exact i2 e he
        · exact i2 e he
end

/-- How the float64 values of the tests are decoded. -/
structure NumsFit (N : Consts F) (num : Bytes → Option F) : Prop where
  ints : ∀ i : Int, -2 ^ 63 ≤ i → i < 2 ^ 64 → num (decInt i) = some (N.ofInt i)
  pi : num pi64.text = some (N.ofF64 pi64)
  e : num e64.text = some (N.ofF64 e64)

/-- No empty object inside. -/
inductive Filled : Tree → Prop
  | null : Filled .null
  | bool (b) : Filled (.bool b)
  | num (t) : Filled (.num t)
  | str (s) : Filled (.str s)
  | arr (es) : Filled (.arr es)
  | obj {ms} : ms ≠ [] → (∀ k t, (k, t) ∈ ms → Filled t) → Filled (.obj ms)

/-- What is known of a list of attributes of the tests. -/
structure Listed (C : Ctx F) (num : Bytes → Option F) (env : Env) (l : Bytes) (bs : List Attr)
    (ts : List (Bytes × Tree)) : Prop where
  members : listMembers env l .ideal bs = some ts
  ne : ts ≠ []
  keys : ts.map Prod.fst = bs.map Attr.key
  adds : ∃ es, List.Forall₂ (Entry C.has num) ts es ∧
    ∀ m : AMap F, subMap C false m bs = es.foldl (fun m e => Map.set m e.1 e.2) m
  free : ∀ k ∈ ts.map Prod.fst, k ∉ [b!"time", b!"level", b!"msg", b!"message"]
  clean : ListClean env l bs
  plain : ListPlain env bs
  depth : listDepth bs ≤ 1
  fits : fitsMembers 3 ts = true
  filled : ∀ k t, (k, t) ∈ ts → Filled t

omit [DecidableEq F] in
theorem entry_leaf {has : Warning → Bool} {num : Bytes → Option F} {k : Bytes} {t : Tree} {a : Any F}
    (h : IsAny num t a) (hm : ∀ m, a ≠ .map m) : Entry has num (k, t) (k, a) := by
  refine ⟨rfl, isAny_ok h, fun d => ⟨a, ?_, h⟩⟩
  cases a <;> first | (simp only [stripAny]; done) | exact absurd rfl (hm _)

omit [DecidableEq F] in
theorem entry_map {has : Warning → Bool} {num : Bytes → Option F} {k : Bytes} {ts : List (Bytes × Tree)}
    {m : AMap F} (hne : ts ≠ []) (hok : (Any.map m).Ok) (h : ∀ d, SAny has num d ts m) : Entry has num (k, .obj ts) (k, .map m) := by
  refine ⟨rfl, hok, fun d => ⟨.map (stripMap has (d + 1) m), ?_, (h (d + 1)).isAny⟩⟩
  rw [stripAny_map, if_neg]
  intro hl
  have he : stripMap has (d + 1) m = [] := List.eq_nil_of_length_eq_zero (by omega)
  obtain ⟨e, he'⟩ := List.exists_mem_of_ne_nil ts hne
  have h1 := lastOf_isSome.2 (List.mem_map_of_mem (f := Prod.fst) he')
  have h2 := (isAny_obj (h (d + 1)).isAny).2.1 e.1
  rw [he, h1] at h2
  cases h2

omit [DecidableEq F] in
theorem sAny_nil (has : Warning → Bool) (num : Bytes → Option F) (d : Nat) : SAny has num d [] ([] : AMap F) :=
  ⟨List.nodup_nil, fun _ => .none⟩

omit [DecidableEq F] in
theorem entry_str {has : Warning → Bool} {num : Bytes → Option F} (k s : Bytes) :
    Entry has num (k, .str s) (k, (.str s : Any F)) := entry_leaf (.str s) fun _ h => by cases h

omit [DecidableEq F] in
theorem entry_bool {has : Warning → Bool} {num : Bytes → Option F} (k : Bytes) (b : Bool) :
    Entry has num (k, .bool b) (k, (.bool b : Any F)) := entry_leaf (.bool b) fun _ h => by cases h

omit [DecidableEq F] in
theorem entry_num {has : Warning → Bool} {num : Bytes → Option F} {k t : Bytes} {x : F} (h : num t = some x) :
    Entry has num (k, .num t) (k, (.num x : Any F)) := entry_leaf (.num h) fun _ h => by cases h

/-- The members of the group of the list C. -/
def groupTree : List (Bytes × Tree) :=
  [(b!"name", .str b!"Goober Snoofus"), (b!"skidoo", .num (decInt 23)), (b!"pi", .num pi64.text)]

/-- Its attributes. -/
def groupAttrs : List Attr :=
  [.mk b!"name" (.string b!"Goober Snoofus"), .mk b!"skidoo" (.int64 23), .mk b!"pi" (.float64 pi64)]

omit [DecidableEq F] in
theorem entry_group {C : Ctx F} {num : Bytes → Option F} (D : NumsFit C.N num) :
    Entry C.has num (b!"groupC", .obj groupTree) (b!"groupC", .map (subMap C false [] groupAttrs)) := by
  have he := List.Forall₂.cons (entry_str (has := C.has) (num := num) b!"name" b!"Goober Snoofus")
    (.cons (entry_num (k := b!"skidoo") (D.ints 23 (by decide) (by decide)))
      (.cons (entry_num (k := b!"pi") D.pi) .nil))
  exact entry_map (by decide) (ok_entries he ok_nil) fun d => SAny.entries he (sAny_nil C.has num d)

omit [DecidableEq F] in
/-- The attribute lists of the tests. -/
theorem listed {C : Ctx F} (Q : Quiet C) {num : Bytes → Option F} (D : NumsFit C.N num) {env : Env} (l : Bytes)
    (hs : Utf8.Valid C.stamp ∧ NoRepl C.stamp = true) (he : EnvClean env) {c : UInt8}
    {bs : List Attr} (h : attributes C.stamp c = some bs) : ∃ ts, Listed C num env l bs ts := by
  unfold attributes at h
  split at h
  · cases h
    refine ⟨[(b!"string", .str b!"value"), (b!"int", .num (decInt (-13))), (b!"uint", .num (decNat 23))], ?_⟩
    exact
      { members := rfl
        ne := by simp
        keys := rfl
        adds := ⟨_, .cons (entry_str _ _) (.cons (entry_num (D.ints (-13) (by decide) (by decide)))
          (.cons (entry_num (D.ints 23 (by decide) (by decide))) .nil)), fun m => rfl⟩
        free := by decide
        clean := by
          simp only [ListClean, AttrClean, ValClean, LeafClean]
          exact ⟨⟨by decide, by decide⟩, ⟨by decide, trivial⟩, ⟨by decide, trivial⟩, trivial⟩
        plain := by simp only [ListPlain, AttrPlain, ValPlain, and_self]
        depth := by simp [listDepth, attrDepth, valDepth]
        fits := by decide +kernel
        filled := by
          intro k t h
          simp only [List.mem_cons, Prod.mk.injEq, List.not_mem_nil, or_false] at h
          rcases h with ⟨_, rfl⟩ | ⟨_, rfl⟩ | ⟨_, rfl⟩ <;> constructor }
  split at h
  · cases h
    refine ⟨[(b!"aTime", .str C.stamp), (b!"bool", .bool true), (b!"duration", .num (decInt 3802000000000))], ?_⟩
    exact
      { members := rfl
        ne := by simp
        keys := rfl
        adds := ⟨_, .cons (entry_str _ _) (.cons (entry_bool _ _)
          (.cons (entry_num (D.ints 3802000000000 (by decide) (by decide))) .nil)), fun m => by
            simp only [subMap, attrValue, Q.groupDuration, Q.durationString, Q.durationSeconds, Q.durationMillis]
            rfl⟩
        free := by
          show ∀ k ∈ [b!"aTime", b!"bool", b!"duration"], _
          decide
        clean := by
          simp only [ListClean, AttrClean, ValClean, LeafClean]
          exact ⟨⟨by decide, hs.1⟩, ⟨by decide, trivial⟩, ⟨by decide, trivial⟩, trivial⟩
        plain := by simp only [ListPlain, AttrPlain, ValPlain, and_self]
        depth := by simp [listDepth, attrDepth, valDepth]
        fits := by
          have k : ∀ s, s ∈ [b!"aTime", b!"bool", b!"duration"] → NoRepl s = true := by decide +kernel
          simp only [fitsMembers, fits, k b!"aTime" (by simp), k b!"bool" (by simp), k b!"duration" (by simp), hs.2,
            Bool.and_self]
        filled := by
          intro k t h
          simp only [List.mem_cons, Prod.mk.injEq, List.not_mem_nil, or_false] at h
          rcases h with ⟨_, rfl⟩ | ⟨_, rfl⟩ | ⟨_, rfl⟩ <;> constructor }
  split at h
  · cases h
    refine ⟨[(b!"groupC", .obj groupTree), (b!"bool", .bool false), (b!"valuer", .str b!"Big Tree"),
      (b!"duration", .num (decInt 1429000000000))], ?_⟩
    exact
      { members := rfl
        ne := by simp
        keys := rfl
        adds := ⟨_, .cons (entry_group D) (.cons (entry_bool _ _) (.cons (entry_str _ _)
          (.cons (entry_num (D.ints 1429000000000 (by decide) (by decide))) .nil))), fun m => by
            simp only [subMap, attrValue, Q.groupDuration, Q.durationString, Q.durationSeconds, Q.durationMillis,
              Q.resolver, Attr.grp, hidden]
            rfl⟩
        free := by decide
        clean := by
          simp only [ListClean, AttrClean, ValClean, LeafClean, Attr.grp, hidden, Value.resolve, Value.anyOf, AnyClean]
          exact ⟨⟨by decide, ⟨by decide, by decide⟩, ⟨by decide, trivial⟩, ⟨by decide, trivial⟩, trivial⟩,
            ⟨by decide, trivial⟩, ⟨by decide, ⟨_, he _ (by decide)⟩, by decide⟩, ⟨by decide, trivial⟩, trivial⟩
        plain := by
          simp only [ListPlain, AttrPlain, ValPlain, Attr.grp, hidden, Value.resolve, PlainKind, and_self, true_and]
          exact ⟨by decide, trivial⟩
        depth := by decide
        fits := by decide +kernel
        filled := by
          intro k t h
          simp only [List.mem_cons, Prod.mk.injEq, List.not_mem_nil, or_false] at h
          rcases h with ⟨_, rfl⟩ | ⟨_, rfl⟩ | ⟨_, rfl⟩ | ⟨_, rfl⟩
          · refine .obj (by decide) fun k t h => ?_
            simp only [groupTree, List.mem_cons, Prod.mk.injEq, List.not_mem_nil, or_false] at h
            rcases h with ⟨_, rfl⟩ | ⟨_, rfl⟩ | ⟨_, rfl⟩ <;> constructor
          all_goals constructor }
  split at h
  · cases h
    refine ⟨[(b!"E", .num e64.text), (b!"uint64", .num (decNat 79))], ?_⟩
    exact
      { members := rfl
        ne := by simp
        keys := rfl
        adds := ⟨_, .cons (entry_num D.e) (.cons (entry_num (D.ints 79 (by decide) (by decide))) .nil), fun m => rfl⟩
        free := by decide
        clean := by
          simp only [ListClean, AttrClean, ValClean, LeafClean]
          exact ⟨⟨by decide, trivial⟩, ⟨by decide, trivial⟩, trivial⟩
        plain := by simp only [ListPlain, AttrPlain, ValPlain, and_self]
        depth := by simp [listDepth, attrDepth, valDepth]
        fits := by decide +kernel
        filled := by
          intro k t h
          simp only [List.mem_cons, Prod.mk.injEq, List.not_mem_nil, or_false] at h
          rcases h with ⟨_, rfl⟩ | ⟨_, rfl⟩ <;> constructor }
  · cases h

/-! ### The whole map -/

/-- Level and message, at the top only. -/
def finB (top : Bool) (m : AMap F) : AMap F := if top then fin m else m

/-- Their members. -/
def heads (top : Bool) : List (Bytes × Tree) :=
  if top then [(b!"level", .str b!"INFO"), (b!"msg", .str message)] else []

/-- The map left by operations, from the outside to the inside. -/
def grow (C : Ctx F) (top : Bool) (cur : AMap F) : List Op → List Attr → AMap F
  | [], as => subMap C false (finB top cur) as
  | .attrs bs :: ops, as => grow C top (subMap C false cur bs) ops as
  | .group n :: ops, as =>
    Map.set (finB top (Map.set cur n (.map []))) n (.map (grow C false [] ops as))

/-- The names of groups begin with "group". -/
def Named (n : Bytes) : Prop := ∃ c : UInt8, n = b!"group" ++ Utf8.encode c.toNat

theorem Named.free {n : Bytes} (h : Named n) : n ∉ [b!"time", b!"level", b!"msg", b!"message"] ∧ n ≠ [] := by
  obtain ⟨c, rfl⟩ := h
  refine forall_byte (P := fun c => (b!"group" ++ Utf8.encode c.toNat) ∉ [b!"time", b!"level", b!"msg", b!"message"] ∧
    (b!"group" ++ Utf8.encode c.toNat) ≠ []) ?_ c
  decide +kernel

theorem Named.noRepl {n : Bytes} (h : Named n) : NoRepl n = true := by
  obtain ⟨c, rfl⟩ := h
  refine forall_byte (P := fun c => NoRepl (b!"group" ++ Utf8.encode c.toNat) = true) ?_ c
  decide +kernel

/-- The operations of a program. -/
def OpsOk (ok : List Attr → Prop) : List Op → Prop
  | [] => True
  | .attrs bs :: ops => ok bs ∧ OpsOk ok ops
  | .group n :: ops => Named n ∧ OpsOk ok ops

theorem prog_ops {lists : UInt8 → Option (List Attr)} {ok : List Attr → Prop} (hl : ∀ c bs, lists c = some bs → ok bs)
    {s : Bytes} {ops : List Op} {as : List Attr} (h : Prog lists s ops as) :
    OpsOk ok ops ∧ (as = [] ∨ ok as) := by
  induction h with
  | message _ => exact ⟨trivial, .inl rfl⟩
  | messageAttrs hc _ => exact ⟨trivial, .inr (hl _ _ hc)⟩
  | space _ ih => exact ih
  | without _ ih => exact ih
  | attrs hc _ ih => exact ⟨⟨hl _ _ hc, ih.1⟩, ih.2⟩
  | group _ ih => exact ⟨⟨⟨_, rfl⟩, ih.1⟩, ih.2⟩
  | groupAttrs hx _ ih => exact ⟨⟨⟨_, rfl⟩, hl _ _ hx, ih.1⟩, ih.2⟩

omit [DecidableEq F] in
theorem close_cons (f : Frame F) (fs : List (Frame F)) (m : AMap F) :
    close (f :: fs) m = close fs (if f.inside then Map.set f.map f.name (.map m) else f.map) := rfl

omit [DecidableEq F] in
theorem finO_one {cur : AMap F} {n : Bytes} (h : Named n) :
    finO [frame cur n] = [⟨fin (Map.set cur n (.map [])), n, true⟩] := by
  have hn := h.free.1
  simp only [List.mem_cons, List.not_mem_nil, or_false, not_or] at hn
  have h1 : (b!"level" != n) = true := by simpa using Ne.symm hn.2.1
  have h2 : (b!"msg" != n) = true := by simpa using Ne.symm hn.2.2.1
  simp only [finO, frame, setLast, fin, h1, h2, Bool.and_self]

omit [DecidableEq F] in
theorem finO_cons (f g : Frame F) (fs : List (Frame F)) : finO (f :: g :: fs) = f :: finO (g :: fs) := by
  simp only [finO, setLast]
  cases fs <;> simp [setLast]

omit [DecidableEq F] in
theorem endMap_grow (C : Ctx F) {ok : List Attr → Prop} (as : List Attr) : ∀ {ops : List Op}, OpsOk ok ops →
    (∀ cur, endMap C [] cur ops as = grow C true cur ops as) ∧
    ∀ f fs cur, endMap C (f :: fs) cur ops as = close (finO (f :: fs)) (grow C false cur ops as)
  | [], _ => ⟨fun _ => rfl, fun _ _ _ => rfl⟩
  | .attrs bs :: ops, h => by
    obtain ⟨h1, h2⟩ := endMap_grow C as h.2
    exact ⟨fun cur => h1 _, fun f fs cur => h2 f fs _⟩
  | .group n :: ops, h => by
    obtain ⟨_, h2⟩ := endMap_grow C as h.2
    refine ⟨fun cur => ?_, fun f fs cur => ?_⟩
    · rw [endMap, h2, finO_one h.1, close_cons]
      rfl
    · rw [endMap, h2, finO_cons, close_cons]
      rfl

omit [DecidableEq F] in
theorem fin_get (m : AMap F) (k : Bytes) : Map.get (fin m) k =
    if k = b!"msg" then some (.str message) else if k = b!"level" then some (.str b!"INFO") else Map.get m k := by
  unfold fin; rw [Map.get_set, Map.get_set]

omit [DecidableEq F] in
theorem finB_nodup {top : Bool} {m : AMap F} (h : (Map.keys m).Nodup) : (Map.keys (finB top m)).Nodup := by
  unfold finB
  split
  · exact Map.nodup_set (Map.nodup_set h _ _) _ _
  · exact h

omit [DecidableEq F] in
theorem SAny.fin {has : Warning → Bool} {num : Bytes → Option F} {d : Nat} {ms : List (Bytes × Tree)} {m : AMap F}
    (h : SAny has num d ms m) (top : Bool) : SAny has num d (ms ++ heads top) (finB top m) := by
  unfold finB heads
  split
  · have := (h.set (k := b!"level") (v := .str b!"INFO") (t := .str b!"INFO") (by simp only [stripAny]) (.str _)).set
      (k := b!"msg") (v := .str message) (t := .str message) (by simp only [stripAny]) (.str _)
    rw [List.append_assoc] at this
    exact this
  · rw [List.append_nil]; exact h

theorem heads_keys {top : Bool} {k : Bytes} (h : k ∈ (heads top).map Prod.fst) : k = b!"level" ∨ k = b!"msg" := by
  unfold heads at h
  split at h
  · simpa using h
  · cases h

theorem lastOf_none {V : Type} {ms : List (Bytes × V)} {k : Bytes} (h : k ∉ ms.map Prod.fst) : lastOf ms k = none := by
  cases hl : lastOf ms k with
  | none => rfl
  | some t => exact absurd (lastOf_isSome.1 (by rw [hl]; rfl)) h

/-- Members of other names can change places. -/
theorem lastOf_swap {V : Type} {a b : List (Bytes × V)} (h : ∀ k, k ∈ a.map Prod.fst → k ∉ b.map Prod.fst) (k : Bytes) :
    lastOf (a ++ b) k = lastOf (b ++ a) k := by
  rw [lastOf_append, lastOf_append]
  by_cases hk : k ∈ a.map Prod.fst
  · rw [lastOf_none (h k hk)]; simp
  · rw [lastOf_none hk]; simp

/-- What is known of the members a program logs. -/
structure Placed (env : Env) (l : Bytes) (ops : List Op) (as : List Attr) (pl : List (Bytes × Tree)) : Prop where
  place : placeIdeal env l .ideal ops as = some pl
  empty : pl = [] ↔ groupsOnly ops = true ∧ as = []
  free : ∀ k ∈ pl.map Prod.fst, k ∉ [b!"time", b!"level", b!"msg", b!"message"]
  filled : ∀ k t, (k, t) ∈ pl → Filled t
  fits : fitsMembers (3 + ops.length) pl = true

theorem swap_heads {ms ts pl : List (Bytes × Tree)} {top : Bool}
    (h : ∀ k ∈ ts.map Prod.fst, k ∉ [b!"time", b!"level", b!"msg", b!"message"]) (k : Bytes) :
    lastOf (ms ++ heads top ++ (ts ++ pl)) k = lastOf (ms ++ ts ++ heads top ++ pl) k := by
  have := lastOf_swap (a := ts) (b := heads top) (fun k hk hb => by
    have := h k hk
    rcases heads_keys hb with rfl | rfl <;> simp at this) k
  rw [lastOf_append, lastOf_append] at this
  simp only [lastOf_append]
  simp only [Option.or_assoc]
  congr 1
  rw [← Option.or_assoc, ← this, Option.or_assoc]

omit [DecidableEq F] in
theorem stripAny_empty {has : Warning → Bool} {num : Bytes → Option F} {d : Nat} {m : AMap F}
    (h : SAny has num (d + 1) [] m) : stripAny has d (.map m) = none := by
  rw [stripAny_map, if_pos]
  have h2 := (isAny_obj h.isAny).2.1
  cases hm : stripMap has (d + 1) m with
  | nil => simp
  | cons e r =>
    have := h2 e.1
    rw [hm, Map.get_cons, if_pos rfl, lastOf_nil] at this
    cases this

omit [DecidableEq F] in
theorem stripAny_full {has : Warning → Bool} {num : Bytes → Option F} {d : Nat} {m : AMap F}
    {ts : List (Bytes × Tree)} (hne : ts ≠ []) (h : SAny has num (d + 1) ts m) :
    stripAny has d (.map m) = some (.map (stripMap has (d + 1) m)) := by
  rw [stripAny_map, if_neg]
  intro hl
  have he : stripMap has (d + 1) m = [] := List.eq_nil_of_length_eq_zero (by omega)
  obtain ⟨e, he'⟩ := List.exists_mem_of_ne_nil ts hne
  have h1 := lastOf_isSome.2 (List.mem_map_of_mem (f := Prod.fst) he')
  have h2 := (isAny_obj h.isAny).2.1 e.1
  rw [he, h1] at h2
  cases h2

omit [DecidableEq F] in
theorem group_get (top : Bool) (cur : AMap F) {n : Bytes} (v w : Any F) (k : Bytes) :
    Map.get (Map.set (finB top (Map.set cur n v)) n w) k = Map.get (Map.set (finB top cur) n w) k := by
  rw [Map.get_set, Map.get_set]
  by_cases hk : k = n
  · rw [if_pos hk, if_pos hk]
  · rw [if_neg hk, if_neg hk]
    unfold finB
    split
    · rw [fin_get, fin_get, Map.get_set, if_neg hk]
    · rw [Map.get_set, if_neg hk]

omit [DecidableEq F] in
/-- Programs without a hidden attribute leave the map of what they log. -/
theorem grow_ok {C : Ctx F} {num : Bytes → Option F} {env : Env} {l : Bytes} {as : List Attr}
    (ha : as = [] ∨ ∃ ts, Listed C num env l as ts) : ∀ {ops : List Op},
    OpsOk (fun bs => ∃ ts, Listed C num env l bs ts) ops → ∃ pl, Placed env l ops as pl ∧
      ∀ top d ms cur seen, SAny C.has num d ms cur → (∀ k, k ∈ ms.map Prod.fst ↔ k ∈ seen) →
        (∀ k ∈ seen, k ∉ [b!"time", b!"level", b!"msg", b!"message"]) → ¬ Hides seen ops as →
        SAny C.has num d (ms ++ heads top ++ pl) (grow C top cur ops as)
  | [], _ => by
    rcases ha with rfl | ⟨ts, T⟩
    · refine ⟨[], ⟨rfl, by simp [groupsOnly], by simp, by simp, rfl⟩, ?_⟩
      intro top d ms cur seen h _ _ _
      rw [List.append_nil, grow, subMap]
      exact h.fin top
    · refine ⟨ts, ⟨T.members, ?_, T.free, T.filled, T.fits⟩, ?_⟩
      · refine ⟨fun h => absurd h T.ne, fun h => ?_⟩
        have := T.keys
        rw [h.2] at this
        simpa using this
      · intro top d ms cur seen h _ _ _
        obtain ⟨es, h1, h2⟩ := T.adds
        rw [grow, h2]
        exact (h.fin top).entries h1
  | .attrs bs :: ops, ho => by
    obtain ⟨⟨ts, T⟩, ho⟩ := ho
    obtain ⟨pl, P, ih⟩ := grow_ok ha ho
    refine ⟨ts ++ pl, ⟨?_, ?_, ?_, ?_, ?_⟩, ?_⟩
    · simp only [placeIdeal, T.members, P.place]
    · constructor
      · intro h; exact absurd (List.append_eq_nil_iff.1 h).1 T.ne
      · intro h; simp [groupsOnly] at h
    · intro k hk
      rw [List.map_append, List.mem_append] at hk
      exact hk.elim (T.free k) (P.free k)
    · intro k t h
      rw [List.mem_append] at h
      exact h.elim (T.filled k t) (P.filled k t)
    · exact fitsMembers_append (fitsMembers_mono _ (by omega) T.fits)
        (fitsMembers_mono _ (by simp only [List.length_cons]; omega) P.fits)
    · intro top d ms cur seen h hs hf hh
      obtain ⟨es, h1, h2⟩ := T.adds
      have h3 : SAny C.has num d (ms ++ ts) (subMap C false cur bs) := by rw [h2]; exact h.entries h1
      have := ih top d (ms ++ ts) _ (seen ++ bs.map Attr.key) h3 (fun k => by
        rw [List.map_append, List.mem_append, List.mem_append, hs, T.keys]) (fun k hk => by
        rw [List.mem_append] at hk
        exact hk.elim (hf k) (fun h => T.free k (by rw [T.keys]; exact h))) hh
      exact this.congr this.1 (fun k => swap_heads T.free k) fun _ => rfl
  | .group n :: ops, ho => by
    obtain ⟨hn, ho⟩ := ho
    obtain ⟨pl, P, ih⟩ := grow_ok ha ho
    have hne := hn.free
    have hg : grouped n pl = if pl.isEmpty then [] else [(n, .obj pl)] := by
      unfold grouped
      have : n.isEmpty = false := by simpa using hne.2
      rw [this]; rfl
    have hgo : groupsOnly (.group n :: ops) = groupsOnly ops := by simp [groupsOnly, hne.2]
    refine ⟨grouped n pl, ⟨?_, ?_, ?_, ?_, ?_⟩, ?_⟩
    · simp only [placeIdeal, P.place, Option.map_some]
    · rw [hgo, ← P.empty, hg]
      cases pl <;> simp
    · intro k hk
      rw [hg] at hk
      split at hk
      · cases hk
      · rw [List.map_singleton, List.mem_singleton] at hk
        subst hk
        exact hne.1
    · intro k t h
      rw [hg] at h
      split at h
      · cases h
      · rename_i he
        rw [List.mem_singleton, Prod.mk.injEq] at h
        rw [h.2]
        exact .obj (by simpa using he) P.filled
    · rw [hg]
      split
      · rfl
      · simp only [fitsMembers, hn.noRepl, List.length_cons, Bool.true_and, Bool.and_true]
        show fits ((3 + ops.length) + 1) (.obj pl) = true
        simp only [fits]
        exact P.fits
    · intro top d ms cur seen h hs hf hh
      simp only [Hides, not_or] at hh
      have inner := ih false (d + 1) [] [] [] (sAny_nil _ _ _) (by simp) (by simp) hh.2
      have e1 : ([] : List (Bytes × Tree)) ++ heads false ++ pl = pl := rfl
      rw [e1] at inner
      have nd : (Map.keys (grow C top cur (.group n :: ops) as)).Nodup :=
        Map.nodup_set (finB_nodup (Map.nodup_set h.1 _ _)) _ _
      rw [hg]
      by_cases hp : pl = []
      · have hp' := P.empty.1 hp
        subst hp
        rw [List.isEmpty_nil, if_pos rfl, List.append_nil]
        refine SAny.congr (m := Map.set (finB top cur) n (.map (grow C false [] ops as)))
          ((h.fin top).unset (stripAny_empty inner) ?_) nd (fun _ => rfl) (fun k => group_get top cur _ _ k)
        intro hk
        rw [List.map_append, List.mem_append] at hk
        rcases hk with hk | hk
        · exact hh.1 ⟨(hs n).1 hk, hp'.1, hp'.2⟩
        · have := hne.1
          rcases heads_keys hk with rfl | rfl <;> simp at this
      · have : pl.isEmpty = false := by simpa using hp
        rw [this]
        exact ((h.fin top).set (k := n) (stripAny_full hp inner) inner.isAny).congr nd (fun _ => rfl)
          (fun k => group_get top cur _ _ k)

omit [DecidableEq F] in
theorem grow_okAny {C : Ctx F} {num : Bytes → Option F} {env : Env} {l : Bytes} {as : List Attr}
    (ha : as = [] ∨ ∃ ts, Listed C num env l as ts) : ∀ {ops : List Op},
    OpsOk (fun bs => ∃ ts, Listed C num env l bs ts) ops → ∀ (top : Bool) (cur : AMap F), (Any.map cur).Ok →
      (Any.map (grow C top cur ops as)).Ok := by
  have hf : ∀ (top : Bool) (cur : AMap F), (Any.map cur).Ok → (Any.map (finB top cur)).Ok := by
    intro top cur h
    unfold finB
    split
    · exact ok_set (ok_set h (.str _)) (.str _)
    · exact h
  intro ops
  induction ops with
  | nil =>
    intro _ top cur h
    rw [grow]
    rcases ha with rfl | ⟨ts, T⟩
    · rw [subMap]; exact hf top cur h
    · obtain ⟨es, h1, h2⟩ := T.adds
      rw [h2]; exact ok_entries h1 (hf top cur h)
  | cons op ops ih =>
    intro ho top cur h
    cases op with
    | attrs bs =>
      obtain ⟨⟨ts, T⟩, ho⟩ := ho
      obtain ⟨es, h1, h2⟩ := T.adds
      rw [grow, h2]
      exact ih ho top _ (ok_entries h1 h)
    | group n =>
      rw [grow]
      exact ok_set (hf top _ (ok_set h ok_nil)) (ih ho.2 false [] ok_nil)

theorem hides_groupsOnly : ∀ {ops : List Op} {as : List Attr}, Hides [] ops as → groupsOnly ops = false
  | [], _, h => h.elim
  | .attrs _ :: _, _, _ => rfl
  | .group n :: ops, as, h => by
    rcases h with h | h
    · exact absurd h.1 (by simp)
    · have := hides_groupsOnly h
      simp only [groupsOnly, List.all_cons] at this ⊢
      rw [this, Bool.and_false]

omit [DecidableEq F] in
/-- Programs with a hidden attribute leave another map. -/
theorem grow_hides {C : Ctx F} {num : Bytes → Option F} {env : Env} {l : Bytes} {as : List Attr} :
    ∀ {ops : List Op}, OpsOk (fun bs => ∃ ts, Listed C num env l bs ts) ops →
      ∀ {pl}, Placed env l ops as pl →
      (as = [] ∨ ∃ ts, Listed C num env l as ts) →
      ∀ top d ms cur seen, SAny C.has num d ms cur → (∀ k, k ∈ ms.map Prod.fst ↔ k ∈ seen) →
        Hides seen ops as →
        ¬ IsAny num (.obj (ms ++ heads top ++ pl)) (.map (stripMap C.has d (grow C top cur ops as)))
  | [], _, _, _, _, _, _, _, _, _, _, _, hh => hh.elim
  | .attrs bs :: ops, ho, pl, P, ha, top, d, ms, cur, seen, h, hs, hh => by
    obtain ⟨⟨ts, T⟩, ho⟩ := ho
    obtain ⟨pl', P', _⟩ := grow_ok ha ho
    have e : pl = ts ++ pl' := by
      have := P.place
      simp only [placeIdeal, T.members, P'.place, Option.some.injEq] at this
      exact this.symm
    subst e
    obtain ⟨es, h1, h2⟩ := T.adds
    have h3 : SAny C.has num d (ms ++ ts) (subMap C false cur bs) := by rw [h2]; exact h.entries h1
    have := grow_hides ho P' ha top d (ms ++ ts) _ (seen ++ bs.map Attr.key) h3 (fun k => by
      rw [List.map_append, List.mem_append, List.mem_append, hs, T.keys]) hh
    intro hi
    apply this
    obtain ⟨i1, i2, i3⟩ := isAny_obj hi
    exact .obj i1 (fun k => by rw [← swap_heads T.free]; exact i2 k)
      (fun k t a ht => i3 k t a (by rw [swap_heads T.free]; exact ht))
  | .group n :: ops, ho, pl, P, ha, top, d, ms, cur, seen, h, hs, hh => by
    obtain ⟨hn, ho⟩ := ho
    obtain ⟨pl', P', _⟩ := grow_ok ha ho
    have hne := hn.free
    have hg : grouped n pl' = if pl'.isEmpty then [] else [(n, .obj pl')] := by
      unfold grouped
      have : n.isEmpty = false := by simpa using hne.2
      rw [this]; rfl
    have e : pl = grouped n pl' := by
      have := P.place
      simp only [placeIdeal, P'.place, Option.map_some, Option.some.injEq] at this
      exact this.symm
    subst e
    have nd : (Map.keys (grow C top cur (.group n :: ops) as)).Nodup :=
      Map.nodup_set (finB_nodup (Map.nodup_set h.1 _ _)) _ _
    intro hi
    obtain ⟨i1, i2, i3⟩ := isAny_obj hi
    have gn : Map.get (stripMap C.has d (grow C top cur (.group n :: ops) as)) n =
        stripAny C.has d (.map (grow C false [] ops as)) := by
      rw [strip_get C.has d nd, grow, Map.get_set, if_pos rfl, Option.bind_some]
    rcases hh with ⟨h1, h2, h3⟩ | hh
    · have hp := P'.empty.2 ⟨h2, h3⟩
      subst hp
      have nh : ¬ Hides [] ops as := fun hh => by rw [hides_groupsOnly hh] at h2; cases h2
      obtain ⟨pl2, P2, ih⟩ := grow_ok ha ho
      have e2 : pl2 = [] := P2.empty.2 ⟨h2, h3⟩
      subst e2
      have inner := ih false (d + 1) [] [] [] (sAny_nil _ _ _) (by simp) (by simp) nh
      have := i2 n
      rw [gn, stripAny_empty inner] at this
      have hl := lastOf_isSome.2 (show n ∈ (ms ++ heads top ++ grouped n []).map Prod.fst by
        rw [List.map_append, List.map_append, List.mem_append, List.mem_append]
        exact .inl (.inl ((hs n).2 h1)))
      rw [hl] at this
      cases this
    · have hp : pl' ≠ [] := fun hp => by
        have := (P'.empty.1 hp).1
        rw [hides_groupsOnly hh] at this; cases this
      have he : pl'.isEmpty = false := by simpa using hp
      rw [hg, he] at i2 i3
      have hl : lastOf (ms ++ heads top ++ (if false = true then [] else [(n, Tree.obj pl')])) n = some (.obj pl') := by
        rw [if_neg (by decide), lastOf_append, lastOf_one, if_pos rfl]; rfl
      have := i2 n
      rw [hl, gn] at this
      obtain ⟨a, ha'⟩ := Option.isSome_iff_exists.1 this
      have hi2 := i3 n _ a hl (by rw [gn]; exact ha')
      rw [stripAny_map] at ha'
      split at ha'
      · cases ha'
      · cases ha'
        exact grow_hides ho P' ha false (d + 1) [] [] [] (sAny_nil _ _ _) (by simp) hh hi2

omit [DecidableEq F] in
/-- The members a program logs have a decoded form. -/
theorem placed_any {C : Ctx F} {num : Bytes → Option F} {env : Env} {l : Bytes} {as : List Attr}
    (ha : as = [] ∨ ∃ ts, Listed C num env l as ts) : ∀ {ops : List Op},
    OpsOk (fun bs => ∃ ts, Listed C num env l bs ts) ops → ∀ {pl}, placeIdeal env l .ideal ops as = some pl →
    ∀ {d : Nat} {ms : List (Bytes × Tree)} {cur : AMap F}, SAny C.has num d ms cur → ∃ m, SAny C.has num d (ms ++ pl) m
  | [], _, pl, hp, d, ms, cur, h => by
    rcases ha with rfl | ⟨ts, T⟩
    · cases hp; exact ⟨cur, by rw [List.append_nil]; exact h⟩
    · rw [placeIdeal, T.members] at hp
      cases hp
      obtain ⟨es, h1, _⟩ := T.adds
      exact ⟨_, h.entries h1⟩
  | .attrs bs :: ops, ho, pl, hp, d, ms, cur, h => by
    obtain ⟨⟨ts, T⟩, ho⟩ := ho
    obtain ⟨pl', P', _⟩ := grow_ok ha ho
    rw [placeIdeal, T.members, P'.place] at hp
    cases hp
    obtain ⟨es, h1, _⟩ := T.adds
    rw [← List.append_assoc]
    exact placed_any ha ho P'.place (h.entries h1)
  | .group n :: ops, ho, pl, hp, d, ms, cur, h => by
    obtain ⟨hn, ho⟩ := ho
    obtain ⟨pl', P', _⟩ := grow_ok ha ho
    rw [placeIdeal, P'.place, Option.map_some] at hp
    cases hp
    obtain ⟨m, hm⟩ := placed_any ha ho P'.place (sAny_nil C.has num (d + 1))
    rw [List.nil_append] at hm
    have : n.isEmpty = false := by simpa using hn.free.2
    unfold grouped
    rw [this]
    by_cases he : pl' = []
    · subst he
      exact ⟨cur, by simpa using h⟩
    · have he' : pl'.isEmpty = false := by simpa using he
      rw [he']
      exact ⟨_, h.set (k := n) (stripAny_full he hm) hm.isAny⟩

end Verif.Verify
