import Verif.Bench.Builder
import Verif.Bench.Lines
import Verif.Flash.Content
import Verif.Props.FlashOptions

/-
What flash writes in the benchmarks, and what is decoded from it.
-/

namespace Verif.Bench
open Go Warning Slog Flash LogTree Json

/-! ### Plain texts -/

/-- Only ASCII. -/
def Ascii (s : Bytes) : Prop := ∀ b ∈ s, b < 0x80

instance (s : Bytes) : Decidable (Ascii s) := inferInstanceAs (Decidable (∀ b ∈ s, b < 0x80))

theorem Ascii.valid {s : Bytes} (h : Ascii s) : Utf8.Valid s := Utf8.valid_of_ascii h

theorem Ascii.noRepl {s : Bytes} (h : Ascii s) : NoRepl s = true := by
  induction s with
  | nil => rfl
  | cons a s ih =>
    have ha : a < 0x80 := h a List.mem_cons_self
    unfold NoRepl
    split
    · rename_i e
      cases e
      exact absurd ha (by decide)
    · rename_i e; cases e; exact ih fun b hb => h b (List.mem_cons_of_mem _ hb)
    · rename_i e; cases e

theorem ascii_dec (n : Nat) : Ascii (decNat n) := by
  intro b hb
  have h1 := List.all_eq_true.1 (decNat_digits n) b hb
  simp only [isDigit, Bool.and_eq_true, decide_eq_true_eq] at h1
  have h2 := h1.2
  revert h2
  rw [UInt8.le_iff_toNat_le, UInt8.lt_iff_toNat_lt]
  intro h2
  have e1 : (0x39 : UInt8).toNat = 57 := rfl
  have e2 : (0x80 : UInt8).toNat = 128 := rfl
  omega

theorem ascii_kid {stem : Bytes} (h : Ascii stem) (i : Nat) : Ascii (stem ++ 0x2D :: decNat i) := by
  intro b hb
  rcases List.mem_append.1 hb with hb | hb
  · exact h b hb
  · rcases List.mem_cons.1 hb with rfl | hb
    · decide
    · exact ascii_dec i b hb

/-! ### Trees that fit -/

mutual
theorem fits_mono : ∀ (t : Tree) {n n' : Nat}, n ≤ n' → fits n t = true → fits n' t = true
  | .null, n, n', _, _ => by cases n' <;> rfl
  | .bool _, n, n', _, _ => by cases n' <;> rfl
  | .num _, n, n', _, _ => by cases n' <;> rfl
  | .str s, n, n', _, h => by
    have e : ∀ k, fits k (.str s) = NoRepl s := fun k => by cases k <;> rfl
    rw [e] at h ⊢; exact h
  | .arr es, n, n', hl, h => by
    cases n with
    | zero => cases h
    | succ n =>
      obtain ⟨k, rfl⟩ : ∃ k, n' = k + 1 := ⟨n' - 1, by omega⟩
      exact fitsAll_mono es (by omega) h
  | .obj ms, n, n', hl, h => by
    cases n with
    | zero => cases h
    | succ n =>
      obtain ⟨k, rfl⟩ : ∃ k, n' = k + 1 := ⟨n' - 1, by omega⟩
      exact fitsMembers_mono ms (by omega) h
theorem fitsAll_mono : ∀ (es : List Tree) {n n' : Nat}, n ≤ n' → fitsAll n es = true → fitsAll n' es = true
  | [], _, _, _, _ => rfl
  | t :: ts, n, n', hl, h => by
    simp only [fitsAll, Bool.and_eq_true] at h ⊢
    exact ⟨fits_mono t hl h.1, fitsAll_mono ts hl h.2⟩
theorem fitsMembers_mono : ∀ (ms : List (Bytes × Tree)) {n n' : Nat}, n ≤ n' → fitsMembers n ms = true →
    fitsMembers n' ms = true
  | [], _, _, _, _ => rfl
  | (k, t) :: ms, n, n', hl, h => by
    simp only [fitsMembers, Bool.and_eq_true] at h ⊢
    exact ⟨⟨h.1.1, fits_mono t hl h.1.2⟩, fitsMembers_mono ms hl h.2⟩
end

theorem fitsMembers_append {n : Nat} {a b : List (Bytes × Tree)} (ha : fitsMembers n a = true)
    (hb : fitsMembers n b = true) : fitsMembers n (a ++ b) = true := by
  induction a with
  | nil => exact hb
  | cons e a ih =>
    simp only [List.cons_append, fitsMembers, Bool.and_eq_true] at ha ⊢
    exact ⟨ha.1, ih ha.2⟩

theorem fitsMembers_of {n : Nat} {ms : List (Bytes × Tree)}
    (h : ∀ e ∈ ms, NoRepl e.1 = true ∧ fits n e.2 = true) : fitsMembers n ms = true := by
  induction ms with
  | nil => rfl
  | cons e ms ih =>
    simp only [fitsMembers, Bool.and_eq_true]
    exact ⟨h e List.mem_cons_self, ih fun e he => h e (List.mem_cons_of_mem _ he)⟩

theorem numerals_append (a b : List (Bytes × Tree)) :
    numeralsMembers (a ++ b) = numeralsMembers a ++ numeralsMembers b := by
  induction a with
  | nil => rfl
  | cons e a ih => simp only [List.cons_append, numeralsMembers, ih, List.append_assoc]

theorem mem_numerals {ms : List (Bytes × Tree)} {s : Bytes} (h : s ∈ numeralsMembers ms) :
    ∃ e ∈ ms, s ∈ numerals e.2 := by
  induction ms with
  | nil => cases h
  | cons e ms ih =>
    simp only [numeralsMembers, List.mem_append] at h
    rcases h with h | h
    · exact ⟨e, List.mem_cons_self, h⟩
    · obtain ⟨e', he, h⟩ := ih h
      exact ⟨e', List.mem_cons_of_mem _ he, h⟩

/-! ### Big groups -/

theorem bigTree_fits (limit : Nat) : ∀ (left : Nat) (stem : Bytes) (t : Tree), Ascii stem →
    BigTree limit left stem t → fits (left + 1) t = true := by
  intro left
  have head : ∀ (n c d l : Nat), fitsMembers n [(b!"count", .num (decInt c)), (b!"depth", .num (decNat d)),
      (b!"limit", .num (decNat l))] = true := by
    intro n c d l
    cases n <;> rfl
  induction left with
  | zero =>
    intro stem t _ hb
    obtain ⟨c, d, _, _, rfl⟩ := hb
    exact head ..
  | succ left ih =>
    intro stem t hs hb
    obtain ⟨c, d, kids, _, _, rfl, _, hk⟩ := hb
    refine fitsMembers_append (head ..) (fitsMembers_of fun e he => ?_)
    obtain ⟨⟨i, hi⟩, ht⟩ := hk e he
    have ha : Ascii e.1 := by rw [hi]; exact ascii_kid hs i
    exact ⟨ha.noRepl, ih _ _ ha ht⟩

theorem bigTree_numerals (limit : Nat) : ∀ (left : Nat) (stem : Bytes) (t : Tree), BigTree limit left stem t →
    ∀ s ∈ numerals t, ∃ n : Nat, s = decNat n ∧ n ≤ max 5 limit := by
  intro left
  have head : ∀ (c d : Nat), c ≤ 5 → d ≤ limit → ∀ s ∈ numeralsMembers [(b!"count", .num (decInt c)),
      (b!"depth", .num (decNat d)), (b!"limit", .num (decNat limit))], ∃ n : Nat, s = decNat n ∧ n ≤ max 5 limit := by
    intro c d hc hd s hs
    simp only [numeralsMembers, numerals, List.append_nil, List.cons_append, List.nil_append, List.mem_cons,
      List.not_mem_nil, or_false] at hs
    rcases hs with rfl | rfl | rfl
    · exact ⟨c, rfl, by omega⟩
    · exact ⟨d, rfl, by omega⟩
    · exact ⟨limit, rfl, by omega⟩
  induction left with
  | zero =>
    intro stem t hb s hs
    obtain ⟨c, d, hc, hd, rfl⟩ := hb
    exact head c d hc hd s (by simpa only [numerals] using hs)
  | succ left ih =>
    intro stem t hb s hs
    obtain ⟨c, d, kids, hc, hd, rfl, _, hk⟩ := hb
    simp only [numerals] at hs
    rw [numerals_append, List.mem_append] at hs
    rcases hs with hs | hs
    · exact head c d hc hd s hs
    · obtain ⟨e, he, h⟩ := mem_numerals hs
      exact ih _ _ (hk e he).2 s h

theorem builder_clean (env : Env) (layout : Bytes) (rand : Nat → Fin 5) (limit : Nat) :
    ∀ (left : Nat) (stem : Bytes) (drawn : Nat), Ascii stem →
      AttrClean env layout (bigGroupBuilder rand limit left stem drawn).1 ∧
      attrDepth (bigGroupBuilder rand limit left stem drawn).1 ≤ left := by
  intro left
  induction left with
  | zero =>
    intro stem drawn _
    refine ⟨?_, Nat.le_refl _⟩
    simp only [bigGroupBuilder, emptyAttr, AttrClean, ValClean, LeafClean, AnyClean]
    exact ⟨by decide, trivial⟩
  | succ left ih =>
    intro stem drawn hs
    have kids : ∀ (todo i drawn : Nat),
        ListClean env layout (childLoop (bigGroupBuilder rand limit left) stem todo i drawn).1 ∧
        listDepth (childLoop (bigGroupBuilder rand limit left) stem todo i drawn).1 ≤ left := by
      intro todo
      induction todo with
      | zero => intro i drawn; exact ⟨trivial, Nat.zero_le _⟩
      | succ todo ihk =>
        intro i drawn
        obtain ⟨h1, h2⟩ := ih (stem ++ 0x2D :: decNat i) drawn (ascii_kid hs i)
        obtain ⟨h3, h4⟩ := ihk (i + 1) (bigGroupBuilder rand limit left (stem ++ 0x2D :: decNat i) drawn).2
        rw [childLoop]
        dsimp only
        split
        · exact ⟨h3, h4⟩
        · simp only [ListClean, listDepth]
          exact ⟨⟨h1, h3⟩, by omega⟩
    obtain ⟨h1, h2⟩ := kids ((rand drawn).val + 1) 0 (drawn + 1)
    rw [builder_shape]
    simp only [Attr.grp, AttrClean, ValClean, attrDepth, valDepth, List.cons_append, List.nil_append, ListClean,
      LeafClean, listDepth]
    exact ⟨⟨hs.valid, ⟨by decide, trivial⟩, ⟨by decide, trivial⟩, ⟨by decide, trivial⟩, h1⟩, by omega⟩

/-! ### The trees of the attributes -/

/-- What `json.Marshal` shows of a `Thing`. -/
def thingTree : Tree := .obj [(b!"Name", .str b!"Skidoo"), (b!"Num", .num (decInt 23))]

theorem ws_nil : Ws [] := fun _ h => by cases h

theorem thing_denotes : Denotes b!"{\"Name\":\"Skidoo\",\"Num\":23}" thingTree := by
  refine ⟨.obj [(b!"Name", .str b!"Skidoo"), (b!"Num", .num b!"23")], ?_, ?_⟩
  · have h1 : Members b!"\"Num\":23" [(b!"Num", .num b!"23")] :=
      .one (w1 := []) (k := b!"Num") (w2 := []) (w3 := []) (b := b!"23") (w4 := []) ws_nil (by decide +kernel)
        ws_nil ws_nil (.num (by decide +kernel)) ws_nil
    exact .obj (b := b!"\"Name\":\"Skidoo\",\"Num\":23") (.cons (w1 := []) (k := b!"Name") (w2 := []) (w3 := [])
      (b := b!"\"Skidoo\"") (w4 := []) (r := b!"\"Num\":23") ws_nil (by decide +kernel) ws_nil ws_nil
      (.str (b := b!"Skidoo") (by decide +kernel)) ws_nil h1)
  · have h1 : decodeBody b!"Name" = some b!"Name" := by decide +kernel
    have h2 : decodeBody b!"Skidoo" = some b!"Skidoo" := by decide +kernel
    have h3 : decodeBody b!"Num" = some b!"Num" := by decide +kernel
    have h4 : decInt 23 = b!"23" := by decide +kernel
    simp only [Cst.decode, decodeMembers, h1, h2, h3, Option.map_some, thingTree, h4]

/-- Members of the attributes all benchmarks have in common. -/
def commonTree : List (Bytes × Tree) :=
  [(b!"group", .obj [(b!"alpha", .str b!"omega"), (b!"never", .str b!"mind")]), (b!"Any", thingTree),
   (b!"Error", .str b!"I'm sorry, Dave. I'm afraid I can't do that.")]

/-- Members of `allAttributes`. -/
def allTree (env : Env) (now : Nat) : List (Bytes × Tree) :=
  [(b!"Bool", .bool true), (b!"Int", .num (decInt 17)), (b!"Int64", .num (decInt (-654))),
   (b!"Uint64", .num (decNat 29399459393)), (b!"Float64", .num piValue.text), (b!"String", .str valString),
   (b!"Time", .str (env.formatTime defaultTimeFormat now)), (b!"Duration", .num (decInt 3600000000000))] ++ commonTree

/-- Members of `withAttributes`. -/
def withTree (env : Env) (now : Nat) : List (Bytes × Tree) :=
  [(b!"withBool", .bool true), (b!"withInt", .num (decInt 17)), (b!"withInt64", .num (decInt (-654))),
   (b!"withUint64", .num (decNat 29399459393)), (b!"withFloat64", .num piValue.text),
   (b!"withString", .str valString), (b!"withTime", .str (env.formatTime defaultTimeFormat now)),
   (b!"withDuration", .num (decInt 3600000000000))] ++ commonTree

theorem common_members (env : Env) (layout : Bytes) :
    listMembers env layout .viaAny [valGroup, .mk b!"Any" valAny, .mk b!"Error" valError] = some commonTree := by
  have h1 : listMembers env layout .viaAny [valGroup] = some (commonTree.take 1) := rfl
  have h2 : listMembers env layout .viaAny [.mk b!"Any" valAny] = some [(b!"Any", thingTree)] := by
    simp only [listMembers, attrMembers, valAny, valMembers, leafTree, anyTree,
      parseTree_of_denotes thing_denotes]
    rfl
  have h3 : listMembers env layout .viaAny [.mk b!"Error" valError] = some (commonTree.drop 2) := rfl
  exact list_append env layout .viaAny h1 (list_append env layout .viaAny h2 h3)

theorem all_members (env : Env) (now : Nat) :
    listMembers env defaultTimeFormat .viaAny (allAttributes now) = some (allTree env now) :=
  list_append env defaultTimeFormat .viaAny (as := (allAttributes now).take 8) (x := (allTree env now).take 8) rfl
    (common_members env defaultTimeFormat)

theorem with_members (env : Env) (now : Nat) :
    listMembers env defaultTimeFormat .viaAny (withAttributes now) = some (withTree env now) :=
  list_append env defaultTimeFormat .viaAny (as := (withAttributes now).take 8) (x := (withTree env now).take 8) rfl
    (common_members env defaultTimeFormat)

/-- What the times must look like: they need no escapes. -/
def TimeOk (env : Env) (t : Nat) : Prop :=
  decodeBody (env.formatTime defaultTimeFormat t) = some (env.formatTime defaultTimeFormat t) ∧
    NoRepl (env.formatTime defaultTimeFormat t) = true

theorem clean_append {env : Env} {layout : Bytes} {as bs : List Attr} (h1 : ListClean env layout as)
    (h2 : ListClean env layout bs) : ListClean env layout (as ++ bs) := by
  induction as with
  | nil => exact h2
  | cons a as ih =>
    simp only [List.cons_append, ListClean] at h1 ⊢
    exact ⟨h1.1, ih h1.2⟩

theorem common_clean (env : Env) (layout : Bytes) :
    ListClean env layout [valGroup, .mk b!"Any" valAny, .mk b!"Error" valError] := by
  simp only [ListClean, AttrClean, valGroup, Attr.grp, ValClean, LeafClean, valAny, valError, AnyClean]
  exact ⟨⟨by decide, ⟨by decide, by decide⟩, ⟨by decide, by decide⟩, trivial⟩,
    ⟨by decide, thingTree, thing_denotes, by decide⟩, ⟨by decide, by decide⟩, trivial⟩

theorem all_clean {env : Env} {now : Nat} (h : TimeOk env now) :
    ListClean env defaultTimeFormat (allAttributes now) := by
  refine clean_append (as := (allAttributes now).take 8) ?_ (common_clean env defaultTimeFormat)
  simp only [allAttributes, List.take, ListClean, AttrClean, ValClean, LeafClean]
  exact ⟨⟨by decide, trivial⟩, ⟨by decide, trivial⟩, ⟨by decide, trivial⟩, ⟨by decide, trivial⟩,
    ⟨by decide, trivial⟩, ⟨by decide, by decide⟩, ⟨by decide, h.1⟩, ⟨by decide, trivial⟩, trivial⟩

theorem with_clean {env : Env} {now : Nat} (h : TimeOk env now) :
    ListClean env defaultTimeFormat (withAttributes now) := by
  refine clean_append (as := (withAttributes now).take 8) ?_ (common_clean env defaultTimeFormat)
  simp only [withAttributes, List.take, ListClean, AttrClean, ValClean, LeafClean]
  exact ⟨⟨by decide, trivial⟩, ⟨by decide, trivial⟩, ⟨by decide, trivial⟩, ⟨by decide, trivial⟩,
    ⟨by decide, trivial⟩, ⟨by decide, by decide⟩, ⟨by decide, h.1⟩, ⟨by decide, trivial⟩, trivial⟩

theorem common_fits : fitsMembers 3 commonTree = true := by decide +kernel

theorem all_fits {env : Env} {now : Nat} (h : TimeOk env now) : fitsMembers 3 (allTree env now) = true := by
  refine fitsMembers_append ?_ common_fits
  have h := h.2
  have k : ∀ s, s ∈ [b!"Bool", b!"Int", b!"Int64", b!"Uint64", b!"Float64", b!"String", b!"Time", b!"Duration", valString] →
      NoRepl s = true := by decide +kernel
  simp only [fitsMembers, fits, h, Bool.and_true, Bool.and_eq_true]
  refine ⟨?_, ?_, ?_, ?_, ?_, ⟨?_, ?_⟩, ?_, ?_⟩ <;> exact k _ (by simp)

theorem with_fits {env : Env} {now : Nat} (h : TimeOk env now) : fitsMembers 3 (withTree env now) = true := by
  refine fitsMembers_append ?_ common_fits
  have h := h.2
  have k : ∀ s, s ∈ [b!"withBool", b!"withInt", b!"withInt64", b!"withUint64", b!"withFloat64", b!"withString",
      b!"withTime", b!"withDuration", valString] → NoRepl s = true := by decide +kernel
  simp only [fitsMembers, fits, h, Bool.and_true, Bool.and_eq_true]
  refine ⟨?_, ?_, ?_, ?_, ?_, ⟨?_, ?_⟩, ?_, ?_⟩ <;> exact k _ (by simp)

/-! ### Decoding -/

variable {F : Type}

/-- How texts are decoded: `json.Unmarshal` is faithful, integers of 64 bits and the text of
π are decoded to the float64 values the expected maps have, and "INFO" is in upper
case. -/
structure Decoding (L : Lib F) (N : Nums F) (num : Bytes → Option F) : Prop where
  faithful : Faithful num L.unmarshal
  ints : ∀ i : Int, -2 ^ 63 ≤ i → i < 2 ^ 64 → num (decInt i) = some (N.ofInt i)
  pi : num piValue.text = some N.pi
  upper : L.upper b!"INFO" = b!"INFO"

theorem Decoding.nat {L : Lib F} {N : Nums F} {num : Bytes → Option F} (D : Decoding L N num) {n : Nat}
    (h : n < 2 ^ 64) : num (decNat n) = some (N.ofInt n) :=
  D.ints n (by omega) (by omega)

/-- All numerals are decoded. -/
def NumsOk (num : Bytes → Option F) (ms : List (Bytes × Tree)) : Prop :=
  ∀ s ∈ numeralsMembers ms, (num s).isSome = true

theorem nums_append {num : Bytes → Option F} {a b : List (Bytes × Tree)} (ha : NumsOk num a) (hb : NumsOk num b) :
    NumsOk num (a ++ b) := by
  intro s hs
  rw [numerals_append, List.mem_append] at hs
  exact hs.elim (ha s) (hb s)

theorem common_nums {L : Lib F} {N : Nums F} {num : Bytes → Option F} (D : Decoding L N num) :
    NumsOk num commonTree := by
  intro s hs
  have : s = decInt 23 := by
    simpa [commonTree, numeralsMembers, numerals, thingTree] using hs
  rw [this, D.ints 23 (by decide) (by decide)]; rfl

theorem all_nums {L : Lib F} {N : Nums F} {num : Bytes → Option F} (D : Decoding L N num) (env : Env) (now : Nat) :
    NumsOk num (allTree env now) := by
  refine nums_append ?_ (common_nums D)
  intro s hs
  have : s = decInt 17 ∨ s = decInt (-654) ∨ s = decNat 29399459393 ∨ s = piValue.text ∨
      s = decInt 3600000000000 := by
    simpa [numeralsMembers, numerals] using hs
  rcases this with rfl | rfl | rfl | rfl | rfl
  · rw [D.ints _ (by decide) (by decide)]; rfl
  · rw [D.ints _ (by decide) (by decide)]; rfl
  · rw [D.nat (by decide)]; rfl
  · rw [D.pi]; rfl
  · rw [D.ints _ (by decide) (by decide)]; rfl

theorem with_nums {L : Lib F} {N : Nums F} {num : Bytes → Option F} (D : Decoding L N num) (env : Env) (now : Nat) :
    NumsOk num (withTree env now) := by
  refine nums_append ?_ (common_nums D)
  intro s hs
  have : s = decInt 17 ∨ s = decInt (-654) ∨ s = decNat 29399459393 ∨ s = piValue.text ∨
      s = decInt 3600000000000 := by
    simpa [numeralsMembers, numerals] using hs
  rcases this with rfl | rfl | rfl | rfl | rfl
  · rw [D.ints _ (by decide) (by decide)]; rfl
  · rw [D.ints _ (by decide) (by decide)]; rfl
  · rw [D.nat (by decide)]; rfl
  · rw [D.pi]; rfl
  · rw [D.ints _ (by decide) (by decide)]; rfl

theorem decoded {L : Lib F} {N : Nums F} {num : Bytes → Option F} (D : Decoding L N num) {b w : Bytes}
    {ms : List (Bytes × Tree)} (hd : Denotes b (.obj ms)) (hw : Ws w) (hf : fitsMembers 9999 ms = true)
    (hn : NumsOk num ms) : ∃ x, L.unmarshal (b ++ w) = (some x, none) ∧ IsAny num (.obj ms) (.map x) := by
  obtain ⟨a, ha⟩ := Option.isSome_iff_exists.1 (toAny_some num (.obj ms) (by simp only [numerals]; exact hn))
  exact D.faithful b ms w a hd hw hf (toAny_isAny num _ a ha)

/-- What `getLogMap` gives for a line. -/
theorem logMap_of {L : Lib F} {N : Nums F} {num : Bytes → Option F} (D : Decoding L N num) {b w : Bytes}
    {ms : List (Bytes × Tree)} (hd : Denotes b (.obj ms)) (hw : Ws w) (hf : fitsMembers 9999 ms = true)
    (hn : NumsOk num ms) (hl : lastOf ms b!"level" = some (.str b!"INFO"))
    (hm : lastOf ms b!"message" = none) (m : Manager) :
    ∃ x, getLogMap L (b ++ w) none m = (some x, m) ∧
      IsAny num (.obj (ms.filter fun e => e.1 ≠ b!"time")) (.map x) := by
  obtain ⟨x, hx, hi⟩ := decoded D hd hw hf hn
  refine ⟨fixLogMap L x, ?_, isAny_fix L hi hl D.upper hm⟩
  unfold getLogMap
  rw [hx]
  rfl

/-! ### What flash writes -/

/-- The extras of a handler made without any. -/
def plainExtras : Extras := (fixExtras none).view

/-- The surroundings of the run: `json.Marshal` handles strings, the stack is deep enough,
times and source positions are printable, and the calls have a caller. -/
structure World (env : Env) (clock : Nat → Nat × Nat) (now : Nat) : Prop where
  clean : EnvClean env
  stack : 6 < env.stack
  now : TimeOk env now
  time : ∀ i, TimeOk env (clock i).1
  caller : ∀ i, (clock i).2 ≠ 0
  function : ∀ i, Utf8.Valid (env.frame (clock i).2).1 ∧ NoRepl (env.frame (clock i).2).1 = true
  file : ∀ i, Utf8.Valid (env.frame (clock i).2).2.1 ∧ NoRepl (env.frame (clock i).2).2.1 = true
  line : ∀ i, (env.frame (clock i).2).2.2 < 2 ^ 63

/-- The record of a call. -/
def recordOf (clock : Nat → Nat × Nat) (i : Nat) (msg : Bytes) (attrs : List Attr) : Record :=
  ⟨some (clock i).1, levelInfo, msg, (clock i).2, attrs⟩

theorem flash_writes {env : Env} {clock : Nat → Nat × Nat} {now : Nat} (W : World env clock now)
    (bm : Benchmark) (hops : OpsClean env defaultTimeFormat bm.ops) (hd : opsDepth bm.ops < env.stack) :
    ∃ h, flashHandler env bm = some h ∧ ∀ i msg attrs, Utf8.Valid msg → ListClean env defaultTimeFormat attrs →
      listDepth attrs < env.stack → ∃ b pl, logCall h ⟨levelInfo, msg, attrs⟩ (clock i).1 (clock i).2 = b ++ [0x0A] ∧
        place env defaultTimeFormat .viaAny bm.ops attrs = some pl ∧
        LineText b (.obj (builtins env plainExtras bm.addSource (recordOf clock i msg attrs) ++ pl)) := by
  have rc : ∀ i msg attrs, Utf8.Valid msg → ListClean env defaultTimeFormat attrs →
      RecordClean env plainExtras (recordOf clock i msg attrs) := by
    intro i msg attrs hm ha
    exact
      { timeKey := by decide
        levelKey := by decide
        messageKey := by decide
        sourceKey := by decide
        time := fun t ht => by cases ht; exact (W.time i).1
        level := show Utf8.Valid (plainExtras.levelNames levelInfo) by decide
        message := hm
        function := (W.function i).1
        file := (W.file i).1
        attrs := ha }
  have go : ∀ i msg attrs, Utf8.Valid msg → ListClean env defaultTimeFormat attrs → listDepth attrs < env.stack →
      ∃ h pl b, flashHandler env bm = some h ∧ place env defaultTimeFormat .viaAny bm.ops attrs = some pl ∧
        h.handle none (recordOf clock i msg attrs) = .line (b ++ [0x0A]) ∧
        LineText b (.obj (builtins env plainExtras bm.addSource (recordOf clock i msg attrs) ++ pl)) := by
    intro i msg attrs hm ha hda
    exact handle_clean (x := plainExtras)
      (o := (fixOptions (some ⟨bm.addSource, some fun _ => levelInfo, none⟩)).view) rfl W.clean hops
      (rc i msg attrs hm ha) (by show max _ (listDepth attrs) < _; omega)
  obtain ⟨h, _, _, hh, _⟩ := go 0 [] [] .nil trivial (by have := W.stack; simp only [listDepth]; omega)
  refine ⟨h, hh, fun i msg attrs hm ha hda => ?_⟩
  obtain ⟨h', pl, b, hh', h1, h2, h3⟩ := go i msg attrs hm ha hda
  rw [hh] at hh'
  cases hh'
  refine ⟨b, pl, ?_, h1, h3⟩
  have en : h.enabled (clock i).1 levelInfo = true :=
    ((Props.C13_flash_enabled env _ none bm.ops h hh (clock i).1 levelInfo).1 _ (fun _ => levelInfo) rfl rfl).2
      (Int.le_refl _)
  unfold logCall
  dsimp only
  rw [if_pos en]
  have : h.handle none ⟨some (clock i).1, levelInfo, msg, (clock i).2, attrs⟩ = .line (b ++ [0x0A]) := h2
  rw [this]

end Verif.Bench
