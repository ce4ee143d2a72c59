import Verif.Props.BenchChecks
import Verif.Bench.FlashRun
import Verif.Bench.Logging

/-
The benchmark suite finds nothing wrong with flash: C70; the data of the benchmark Logging:
C71.
-/

namespace Verif.Props.BenchFlash
open Go Bench Warning Slog LogTree Json Flash

variable {F : Type} [DecidableEq F]

/-- The manager was not told to expect the warnings the finder looks for
(bench/slog_madkins_flash_test.go:11-21 tells it nothing). -/
def Unwarned (L : Lib F) (m : Manager) : Prop :=
  m.hasWarning L.useWarnings mismatch = false ∧ m.hasWarning L.useWarnings stringAny = false

instance (L : Lib F) (m : Manager) : Decidable (Unwarned L m) := inferInstanceAs (Decidable (_ ∧ _))

/-! ### Checks that find nothing -/

theorem finder_ok {L : Lib F} {num : Bytes → Option F} {e x : AMap F} {ms : List (Bytes × Tree)} {m : Manager}
    (hm : Unwarned L m) (hc : Covers num (.map e) (.obj ms)) (hx : IsAny num (.obj ms) (.map x))
    (name captured : Bytes) : finder L name e captured (some x) m = (some x, m, none) := by
  have hs : finderStrings L name captured [] [] m = ([], m) := by
    unfold finderStrings
    rw [hm.2]
    rfl
  have hr : finderReport L name captured [] m = (m, none) := by
    unfold finderReport
    rw [hm.1]
    rfl
  unfold finder
  split
  · rfl
  · simp only [getLogMap, Option.getD_some, deep_clean L hc hx, hs, hr]

omit [DecidableEq F] in
theorem runAll_ok {captured : Bytes} {x : AMap F} {m : Manager} : ∀ {fns : List (Check F)},
    (∀ f ∈ fns, f captured (some x) m = (some x, m, none)) → runAll captured fns (some x) m = (some x, m, [])
  | [], _ => rfl
  | f :: fns, h => by
    rw [runAll, h f List.mem_cons_self]
    dsimp only
    rw [runAll_ok fun f hf => h f (List.mem_cons_of_mem _ hf)]
    rfl

omit [DecidableEq F] in
theorem verify_ok {L : Lib F} {captured : Bytes} {x : AMap F} {m : Manager} {fns : List (Check F)}
    (hg : getLogMap L captured none m = (some x, m))
    (h : ∀ f ∈ fns, f captured (some x) m = (some x, m, none)) :
    (verify L fns).run captured m = some (m, none) := by
  unfold Check.run verify
  rw [hg]
  dsimp only
  rw [runAll_ok h]
  rfl

/-! ### What is expected -/

/-- Each expected entry is there. -/
def Expect (num : Bytes → Option F) (ms : List (Bytes × Tree)) (e : AMap F) : Prop :=
  ∀ p ∈ e, p.1 ≠ b!"time" ∧ ∃ t, lastOf ms p.1 = some t ∧ Covers num p.2 t

omit [DecidableEq F] in
theorem Expect.covers {num : Bytes → Option F} {ms : List (Bytes × Tree)} {e : AMap F} (h : Expect num ms e) :
    Covers num (.map e) (.obj (ms.filter fun p => p.1 ≠ b!"time")) := by
  refine .map (fun k v hk => ?_) fun k v t hk ht => ?_
  · obtain ⟨h1, t, h2, _⟩ := h _ hk
    rw [lastOf_filter, if_neg h1, h2]; rfl
  · obtain ⟨h1, t', h2, h3⟩ := h _ hk
    rw [lastOf_filter, if_neg h1, h2] at ht
    cases ht
    exact h3

omit [DecidableEq F] in
theorem Expect.plain {num : Bytes → Option F} {ms : List (Bytes × Tree)} {e : AMap F} (h : Expect num ms e) :
    Covers num (.map e) (.obj ms) := by
  refine .map (fun k v hk => ?_) fun k v t hk ht => ?_
  · obtain ⟨_, t, h2, _⟩ := h _ hk
    rw [h2]; rfl
  · obtain ⟨_, t', h2, h3⟩ := h _ hk
    rw [h2] at ht
    cases ht
    exact h3

omit [DecidableEq F] in
theorem expect_nil (num : Bytes → Option F) (ms : List (Bytes × Tree)) : Expect num ms [] := fun _ h => by cases h

omit [DecidableEq F] in
theorem expect_cons {num : Bytes → Option F} {ms : List (Bytes × Tree)} {k : Bytes} {v : Any F} {e : AMap F} {t : Tree}
    (h1 : k ≠ b!"time") (h2 : lastOf ms k = some t) (h3 : Covers num v t) (h : Expect num ms e) :
    Expect num ms ((k, v) :: e) := by
  intro p hp
  rcases List.mem_cons.1 hp with rfl | hp
  · exact ⟨h1, t, h2, h3⟩
  · exact h p hp

/-- Members that come after others count first. -/
theorem lastOf_append (a b : List (Bytes × Tree)) (k : Bytes) :
    lastOf (a ++ b) k = (lastOf b k).or (lastOf a k) := by
  induction a with
  | nil => rw [List.nil_append, lastOf_nil, Option.or_none]
  | cons e a ih =>
    obtain ⟨k', t⟩ := e
    rw [List.cons_append, lastOf_cons, lastOf_cons, ih, Option.or_assoc]

omit [DecidableEq F] in
theorem Expect.after {num : Bytes → Option F} {a b : List (Bytes × Tree)} {e : AMap F} (h : Expect num b e) :
    Expect num (a ++ b) e := by
  intro p hp
  obtain ⟨h1, t, h2, h3⟩ := h p hp
  exact ⟨h1, t, by rw [lastOf_append, h2]; rfl, h3⟩

omit [DecidableEq F] in
theorem Expect.before {num : Bytes → Option F} {a b : List (Bytes × Tree)} {e : AMap F} (h : Expect num a e)
    (hb : ∀ p ∈ e, lastOf b p.1 = none) : Expect num (a ++ b) e := by
  intro p hp
  obtain ⟨h1, t, h2, h3⟩ := h p hp
  exact ⟨h1, t, by rw [lastOf_append, hb p hp, h2]; rfl, h3⟩

omit [DecidableEq F] in
theorem cover_group (num : Bytes → Option F) :
    Covers num expectedGroup (.obj [(b!"alpha", .str b!"omega"), (b!"never", .str b!"mind")]) :=
  Expect.plain (expect_cons (by decide) rfl (.str _) (expect_cons (by decide) rfl (.str _) (expect_nil _ _)))

omit [DecidableEq F] in
theorem cover_any {L : Lib F} {N : Nums F} {num : Bytes → Option F} (D : Decoding L N num) :
    Covers num (expectedAny N) thingTree :=
  Expect.plain (expect_cons (by decide) rfl (.str _)
    (expect_cons (by decide) rfl (.num (D.ints 23 (by decide) (by decide))) (expect_nil _ _)))

omit [DecidableEq F] in
theorem expect_all {L : Lib F} {N : Nums F} {num : Bytes → Option F} (D : Decoding L N num) (env : Env) (now : Nat) :
    Expect num (allTree env now) (allValuesMap N) :=
  expect_cons (by decide) rfl (.bool _)
    (expect_cons (by decide) rfl (.num (D.ints 17 (by decide) (by decide)))
    (expect_cons (by decide) rfl (.num (D.ints (-654) (by decide) (by decide)))
    (expect_cons (by decide) rfl (.num (D.nat (n := 29399459393) (by decide)))
    (expect_cons (by decide) rfl (.num D.pi)
    (expect_cons (by decide) rfl (.str _)
    (expect_cons (by decide) rfl (cover_group num)
    (expect_cons (by decide) rfl (cover_any D) (expect_nil _ _))))))))

omit [DecidableEq F] in
theorem expect_with {L : Lib F} {N : Nums F} {num : Bytes → Option F} (D : Decoding L N num) (env : Env) (now : Nat) :
    Expect num (withTree env now) (withValuesMap N) :=
  expect_cons (by decide) rfl (.bool _)
    (expect_cons (by decide) rfl (.num (D.ints 17 (by decide) (by decide)))
    (expect_cons (by decide) rfl (.num (D.ints (-654) (by decide) (by decide)))
    (expect_cons (by decide) rfl (.num (D.nat (n := 29399459393) (by decide)))
    (expect_cons (by decide) rfl (.num D.pi)
    (expect_cons (by decide) rfl (.str _)
    (expect_cons (by decide) rfl (cover_group num)
    (expect_cons (by decide) rfl (cover_any D) (expect_nil _ _))))))))

omit [DecidableEq F] in
/-- With the attributes of the handler and of the record, those of the handler are there,
too; the group and the object are in both. -/
theorem expect_both {L : Lib F} {N : Nums F} {num : Bytes → Option F} (D : Decoding L N num) (env : Env) (now : Nat) :
    Expect num (withTree env now ++ allTree env now) (withValuesMap N) :=
  expect_cons (by decide) rfl (.bool _)
    (expect_cons (by decide) rfl (.num (D.ints 17 (by decide) (by decide)))
    (expect_cons (by decide) rfl (.num (D.ints (-654) (by decide) (by decide)))
    (expect_cons (by decide) rfl (.num (D.nat (n := 29399459393) (by decide)))
    (expect_cons (by decide) rfl (.num D.pi)
    (expect_cons (by decide) rfl (.str _)
    (expect_cons (by decide) rfl (cover_group num)
    (expect_cons (by decide) rfl (cover_any D) (expect_nil _ _))))))))

/-! ### The first members -/

/-- The built-in members of a line. -/
def head (env : Env) (t pc : Nat) (addSource : Bool) (msg : Bytes) : List (Bytes × Tree) :=
  [(b!"time", .str (env.formatTime defaultTimeFormat t)), (b!"level", .str b!"INFO"), (b!"msg", .str msg)] ++
  (if addSource then
    [(b!"source", .obj [(b!"function", .str (env.frame pc).1), (b!"file", .str (env.frame pc).2.1),
      (b!"line", .num (decNat (env.frame pc).2.2))])]
  else [])

theorem builtins_head {env : Env} {clock : Nat → Nat × Nat} {now : Nat} (W : World env clock now) (i : Nat)
    (addSource : Bool) (msg : Bytes) (attrs : List Attr) :
    builtins env plainExtras addSource (recordOf clock i msg attrs) =
      head env (clock i).1 (clock i).2 addSource msg := by
  have h : ((clock i).2 != 0) = true := by simpa using W.caller i
  unfold builtins head recordOf
  dsimp only
  rw [h, Bool.and_true]
  rfl

/-- What holds of the other members of a line. -/
structure Rest (num : Bytes → Option F) (ms : List (Bytes × Tree)) : Prop where
  fits : fitsMembers 8 ms = true
  nums : NumsOk num ms
  level : lastOf ms b!"level" = none
  msg : lastOf ms b!"msg" = none
  message : lastOf ms b!"message" = none

theorem head_fits {env : Env} {clock : Nat → Nat × Nat} {now : Nat} (W : World env clock now) (i : Nat)
    (addSource : Bool) {msg : Bytes} (hm : NoRepl msg = true) :
    fitsMembers 8 (head env (clock i).1 (clock i).2 addSource msg) = true := by
  have k : ∀ s, s ∈ [b!"time", b!"level", b!"msg", b!"source", b!"function", b!"file", b!"line", b!"INFO"] →
      NoRepl s = true := by decide +kernel
  have k1 := k b!"time" (by simp)
  have k2 := k b!"level" (by simp)
  have k3 := k b!"msg" (by simp)
  have k4 := k b!"source" (by simp)
  have k5 := k b!"function" (by simp)
  have k6 := k b!"file" (by simp)
  have k7 := k b!"line" (by simp)
  have k8 := k b!"INFO" (by simp)
  refine fitsMembers_append ?_ ?_
  · simp only [fitsMembers, Go.fits, k1, k2, k3, k8, (W.time i).2, hm, Bool.and_self]
  · split
    · simp only [fitsMembers, Go.fits, k4, k5, k6, k7, (W.function i).2, (W.file i).2, Bool.and_self]
    · rfl

omit [DecidableEq F] in
theorem head_nums {env : Env} {clock : Nat → Nat × Nat} {now : Nat} (W : World env clock now) {L : Lib F}
    {N : Nums F} {num : Bytes → Option F} (D : Decoding L N num) (i : Nat) (addSource : Bool) (msg : Bytes) :
    NumsOk num (head env (clock i).1 (clock i).2 addSource msg) := by
  intro s hs
  have hl := W.line i
  have : s = decNat (env.frame (clock i).2).2.2 := by
    unfold head at hs
    cases addSource with
    | false => simp [numeralsMembers, numerals] at hs
    | true => simpa [numeralsMembers, numerals] using hs
  rw [this, D.nat (by omega)]; rfl

theorem head_level (env : Env) (t pc : Nat) (addSource : Bool) (msg : Bytes) :
    lastOf (head env t pc addSource msg) b!"level" = some (.str b!"INFO") := by
  cases addSource <;> rfl

theorem head_msg (env : Env) (t pc : Nat) (addSource : Bool) (msg : Bytes) :
    lastOf (head env t pc addSource msg) b!"msg" = some (.str msg) := by
  cases addSource <;> rfl

theorem head_message (env : Env) (t pc : Nat) (addSource : Bool) (msg : Bytes) :
    lastOf (head env t pc addSource msg) b!"message" = none := by
  cases addSource <;> rfl

omit [DecidableEq F] in
theorem expect_basic {env : Env} {t pc : Nat} {addSource : Bool} {num : Bytes → Option F} {pl : List (Bytes × Tree)}
    (R : Rest num pl) : Expect num (head env t pc addSource message ++ pl) expectedBasic := by
  refine Expect.before ?_ ?_
  · exact expect_cons (by decide) (head_level ..) (.str _)
      (expect_cons (by decide) (head_msg ..) (.str _) (expect_nil _ _))
  · intro p hp
    simp only [expectedBasic, List.mem_cons, List.not_mem_nil, or_false] at hp
    rcases hp with rfl | rfl
    · exact R.level
    · exact R.msg

omit [DecidableEq F] in
/-- The map a line is decoded to. -/
theorem line_map {env : Env} {clock : Nat → Nat × Nat} {now : Nat} (W : World env clock now) {L : Lib F}
    {N : Nums F} {num : Bytes → Option F} (D : Decoding L N num) {i : Nat} {addSource : Bool} {msg : Bytes}
    (hm : NoRepl msg = true) {pl : List (Bytes × Tree)} (R : Rest num pl) {b w : Bytes}
    (hb : Denotes b (.obj (head env (clock i).1 (clock i).2 addSource msg ++ pl))) (hw : Ws w) (m : Manager) :
    ∃ x, getLogMap L (b ++ w) none m = (some x, m) ∧
      IsAny num (.obj ((head env (clock i).1 (clock i).2 addSource msg ++ pl).filter fun e => e.1 ≠ b!"time"))
        (.map x) := by
  refine logMap_of D hb hw (fitsMembers_mono _ (n := 8) (by decide) (fitsMembers_append (head_fits W i _ hm) R.fits))
    (nums_append (head_nums W D i _ _) R.nums) ?_ ?_ m
  · rw [lastOf_append, R.level, head_level]; rfl
  · rw [lastOf_append, R.message, head_message]; rfl

theorem ws_newline : Ws [0x0A] := by
  intro b hb
  rw [List.mem_singleton.1 hb]
  decide

omit [DecidableEq F] in
/-- One call: what is left to show of a benchmark. -/
theorem single {env : Env} {clock : Nat → Nat × Nat} {now : Nat} (W : World env clock now) {L : Lib F}
    {N : Nums F} {num : Bytes → Option F} (D : Decoding L N num) {bm : Benchmark} {attrs : List Attr}
    (hc : bm.calls = info attrs) (hops : OpsClean env defaultTimeFormat bm.ops) (hd : opsDepth bm.ops < env.stack)
    (ha : ListClean env defaultTimeFormat attrs) (hda : listDepth attrs < env.stack) {pl : List (Bytes × Tree)}
    (hp : place env defaultTimeFormat .viaAny bm.ops attrs = some pl) (R : Rest num pl) {m : Manager}
    (h : ∀ captured x, getLogMap L captured none m = (some x, m) →
      IsAny num (.obj ((head env (clock 0).1 (clock 0).2 bm.addSource message ++ pl).filter fun e => e.1 ≠ b!"time"))
        (.map x) → bm.check captured m = some (m, none)) :
    verifyFlash env clock bm m = some (m, none) := by
  obtain ⟨hd, hh, hw⟩ := flash_writes W bm hops hd
  obtain ⟨b, pl', h1, h2, h3⟩ := hw 0 message attrs (by decide) ha hda
  rw [hp] at h2
  cases h2
  have hb := h3.1
  rw [builtins_head W] at hb
  obtain ⟨x, g, hx⟩ := line_map W D (by decide +kernel) R hb ws_newline m
  unfold verifyFlash
  rw [hh, Option.bind_some, hc]
  have : logCalls hd clock 0 (info attrs) = b ++ [0x0A] := by
    unfold info
    rw [logCalls, logCalls, h1, List.append_nil]
  rw [this]
  exact h _ _ g hx

/-! ### The benchmarks -/

omit [DecidableEq F] in
theorem rest_nil (num : Bytes → Option F) : Rest num [] where
  fits := rfl
  nums := fun s h => by cases h
  level := rfl
  msg := rfl
  message := rfl

omit [DecidableEq F] in
theorem rest_all {L : Lib F} {N : Nums F} {num : Bytes → Option F} (D : Decoding L N num) {env : Env} {now : Nat}
    (h : TimeOk env now) : Rest num (allTree env now) where
  fits := fitsMembers_mono _ (by decide) (all_fits h)
  nums := all_nums D env now
  level := rfl
  msg := rfl
  message := rfl

omit [DecidableEq F] in
theorem rest_with {L : Lib F} {N : Nums F} {num : Bytes → Option F} (D : Decoding L N num) {env : Env} {now : Nat}
    (h : TimeOk env now) : Rest num (withTree env now) where
  fits := fitsMembers_mono _ (by decide) (with_fits h)
  nums := with_nums D env now
  level := rfl
  msg := rfl
  message := rfl

omit [DecidableEq F] in
theorem rest_both {L : Lib F} {N : Nums F} {num : Bytes → Option F} (D : Decoding L N num) {env : Env} {now : Nat}
    (h : TimeOk env now) : Rest num (withTree env now ++ allTree env now) where
  fits := fitsMembers_append (rest_with D h).fits (rest_all D h).fits
  nums := nums_append (rest_with D h).nums (rest_all D h).nums
  level := rfl
  msg := rfl
  message := rfl

omit [DecidableEq F] in
theorem rest_one {num : Bytes → Option F} {k : Bytes} {t : Tree} (hf : fits 8 t = true)
    (hk : k = b!"group" ∨ k = b!"withGroup") (hn : ∀ s ∈ numerals t, (num s).isSome = true) : Rest num [(k, t)] where
  fits := by
    have : NoRepl k = true := by rcases hk with rfl | rfl <;> decide +kernel
    simp only [fitsMembers, hf, this, Bool.and_self]
  nums := by
    intro s hs
    simp only [numeralsMembers, List.append_nil] at hs
    exact hn s hs
  level := by rcases hk with rfl | rfl <;> rfl
  msg := by rcases hk with rfl | rfl <;> rfl
  message := by rcases hk with rfl | rfl <;> rfl

omit [DecidableEq F] in
theorem noDuplicates_ok (L : Lib F) (name captured : Bytes) (x : AMap F) (m : Manager) :
    noDuplicates L name captured (some x) m = (some x, m, none) := rfl

theorem matcher_ok {L : Lib F} {N : Nums F} {num : Bytes → Option F} (D : Decoding L N num) {env : Env} {t pc : Nat}
    {captured : Bytes} {x : AMap F} {m : Manager} (hg : getLogMap L captured none m = (some x, m))
    (hx : IsAny num (.obj ((head env t pc false message ++ []).filter fun e => e.1 ≠ b!"time")) (.map x)) (name : Bytes) :
    (matcher L name expectedBasic).run captured m = some (m, none) := by
  have e1 : (head env t pc false message ++ []).filter (fun e => e.1 ≠ b!"time") =
      [(b!"level", .str b!"INFO"), (b!"msg", .str message)] := rfl
  rw [e1] at hx
  have h2 := isAny_fix L hx (l := b!"INFO") rfl D.upper rfl
  have e2 : [(b!"level", Tree.str b!"INFO"), (b!"msg", .str message)].filter (fun e => e.1 ≠ b!"time") =
      [(b!"level", .str b!"INFO"), (b!"msg", .str message)] := rfl
  rw [e2] at h2
  have h3 : IsAny num (.obj [(b!"level", Tree.str b!"INFO"), (b!"msg", .str message)]) (.map expectedBasic) :=
    toAny_isAny num _ _ rfl
  have h4 : deepEqual (.map expectedBasic) (.map (fixLogMap L x)) = true :=
    (deep_iff _ _ (isAny_ok h3) (isAny_ok h2)).2 (isAny_same h3 h2)
  unfold Check.run matcher
  rw [hg]
  simp only [Option.map_some, equalMaps, h4]
  rfl

omit [DecidableEq F] in
theorem sourcerer_ok {L : Lib F} {num : Bytes → Option F} {ms : List (Bytes × Tree)} {x : AMap F}
    (hx : IsAny num (.obj ms) (.map x)) {f g l : Tree}
    (hs : lastOf ms b!"source" = some (.obj [(b!"function", f), (b!"file", g), (b!"line", l)]))
    (name captured : Bytes) (m : Manager) : sourcerer L name captured (some x) m = (some x, m, none) := by
  obtain ⟨a, ga, ha⟩ := isAny_get hx hs
  obtain ⟨src, rfl⟩ : ∃ src, a = .map src := by cases ha; exact ⟨_, rfl⟩
  obtain ⟨_, h2, _⟩ := isAny_obj ha
  have k1 : (Map.get src b!"file").isSome = true := h2 _
  have k2 : (Map.get src b!"function").isSome = true := h2 _
  have k3 : (Map.get src b!"line").isSome = true := h2 _
  unfold sourcerer
  simp only [getLogMap, lookup, Option.bind_some, ga, missingOf, k1, k2, k3]
  rfl

/-- What gin logs of a request (gin/parser.go:43-57): a code of 64 bits and four texts that
are printable. -/
def IsRequest (attrs : List Attr) : Prop :=
  ∃ (code : Nat) (elapsed client method url : Bytes), code < 2 ^ 63 ∧
    (∀ s ∈ [elapsed, client, method, url], Utf8.Valid s ∧ NoRepl s = true) ∧
    attrs = [.mk b!"code" (.int64 code), .mk b!"elapsed" (.string elapsed), .mk b!"client" (.string client),
      .mk b!"method" (.string method), .mk b!"url" (.string url)]

/-- The members of a request. -/
def requestTree (code : Nat) (elapsed client method url : Bytes) : List (Bytes × Tree) :=
  [(b!"code", .num (decInt code)), (b!"elapsed", .str elapsed), (b!"client", .str client),
   (b!"method", .str method), (b!"url", .str url)]

theorem dropCR_obj {b : Bytes} {ms : List (Bytes × Tree)} (h : Denotes b (.obj ms)) : dropCR b = b := by
  obtain ⟨c, hv, hc⟩ := h
  have key : ∀ x : Bytes, dropCR (0x7B :: (x ++ [0x7D])) = 0x7B :: (x ++ [0x7D]) := by
    intro x
    have : (0x7B :: (x ++ [(0x7D : UInt8)])).getLast? = some 0x7D := by
      rw [← List.cons_append, List.getLast?_append]; rfl
    unfold dropCR
    rw [this, if_neg (by decide)]
  cases hv with
  | obj h => exact key _
  | obj0 h => exact key _
  | null => simp only [Cst.decode, Option.some.injEq] at hc; cases hc
  | tru => simp only [Cst.decode, Option.some.injEq] at hc; cases hc
  | fls => simp only [Cst.decode, Option.some.injEq] at hc; cases hc
  | num _ => simp only [Cst.decode, Option.some.injEq] at hc; cases hc
  | str _ => simp only [Cst.decode, Option.map_eq_some_iff] at hc; obtain ⟨_, _, hc⟩ := hc; cases hc
  | arr0 _ => simp only [Cst.decode, Option.map_eq_some_iff] at hc; obtain ⟨_, _, hc⟩ := hc; cases hc
  | arr _ => simp only [Cst.decode, Option.map_eq_some_iff] at hc; obtain ⟨_, _, hc⟩ := hc; cases hc

omit [DecidableEq F] in
theorem rest_request {L : Lib F} {N : Nums F} {num : Bytes → Option F} (D : Decoding L N num) {code : Nat}
    {elapsed client method url : Bytes} (hc : code < 2 ^ 63)
    (ht : ∀ s ∈ [elapsed, client, method, url], Utf8.Valid s ∧ NoRepl s = true) :
    Rest num (requestTree code elapsed client method url) where
  fits := by
    have k : ∀ s, s ∈ [b!"code", b!"elapsed", b!"client", b!"method", b!"url"] → NoRepl s = true := by
      decide +kernel
    refine fitsMembers_of fun e he => ?_
    simp only [requestTree, List.mem_cons, List.not_mem_nil, or_false] at he
    rcases he with rfl | rfl | rfl | rfl | rfl
    · exact ⟨k _ (by simp), rfl⟩
    · exact ⟨k _ (by simp), (ht _ (by simp)).2⟩
    · exact ⟨k _ (by simp), (ht _ (by simp)).2⟩
    · exact ⟨k _ (by simp), (ht _ (by simp)).2⟩
    · exact ⟨k _ (by simp), (ht _ (by simp)).2⟩
  nums := by
    intro s hs
    have : s = decInt code := by simpa [requestTree, numeralsMembers, numerals] using hs
    rw [this, D.ints _ (by omega) (by omega)]; rfl
  level := rfl
  msg := rfl
  message := rfl

omit [DecidableEq F] in
/-- The check of the benchmark Logging on one line. -/
theorem onLine_ok {env : Env} {clock : Nat → Nat × Nat} {now : Nat} (W : World env clock now) {L : Lib F}
    {N : Nums F} {num : Bytes → Option F} (D : Decoding L N num) {i code : Nat}
    {elapsed client method url : Bytes} (hc : code < 2 ^ 63)
    (ht : ∀ s ∈ [elapsed, client, method, url], Utf8.Valid s ∧ NoRepl s = true) {b : Bytes}
    (hb : Denotes b (.obj (head env (clock i).1 (clock i).2 false b!"Handle" ++
      requestTree code elapsed client method url))) (name : Bytes) (m : Manager) :
    onLine L [fields L name [b!"level", b!"msg", b!"code", b!"elapsed", b!"method", b!"url"]] b m = (m, none) := by
  obtain ⟨x, g, hx⟩ := line_map W D (by decide +kernel) (rest_request D hc ht) hb ws_nil m
  rw [List.append_nil] at g
  obtain ⟨_, h2, _⟩ := isAny_obj hx
  have k1 : (Map.get x b!"level").isSome = true := h2 _
  have k2 : (Map.get x b!"msg").isSome = true := h2 _
  have k3 : (Map.get x b!"code").isSome = true := h2 _
  have k4 : (Map.get x b!"elapsed").isSome = true := h2 _
  have k5 : (Map.get x b!"method").isSome = true := h2 _
  have k6 : (Map.get x b!"url").isSome = true := h2 _
  have hf : fields L name [b!"level", b!"msg", b!"code", b!"elapsed", b!"method", b!"url"] b (some x) m =
      (some x, m, none) := by
    unfold fields
    simp only [getLogMap, lookup, Option.bind_some, missingOf, k1, k2, k3, k4, k5, k6]
    rfl
  unfold onLine
  rw [g]
  dsimp only
  rw [runAll_ok (by intro f h; rw [List.mem_singleton.1 h]; exact hf)]
  rfl

omit [DecidableEq F] in
theorem inTurn_ok {L : Lib F} {fns : List (Check F)} {m : Manager} : ∀ {ls : List Bytes},
    (∀ l ∈ ls, onLine L fns l m = (m, none)) → inTurn L fns ls m = (m, none)
  | [], _ => rfl
  | l :: ls, h => by
    rw [inTurn, h l List.mem_cons_self]
    exact inTurn_ok fun l hl => h l (List.mem_cons_of_mem _ hl)

/-- The lines of the benchmark Logging. -/
theorem logging_lines {env : Env} {clock : Nat → Nat × Nat} {now : Nat} (W : World env clock now) {h : H}
    (hw : ∀ i msg attrs, Utf8.Valid msg → ListClean env defaultTimeFormat attrs →
      listDepth attrs < env.stack → ∃ b pl, logCall h ⟨levelInfo, msg, attrs⟩ (clock i).1 (clock i).2 = b ++ [0x0A] ∧
        place env defaultTimeFormat .viaAny [] attrs = some pl ∧
        LineText b (.obj (builtins env plainExtras false (recordOf clock i msg attrs) ++ pl))) :
    ∀ (logData : List (List Attr)) (i : Nat), (∀ attrs ∈ logData, IsRequest attrs) →
    ∃ ls, Cut (logCalls h clock i (logData.map fun attrs => ⟨levelInfo, b!"Handle", attrs⟩)) ls [] ∧
      ∀ l ∈ ls, ∃ (i code : Nat) (elapsed client method url : Bytes), code < 2 ^ 63 ∧
        (∀ s ∈ [elapsed, client, method, url], Utf8.Valid s ∧ NoRepl s = true) ∧
        Denotes l (.obj (head env (clock i).1 (clock i).2 false b!"Handle" ++
          requestTree code elapsed client method url))
  | [], i, _ => ⟨[], .tail (t := []) (by simp), fun l hl => by cases hl⟩
  | attrs :: logData, i, hl => by
    obtain ⟨ls, h1, h2⟩ := logging_lines W hw logData (i + 1) fun a ha => hl a (List.mem_cons_of_mem _ ha)
    obtain ⟨code, elapsed, client, method, url, hc, ht, rfl⟩ := hl attrs List.mem_cons_self
    obtain ⟨b, pl, e1, e2, e3⟩ := hw i b!"Handle" [.mk b!"code" (.int64 code), .mk b!"elapsed" (.string elapsed),
      .mk b!"client" (.string client), .mk b!"method" (.string method), .mk b!"url" (.string url)] (by decide)
      (by
        simp only [ListClean, AttrClean, ValClean, LeafClean]
        exact ⟨⟨by decide, trivial⟩, ⟨by decide, (ht _ (by simp)).1⟩, ⟨by decide, (ht _ (by simp)).1⟩,
          ⟨by decide, (ht _ (by simp)).1⟩, ⟨by decide, (ht _ (by simp)).1⟩, trivial⟩)
      (by have := W.stack; simp only [listDepth, attrDepth, valDepth]; omega)
    have hp : pl = requestTree code elapsed client method url := by
      have := Option.some.inj e2
      exact this.symm
    subst hp
    have e4 := e3.1
    rw [builtins_head W] at e4
    refine ⟨b :: ls, ?_, ?_⟩
    · rw [List.map_cons, logCalls, e1, List.append_assoc]
      exact .line e3.2 h1
    · intro l hl
      rcases List.mem_cons.1 hl with rfl | hl
      · exact ⟨i, code, elapsed, client, method, url, hc, ht, e4⟩
      · exact h2 l hl

omit [DecidableEq F] in
theorem disabled_ok {env : Env} {clock : Nat → Nat × Nat} {now : Nat} (W : World env clock now) (L : Lib F)
    (m : Manager) : verifyFlash env clock
      { name := b!"Disabled", calls := [⟨levelDebug, message, []⟩], dontCount := true, check := disabledCheck L } m = some (m, none) := by
  obtain ⟨h, hh, _⟩ := flash_writes W
    { name := b!"Disabled", calls := [⟨levelDebug, message, []⟩], dontCount := true, check := disabledCheck L } trivial
    (by have := W.stack; show 0 < _; omega)
  have en : h.enabled (clock 0).1 levelDebug = false := by
    cases he : h.enabled (clock 0).1 levelDebug with
    | false => rfl
    | true =>
      have := ((Props.C13_flash_enabled env _ none [] h hh (clock 0).1 levelDebug).1 _ (fun _ => levelInfo) rfl
        rfl).1 he
      exact absurd this (by decide)
  unfold verifyFlash
  rw [hh]
  dsimp only [Option.bind_some]
  rw [logCalls, logCalls, logCall]
  dsimp only
  rw [en]
  rfl

/-- C70: the suite finds nothing wrong with flash: no benchmark adds a warning or gives an
error, whatever the times, the callers, the random numbers of the big group, the requests
logged, and the decoding of JSON. -/
theorem C70_flash {env : Env} {clock : Nat → Nat × Nat} {now : Nat} (W : World env clock now) {L : Lib F}
    {N : Nums F} {num : Bytes → Option F} (D : Decoding L N num) (rand : Nat → Fin 5) {logData : List (List Attr)}
    (hl : ∀ attrs ∈ logData, IsRequest attrs) {m : Manager} (hm : Unwarned L m) :
    ∀ bm ∈ benchmarks L N now rand logData, verifyFlash env clock bm m = some (m, none) := by
  have hst := W.stack
  have d0 : ∀ l : List Attr, listDepth l ≤ 1 → listDepth l < env.stack := fun l h => by omega
  have dAll : listDepth (allAttributes now) < env.stack := d0 _ (Nat.le_of_eq rfl)
  have dWith : opsDepth [.attrs (withAttributes now)] < env.stack := by
    have : opsDepth [.attrs (withAttributes now)] ≤ 1 := Nat.le_of_eq rfl
    omega
  have cWith : OpsClean env defaultTimeFormat [.attrs (withAttributes now)] := ⟨with_clean W.now, trivial⟩
  have cNil : OpsClean env defaultTimeFormat [] := trivial
  have cGroup : OpsClean env defaultTimeFormat [.group b!"withGroup"] := ⟨by decide, trivial⟩
  have dNil : opsDepth [] < env.stack := by show 0 < _; omega
  have dGroup : opsDepth [.group b!"withGroup"] < env.stack := by show 0 < _; omega
  have fin : ∀ {captured x ms} {e : AMap F}, Expect num ms e →
      IsAny num (.obj (ms.filter fun p => p.1 ≠ b!"time")) (.map x) → ∀ name,
      finder L name e captured (some x) m = (some x, m, none) :=
    fun he hx name => finder_ok hm he.covers hx name _
  have pAll : place env defaultTimeFormat .viaAny [] (allAttributes now) = some (allTree env now) :=
    all_members env now
  have pBoth : place env defaultTimeFormat .viaAny [.attrs (withAttributes now)] (allAttributes now) =
      some (withTree env now ++ allTree env now) := by
    simp only [place, with_members, all_members]
  have pWith : place env defaultTimeFormat .viaAny [.attrs (withAttributes now)] [] = some (withTree env now) := by
    simp only [place, with_members, listMembers, List.append_nil]
  have pGroup : place env defaultTimeFormat .viaAny [.group b!"withGroup"] (allAttributes now) =
      some [(b!"withGroup", .obj (allTree env now))] := by
    simp only [place, all_members]
    rfl
  have attributes : ∀ name, verifyFlash env clock
      { name, calls := info (allAttributes now),
        check := (verify L [finder L name expectedBasic, finder L name (allValuesMap N), noDuplicates L name]).run } m =
        some (m, none) := by
    intro name
    refine single W D (attrs := allAttributes now) rfl cNil dNil (all_clean W.now) dAll pAll
      (rest_all D W.now) fun captured x g hx => verify_ok g ?_
    intro f hf
    simp only [List.mem_cons, List.not_mem_nil, or_false] at hf
    rcases hf with rfl | rfl | rfl
    · exact fin (expect_basic (rest_all D W.now)) hx _
    · exact fin (expect_all D env now).after hx _
    · exact noDuplicates_ok ..
  have both : ∀ name, verifyFlash env clock
      { name, ops := [.attrs (withAttributes now)], calls := info (allAttributes now),
        check := (bothChecks L N name).run } m = some (m, none) := by
    intro name
    refine single W D (attrs := allAttributes now) rfl cWith dWith (all_clean W.now) dAll pBoth
      (rest_both D W.now) fun captured x g hx => verify_ok g ?_
    intro f hf
    simp only [List.mem_cons, List.not_mem_nil, or_false] at hf
    rcases hf with rfl | rfl | rfl | rfl
    · exact fin (expect_basic (rest_both D W.now)) hx _
    · exact fin (expect_all D env now).after.after hx _
    · exact fin (expect_both D env now).after hx _
    · exact noDuplicates_ok ..
  have rGroup : Rest num [(b!"withGroup", .obj (allTree env now))] :=
    rest_one (fitsMembers_mono _ (by decide) (all_fits W.now)) (.inr rfl) (by
      simp only [numerals]; exact all_nums D env now)
  have group : ∀ name dup, verifyFlash env clock
      { name, ops := [.group b!"withGroup"], calls := info (allAttributes now),
        check := (groupChecks L N name dup).run } m = some (m, none) := by
    intro name dup
    refine single W D (attrs := allAttributes now) rfl cGroup dGroup (all_clean W.now) dAll pGroup rGroup
      fun captured x g hx => verify_ok g ?_
    intro f hf
    simp only [List.mem_cons, List.not_mem_nil, or_false] at hf
    rcases hf with rfl | rfl | rfl
    · exact fin (expect_basic rGroup) hx _
    · refine fin (Expect.after ?_) hx _
      exact expect_cons (by decide) rfl (expect_all D env now).plain (expect_nil _ _)
    · exact noDuplicates_ok ..
  intro bm hbm
  simp only [benchmarks, List.mem_cons, List.not_mem_nil, or_false] at hbm
  rcases hbm with rfl | rfl | rfl | rfl | rfl | rfl | rfl | rfl | rfl | rfl | rfl | rfl
  · exact disabled_ok W L m
  · exact single W D (attrs := []) rfl cNil dNil trivial (d0 [] (by decide)) rfl (rest_nil num)
      fun captured x g hx => matcher_ok D g hx _
  · refine single W D (attrs := []) rfl cNil dNil trivial (d0 [] (by decide)) rfl (rest_nil num)
      fun captured x g hx => verify_ok g ?_
    intro f hf
    simp only [List.mem_cons, List.not_mem_nil, or_false] at hf
    rcases hf with rfl | rfl
    · exact fin (expect_basic (rest_nil num)) hx _
    · exact sourcerer_ok hx (f := .str (env.frame (clock 0).2).1) (g := .str (env.frame (clock 0).2).2.1)
        (l := .num (decNat (env.frame (clock 0).2).2.2)) rfl _ _ _
  · exact attributes _
  · exact attributes _
  · refine single W D (attrs := []) rfl cWith dWith trivial (d0 [] (by decide)) pWith
      (rest_with D W.now) fun captured x g hx => verify_ok g ?_
    intro f hf
    simp only [List.mem_cons, List.not_mem_nil, or_false] at hf
    rcases hf with rfl | rfl | rfl
    · exact fin (expect_basic (rest_with D W.now)) hx _
    · exact fin (expect_with D env now).after hx _
    · exact noDuplicates_ok ..
  · exact both _
  · exact both _
  · exact group _ _
  · exact group _ _
  · obtain ⟨t, ht, hb⟩ := builder_tree env defaultTimeFormat .viaAny rand bigGroupLimit bigGroupLimit b!"group" 0
      (by decide)
    obtain ⟨c1, c2⟩ := builder_clean env defaultTimeFormat rand bigGroupLimit (bigGroupLimit + 1) b!"group" 0 (by decide)
    have hf : fits 8 t = true :=
      fits_mono t (by decide) (bigTree_fits bigGroupLimit bigGroupLimit b!"group" t (by decide) hb)
    have hn : ∀ s ∈ numerals t, (num s).isSome = true := by
      intro s hs
      obtain ⟨n, rfl, h5⟩ := bigTree_numerals bigGroupLimit bigGroupLimit b!"group" t hb s hs
      have : n ≤ 5 := h5
      rw [D.nat (by omega)]; rfl
    refine single W D (attrs := [bigGroup rand]) rfl cNil dNil ⟨c1, trivial⟩ ?_ (pl := [(b!"group", t)]) ?_
      (rest_one hf (.inl rfl) hn) fun captured x g hx => ?_
    · have : attrDepth (bigGroup rand) ≤ 6 := c2
      simp only [listDepth]; omega
    · have e : attrMembers env defaultTimeFormat .viaAny (bigGroup rand) = some [(b!"group", t)] := ht
      show listMembers env defaultTimeFormat .viaAny [bigGroup rand] = _
      simp only [listMembers, e, List.append_nil]
    · obtain ⟨a, ga, ha⟩ := isAny_get hx (k := b!"group") (t := t) (by
        rw [lastOf_filter, if_neg (by decide), lastOf_append]; rfl)
      have hcheck := bigTree_check bigGroupLimit bigGroupLimit b!"group" t a 0 hb ha
      obtain ⟨ms, rfl⟩ := bigTree_obj hb
      obtain ⟨gm, rfl⟩ : ∃ gm, a = .map gm := by cases ha; exact ⟨_, rfl⟩
      show some (bigGroupChecker L b!"BigGroup" captured none m).2 = _
      unfold bigGroupChecker
      rw [g]
      simp only [lookup, Option.bind_some, ga, hcheck]
      rfl
  · obtain ⟨h, hh, hw⟩ := flash_writes W
      { name := b!"Logging", calls := logData.map fun attrs => ⟨levelInfo, b!"Handle", attrs⟩,
        dontCount := true, check := verifyLinesWith L 4096 [fields L b!"Logging"
          [b!"level", b!"msg", b!"code", b!"elapsed", b!"method", b!"url"]] } trivial dNil
    obtain ⟨ls, hcut, hls⟩ := logging_lines W hw logData 0 hl
    unfold verifyFlash
    rw [hh, Option.bind_some]
    dsimp only
    rw [BenchChecks.C67_terminated_partial L _ hcut m]
    rw [inTurn_ok]
    intro l hm'
    obtain ⟨l', hl', rfl⟩ := List.mem_map.1 hm'
    obtain ⟨i, code, elapsed, client, method, url, hc, ht, hb⟩ := hls l' hl'
    rw [dropCR_obj hb]
    exact onLine_ok W D hc ht hb _ m

/-! ### A run that meets the hypotheses -/

/-- Numbers as numerals, as in the sample library. -/
def sampleNums : Nums Bytes := ⟨decInt, piValue.text⟩

theorem sample_decoding : Decoding Sample.lib sampleNums Sample.num where
  faithful := Sample.faithful
  ints := fun _ _ _ => rfl
  pi := rfl
  upper := by decide +kernel

theorem sample_world (clock : Nat → Nat × Nat) (now : Nat) (hc : ∀ i, (clock i).2 ≠ 0 ∧ (clock i).2 < 2 ^ 63) :
    World Flash.Sample.env clock now := by
  have ht : ∀ t, TimeOk Flash.Sample.env t := fun t => ⟨Flash.Sample.body_T t, by
    have : Ascii (b!"T" ++ decNat t) := by
      intro b hb
      rcases List.mem_append.1 hb with hb | hb
      · rw [List.mem_singleton.1 hb]; decide
      · exact ascii_dec t b hb
    exact this.noRepl⟩
  exact
    { clean := Flash.Sample.env_clean
      stack := by decide
      now := ht now
      time := fun i => ht _
      caller := fun i => (hc i).1
      function := fun i => ⟨show Utf8.Valid b!"main.f" by decide, show NoRepl b!"main.f" = true by decide +kernel⟩
      file := fun i => ⟨show Utf8.Valid b!"main.go" by decide, show NoRepl b!"main.go" = true by decide +kernel⟩
      line := fun i => (hc i).2 }

example : Unwarned Sample.lib {} := by decide +kernel

example : IsRequest [.mk b!"code" (.int64 200), .mk b!"elapsed" (.string b!"5.24µs"), .mk b!"client" (.string b!"::1"),
    .mk b!"method" (.string b!"GET"), .mk b!"url" (.string b!"/style.css")] :=
  ⟨200, b!"5.24µs", b!"::1", b!"GET", b!"/style.css", by decide, by decide +kernel, rfl⟩

/-- What is written in the benchmark SimpleSource. -/
example : ((flashHandler Flash.Sample.env ⟨b!"SimpleSource", true, [], info [], false, fun _ m => some (m, none)⟩).map
    fun h => logCalls h (fun i => (7 + i, 3)) 0 (info [])) =
      some b!"{\"time\": \"T7\", \"level\": \"INFO\", \"msg\": \"This is a message\", \"source\": {\"function\":\"main.f\",\"file\":\"main.go\",\"line\":3}}\n" := by
  decide +kernel

/-! ### The data of the benchmark Logging -/

/-- A line without time and level. -/
def Unstamped (l r : Bytes) : Prop := Stamped l r ∨ (¬ ∃ r, Stamped l r) ∧ r = l

example : Unstamped b!" 07:55:40 INF 200 | 1ms | ::1 | GET \"/\"" b!"200 | 1ms | ::1 | GET \"/\"" :=
  .inl ⟨b!" ", b!"07:55:40", b!" ", b!"INF", b!" ", 0x32, b!"00 | 1ms | ::1 | GET \"/\"", rfl, by decide, rfl,
    by decide, ⟨by decide, by decide⟩, ⟨by decide, by decide⟩, ⟨by decide, by decide⟩, by decide, rfl⟩

/-- C71: time and level are removed, and nothing else. -/
theorem C71_trim (l r : Bytes) : trimTimeLevel l = r ↔ Unstamped l r := by
  constructor
  · rintro rfl
    by_cases h : ∃ r, Stamped l r
    · obtain ⟨r, h⟩ := h
      rw [trim_stamped h]
      exact .inl h
    · rw [trim_other h]
      exact .inr ⟨h, rfl⟩
  · rintro (h | ⟨h, rfl⟩)
    · exact trim_stamped h
    · exact trim_other h

/-- What a line is to add: what the parser of traffic lines makes of it without time and
level. -/
def EntryOf (l : Bytes) (e : Option (List Attr)) : Prop := ∃ r, Unstamped (dropCR l) r ∧ Gin.parse r = e

/-- C71: the data are the entries of the lines in their order; lines that cannot be parsed
are skipped. -/
theorem C71_load {s : Bytes} {ls : List Bytes} (h : Cut s ls []) :
    ∃ es, load s = some (es.filterMap id) ∧ List.Forall₂ EntryOf ls es := by
  refine ⟨ls.map fun l => Gin.parse (trimTimeLevel (dropCR l)), ?_, ?_⟩
  · unfold load
    rw [loadLoop_eq (by decide) h _ _ (Nat.lt_succ_self _), List.nil_append]
    unfold linesRead
    rw [if_pos .nil, List.append_nil, List.map_map]
    congr 1
    clear h
    induction ls with
    | nil => rfl
    | cons l ls ih =>
      rw [List.map_cons, List.map_cons, List.flatten_cons, ih]
      show entry (dropCR l) ++ _ = _
      unfold entry
      cases Gin.parse (trimTimeLevel (dropCR l)) <;> rfl
  · clear h
    induction ls with
    | nil => exact .nil
    | cons l ls ih => exact .cons ⟨_, (C71_trim _ _).1 rfl, rfl⟩ ih

example : Cut b!"07:55:40 INF 200 | 1ms | ::1 | GET \"/\"\r\nnonsense\n"
    [b!"07:55:40 INF 200 | 1ms | ::1 | GET \"/\"\r", b!"nonsense"] [] :=
  .line (l := b!"07:55:40 INF 200 | 1ms | ::1 | GET \"/\"\r") (by decide)
    (.line (l := b!"nonsense") (by decide) (.tail (by decide)))

/-- A check for requests. -/
def requestOk : List Attr → Bool
  | [.mk k1 (.int64 n), .mk k2 (.string s2), .mk k3 (.string s3), .mk k4 (.string s4), .mk k5 (.string s5)] =>
    k1 == b!"code" && k2 == b!"elapsed" && k3 == b!"client" && k4 == b!"method" && k5 == b!"url" &&
    decide (0 ≤ n) && decide (n < 2 ^ 63) &&
    [s2, s3, s4, s5].all fun s => decide (Utf8.Valid s) && NoRepl s
  | _ => false

theorem isRequest_of {attrs : List Attr} (h : requestOk attrs = true) : IsRequest attrs := by
  unfold requestOk at h
  split at h
  · rename_i k1 n k2 s2 k3 s3 k4 s4 k5 s5
    simp only [Bool.and_eq_true, beq_iff_eq, decide_eq_true_eq, List.all_eq_true] at h
    obtain ⟨⟨⟨⟨⟨⟨⟨rfl, rfl⟩, rfl⟩, rfl⟩, rfl⟩, h0⟩, hn⟩, hs⟩ := h
    obtain ⟨k, rfl⟩ := Int.eq_ofNat_of_zero_le h0
    exact ⟨k, s2, s3, s4, s5, by omega, hs, rfl⟩
  · cases h

theorem cut_lines : ∀ {ls : List Bytes}, (∀ l ∈ ls, (0x0A : UInt8) ∉ l) → Cut ((ls.map (· ++ [0x0A])).flatten) ls []
  | [], _ => .tail (t := []) (by simp)
  | l :: ls, h => by
    rw [List.map_cons, List.flatten_cons, List.append_assoc]
    exact .line (h l List.mem_cons_self) (cut_lines fun l hl => h l (List.mem_cons_of_mem _ hl))

/-- The embedded file gives 51 requests. -/
theorem logging_data : ∃ data, load loggingText = some data ∧ data.length = 51 ∧ ∀ attrs ∈ data, IsRequest attrs := by
  have hc : Cut loggingText loggingLines [] := cut_lines (by decide +kernel)
  have hall : ∀ l ∈ loggingLines, ((Gin.parse (trimTimeLevel (dropCR l))).map requestOk) = some true := by
    decide +kernel
  obtain ⟨es, h1, h2⟩ := C71_load hc
  have key : ∀ {ls : List Bytes} {es : List (Option (List Attr))}, List.Forall₂ EntryOf ls es →
      (∀ l ∈ ls, ((Gin.parse (trimTimeLevel (dropCR l))).map requestOk) = some true) →
      (es.filterMap id).length = ls.length ∧ ∀ attrs ∈ es.filterMap id, IsRequest attrs := by
    intro ls es hf
    induction hf with
    | nil => intro _; exact ⟨rfl, fun a ha => by cases ha⟩
    | @cons l e ls es he _ ih =>
      intro h
      obtain ⟨i1, i2⟩ := ih fun l hl => h l (List.mem_cons_of_mem _ hl)
      have h0 := h l List.mem_cons_self
      obtain ⟨r, hr, rfl⟩ := he
      rw [(C71_trim _ _).2 hr] at h0
      obtain ⟨a, ha, hok⟩ := Option.map_eq_some_iff.1 h0
      rw [ha]
      have e : List.filterMap id (some a :: es) = a :: List.filterMap id es := rfl
      rw [e]
      refine ⟨by simp only [List.length_cons, i1], fun x hx => ?_⟩
      rcases List.mem_cons.1 hx with rfl | hx
      · exact isRequest_of hok
      · exact i2 x hx
  obtain ⟨k1, k2⟩ := key h2 hall
  exact ⟨_, h1, by rw [k1]; decide +kernel, k2⟩

/-- C70 with the data of the embedded file. -/
theorem C70_flash_embedded {env : Env} {clock : Nat → Nat × Nat} {now : Nat} (W : World env clock now) {L : Lib F}
    {N : Nums F} {num : Bytes → Option F} (D : Decoding L N num) (rand : Nat → Fin 5) {m : Manager}
    (hm : Unwarned L m) : ∃ data, load loggingText = some data ∧
      ∀ bm ∈ benchmarks L N now rand data, verifyFlash env clock bm m = some (m, none) := by
  obtain ⟨data, h1, _, h2⟩ := logging_data
  exact ⟨data, h1, C70_flash W D rand h2 hm⟩

example : ∃ data, load loggingText = some data ∧ ∀ bm ∈ benchmarks Sample.lib sampleNums 11 (fun i => Fin.ofNat 5 i) data,
    verifyFlash Flash.Sample.env (fun i => (7 + i, 3)) bm {} = some ({}, none) :=
  C70_flash_embedded (sample_world _ 11 fun i => by simp) sample_decoding _ (by decide +kernel)

end Verif.Props.BenchFlash
