import Verif.Props.BenchChecks

/-
The other checks of the benchmark suite: C72.
-/

namespace Verif.Props.BenchMore
open Go Bench Warning

variable {F : Type} [DecidableEq F]

/-! ### Specification -/

/-- A level in upper case. -/
def upperAny (up : Bytes → Bytes) : Any F → Any F
  | .str s => .str (up s)
  | a => a

/-- The field of a decoded line as the checks are to see it: no time, the level in upper
case, the message under one name. -/
def seen (up : Bytes → Bytes) (x : AMap F) (k : Bytes) : Option (Any F) :=
  if k = b!"time" ∨ k = b!"message" then none
  else if k = b!"msg" then (Map.get x b!"message").or (Map.get x b!"msg")
  else if k = b!"level" then (Map.get x b!"level").map (upperAny up)
  else Map.get x k

/-- Two fields are both missing or the same. -/
def Agree (a b : Option (Any F)) : Prop :=
  match a, b with
  | none, none => True
  | some a, some b => Any.Same a b
  | _, _ => False

/-- The source is there with all its fields. -/
def GoodSource (x : AMap F) : Prop :=
  ∃ src, Map.get x b!"source" = some (.map src) ∧
    ∀ f ∈ [b!"function", b!"file", b!"line"], (Map.get src f).isSome = true

/-! ### The map the checks see -/

omit [DecidableEq F] in
theorem get_fixLevel (L : Lib F) (x : AMap F) (k : Bytes) :
    Map.get (fixLevel L x) k =
      if k = b!"level" then (Map.get x b!"level").map (upperAny L.upper) else Map.get x k := by
  unfold fixLevel
  split
  · rename_i l g
    rw [Map.get_set]
    by_cases hk : k = b!"level"
    · rw [if_pos hk, if_pos hk, g]; rfl
    · rw [if_neg hk, if_neg hk]
  · rename_i h
    split
    · rename_i hk
      subst hk
      cases g : Map.get x b!"level" with
      | none => rfl
      | some a =>
        cases a with
        | str l => exact absurd g (h l)
        | _ => rfl
    · rfl

omit [DecidableEq F] in
theorem get_fixMessage (x : AMap F) (k : Bytes) :
    Map.get (fixMessage x) k =
      if k = b!"message" then none
      else if k = b!"msg" then (Map.get x b!"message").or (Map.get x b!"msg")
      else Map.get x k := by
  unfold fixMessage
  split
  · rename_i g
    rw [Map.get_del, Map.get_set]
    by_cases h1 : k = b!"message"
    · rw [if_pos h1, if_pos h1]
    · rw [if_neg h1, if_neg h1]
      by_cases h2 : k = b!"msg"
      · rw [if_pos h2, if_pos h2, g]; rfl
      · rw [if_neg h2, if_neg h2]
  · rename_i g
    by_cases h1 : k = b!"message"
    · rw [if_pos h1, h1, g]
    · rw [if_neg h1]
      by_cases h2 : k = b!"msg"
      · rw [if_pos h2, g, h2]; rfl
      · rw [if_neg h2]

omit [DecidableEq F] in
theorem get_fix (L : Lib F) (x : AMap F) (k : Bytes) : Map.get (fixLogMap L x) k = seen L.upper x k := by
  unfold fixLogMap seen
  rw [get_fixMessage]
  simp only [get_fixLevel, Map.get_del]
  by_cases h0 : k = b!"time"
  · subst h0; rfl
  · by_cases h1 : k = b!"message"
    · subst h1; rfl
    · have h01 : ¬ (k = b!"time" ∨ k = b!"message") := not_or.2 ⟨h0, h1⟩
      rw [if_neg h1, if_neg h01]
      by_cases h2 : k = b!"msg"
      · rw [if_pos h2, if_pos h2]; rfl
      · rw [if_neg h2, if_neg h2]
        by_cases h3 : k = b!"level"
        · rw [if_pos h3, if_pos h3]; rfl
        · rw [if_neg h3, if_neg h3, if_neg h0]

omit [DecidableEq F] in
theorem ok_fix (L : Lib F) {x : AMap F} (h : (Any.map x).Ok) : (Any.map (fixLogMap L x)).Ok := by
  have hn : (Map.keys x).Nodup := by cases h with | map h _ => exact h
  have hd : (Map.keys (fixLogMap L x)).Nodup := by
    unfold fixLogMap fixMessage fixLevel
    have h1 : (Map.keys (Map.del x b!"time")).Nodup := Map.nodup_del hn _
    have h2 : (Map.keys (match Map.get (Map.del x b!"time") b!"level" with
        | some (.str level) => (Map.del x b!"time").set b!"level" (.str (L.upper level))
        | _ => Map.del x b!"time")).Nodup := by
      split
      · exact Map.nodup_set h1 _ _
      · exact h1
    split
    · exact Map.nodup_del (Map.nodup_set h2 _ _) _
    · exact h2
  refine .map hd fun e he => ?_
  have g := Map.get_of_mem hd (k := e.1) (v := e.2) he
  rw [get_fix] at g
  unfold seen at g
  split at g
  · cases g
  · split at g
    · rcases Option.or_eq_some_iff.1 g with g | ⟨_, g⟩
      · exact ok_get h g
      · exact ok_get h g
    · split at g
      · obtain ⟨a, ga, g⟩ := Option.map_eq_some_iff.1 g
        rw [← g]
        have := ok_get h ga
        cases a with
        | str s => exact .str _
        | _ => exact this
      · exact ok_get h g

omit [DecidableEq F] in
/-- Seen twice is the same, if upper case does not change any more. -/
theorem seen_fix (L : Lib F) (hi : ∀ s, L.upper (L.upper s) = L.upper s) (x : AMap F) (k : Bytes) :
    seen L.upper (fixLogMap L x) k = seen L.upper x k := by
  have e : ∀ k, seen L.upper (fixLogMap L x) k =
      if k = b!"time" ∨ k = b!"message" then none
      else if k = b!"msg" then (seen L.upper x b!"message").or (seen L.upper x b!"msg")
      else if k = b!"level" then (seen L.upper x b!"level").map (upperAny L.upper)
      else seen L.upper x k := by
    intro k
    rw [seen]
    simp only [get_fix]
  rw [e]
  by_cases h0 : k = b!"time" ∨ k = b!"message"
  · rw [if_pos h0, seen, if_pos h0]
  · rw [if_neg h0]
    by_cases h1 : k = b!"msg"
    · rw [if_pos h1, h1]; rfl
    · rw [if_neg h1]
      by_cases h2 : k = b!"level"
      · rw [if_pos h2, h2]
        show ((Map.get x b!"level").map (upperAny L.upper)).map (upperAny L.upper) =
          (Map.get x b!"level").map (upperAny L.upper)
        rw [Option.map_map]
        congr 1
        funext a
        cases a with
        | str s => show Any.str (L.upper (L.upper s)) = _; rw [hi]; rfl
        | _ => rfl
      · rw [if_neg h2]

omit [DecidableEq F] in
theorem same_iff (e y : AMap F) : Any.Same (.map e) (.map y) ↔ ∀ k, Agree (Map.get e k) (Map.get y k) := by
  constructor
  · intro h k
    cases h with | map h1 h2 =>
    have h1 := h1 k
    have h2 := h2 k
    unfold Agree
    cases g1 : Map.get e k <;> cases g2 : Map.get y k <;> rw [g1, g2] at h1
    · trivial
    · cases h1
    · cases h1
    · exact h2 _ _ g1 g2
  · intro h
    refine .map (fun k => ?_) fun k a b g1 g2 => ?_
    · have := h k
      unfold Agree at this
      cases g1 : Map.get e k <;> cases g2 : Map.get y k <;> rw [g1, g2] at this
      · exact this.elim
      · exact this.elim
      · rfl
    · have := h k
      rw [g1, g2] at this
      exact this

/-! ### Matcher -/

/-- C72: the matcher accepts a line exactly if its fields, as they are to be seen, are the
expected ones and no others; otherwise there is a warning and an error. -/
theorem C72_matcher (L : Lib F) (hi : ∀ s, L.upper (L.upper s) = L.upper s) (testName captured : Bytes)
    {expected x : AMap F} (he : (Any.map expected).Ok) (hx : (Any.map x).Ok)
    (hu : L.unmarshal captured = (some x, none)) (m : Manager) :
    ((∀ k, Agree (Map.get expected k) (seen L.upper x k)) →
      matcher L testName expected captured none m = (none, m, none)) ∧
    ((¬ ∀ k, Agree (Map.get expected k) (seen L.upper x k)) →
      matcher L testName expected captured none m =
        (none, m.addWarningFn mismatch testName captured, some (.extra mismatch testName))) := by
  have hg : getLogMap L captured none m = (some (fixLogMap L x), m) := by
    unfold getLogMap; rw [hu]; rfl
  have key : deepEqual (.map expected) (.map (fixLogMap L (fixLogMap L x))) = true ↔
      ∀ k, Agree (Map.get expected k) (seen L.upper x k) := by
    rw [deep_iff _ _ he (ok_fix L (ok_fix L hx)), same_iff]
    simp only [get_fix, seen_fix L hi]
  constructor
  · intro h
    unfold matcher
    rw [hg]
    simp only [Option.map_some, equalMaps, key.2 h]
    rfl
  · intro h
    have : deepEqual (.map expected) (.map (fixLogMap L (fixLogMap L x))) = false := by
      cases hd : deepEqual (.map expected) (.map (fixLogMap L (fixLogMap L x))) with
      | false => rfl
      | true => exact absurd (key.1 hd) h
    unfold matcher
    rw [hg]
    simp only [Option.map_some, equalMaps, this]
    rfl

/-- A line with lower case level and a message under the other name. -/
def sampleLine : Bytes := b!"{\"time\":7,\"level\":\"info\",\"message\":\"hi\"}"

example : Sample.lib.unmarshal sampleLine =
    (some [(b!"time", .num b!"7"), (b!"level", .str b!"info"), (b!"message", .str b!"hi")], none) ∧
    ∀ k, Agree (Map.get [(b!"msg", .str b!"hi"), (b!"level", .str b!"INFO")] k)
      (seen Sample.lib.upper [(b!"time", .num b!"7"), (b!"level", .str b!"info"), (b!"message", .str b!"hi")] k) := by
  refine ⟨rfl, fun k => ?_⟩
  unfold seen
  by_cases h0 : k = b!"time" ∨ k = b!"message"
  · rw [if_pos h0]
    rcases h0 with rfl | rfl <;> trivial
  · rw [if_neg h0]
    by_cases h1 : k = b!"msg"
    · rw [if_pos h1, h1]; exact .str _
    · rw [if_neg h1]
      by_cases h2 : k = b!"level"
      · rw [if_pos h2, h2]; exact .str b!"INFO"
      · rw [if_neg h2]
        have : ∀ (a b c : Bytes) (x y z : Any Bytes), k ≠ a → k ≠ b → k ≠ c → Map.get [(a, x), (b, y), (c, z)] k = none := by
          intro a b c x y z ha hb hc
          simp [Map.get, Ne.symm ha, Ne.symm hb, Ne.symm hc]
        rw [this _ _ _ _ _ _ (fun e => h0 (.inl e)) h2 (fun e => h0 (.inr e))]
        have : Map.get [(b!"msg", Any.str (F := Bytes) b!"hi"), (b!"level", .str b!"INFO")] k = none := by
          simp [Map.get, Ne.symm h1, Ne.symm h2]
        rw [this]
        trivial

/-! ### Sourcerer -/

omit [DecidableEq F] in
/-- C72: what the check of the source says: nothing if all is there; otherwise that the
source is wrong, unless there is none at all but a field "caller", which is another
warning. -/
theorem C72_sourcerer (L : Lib F) (testName captured : Bytes) (x : AMap F) (m : Manager) :
    (GoodSource x → sourcerer L testName captured (some x) m = (some x, m, none)) ∧
    (¬ GoodSource x → (Map.get x b!"source").isSome = true ∨ Map.get x b!"caller" = none →
      ∃ text, sourcerer L testName captured (some x) m =
        (some x, m.addWarningFnText sourceKey testName text captured, some (.extra sourceKey text))) ∧
    (∀ c, Map.get x b!"source" = none → Map.get x b!"caller" = some c →
      ∃ text, sourcerer L testName captured (some x) m =
        (some x, m.addWarningFnText sourceCaller testName text captured, some (.extra sourceCaller text)) ∧
        ((∃ s, c = .str s ∧ s.count 0x3A = 1 ∧ text = s) ∨
          (¬ ∃ s, c = .str s ∧ s.count 0x3A = 1) ∧ text = b!"caller not string")) := by
  refine ⟨?_, ?_, ?_⟩
  · rintro ⟨src, hs, hf⟩
    have k1 := hf b!"function" (by simp)
    have k2 := hf b!"file" (by simp)
    have k3 := hf b!"line" (by simp)
    unfold sourcerer
    simp only [getLogMap, lookup, Option.bind_some, hs, missingOf, k1, k2, k3]
    rfl
  · intro hg hc
    unfold sourcerer
    simp only [getLogMap, lookup, Option.bind_some]
    cases hs : Map.get x b!"source" with
    | none =>
      rw [hs] at hc
      rcases hc with hc | hc
      · cases hc
      · dsimp only
        rw [hc]
        exact ⟨_, rfl⟩
    | some a =>
      cases a with
      | map src =>
        dsimp only
        split
        · exact ⟨_, rfl⟩
        · rename_i hm
          exfalso
          apply hg
          refine ⟨src, hs, fun f hf => ?_⟩
          cases hsf : (Map.get src f).isSome with
          | true => rfl
          | false =>
            exfalso
            apply hm
            apply List.length_pos_of_mem (a := f)
            rw [BenchChecks.mem_missing]
            refine ⟨?_, hsf⟩
            simp only [List.mem_cons, List.not_mem_nil, or_false] at hf ⊢
            rcases hf with rfl | rfl | rfl <;> simp
      | _ => exact ⟨_, rfl⟩
  · intro c hs hc
    refine ⟨callerText c, ?_, ?_⟩
    · unfold sourcerer
      simp only [getLogMap, lookup, Option.bind_some, hs, hc]
    · cases c with
      | str s =>
        have e : callerText (F := F) (.str s) =
            if s.count 0x3A + 1 ≠ 2 then b!"caller not string" else s := rfl
        rw [e]
        by_cases h : s.count 0x3A = 1
        · have h2 : ¬ (s.count 0x3A + 1 ≠ 2) := by omega
          rw [if_neg h2]
          exact .inl ⟨s, rfl, h, rfl⟩
        · have h2 : s.count 0x3A + 1 ≠ 2 := by omega
          rw [if_pos h2]
          refine .inr ⟨?_, rfl⟩
          rintro ⟨s', e, h'⟩
          cases e
          exact h h'
      | _ => exact .inr ⟨(by rintro ⟨s, e, _⟩; cases e), rfl⟩

example : GoodSource (F := Bytes) [(b!"source", .map [(b!"line", .num b!"3"), (b!"file", .str b!"a.go"),
    (b!"function", .str b!"f"), (b!"more", .nil)])] := by
  refine ⟨_, rfl, ?_⟩
  decide +kernel

example : ¬ GoodSource (F := Bytes) [(b!"source", .map [(b!"line", .num b!"3"), (b!"file", .str b!"a.go")])] := by
  rintro ⟨src, hs, hf⟩
  cases hs
  have := hf b!"function" (by simp)
  revert this
  decide +kernel

/-! ### Several checks -/

omit [DecidableEq F] in
theorem runAll_steady {I : Manager → Prop} {captured : Bytes} {lm : Option (AMap F)} {V : Check F → Prop} :
    ∀ {fns : List (Check F)} {m : Manager}, I m →
      (∀ f ∈ fns, ∀ m, I m → (f captured lm m).1 = lm ∧ I (f captured lm m).2.1 ∧
        ((f captured lm m).2.2.isSome = true ↔ V f)) →
      (runAll captured fns lm m).1 = lm ∧ I (runAll captured fns lm m).2.1 ∧
        ((runAll captured fns lm m).2.2 ≠ [] ↔ ∃ f ∈ fns, V f)
  | [], m, hI, _ => ⟨rfl, hI, by simp [runAll]⟩
  | f :: fns, m, hI, h => by
    obtain ⟨h1, h2, h3⟩ := h f List.mem_cons_self m hI
    rw [runAll]
    cases hf : f captured lm m with | mk lm1 y =>
    obtain ⟨m1, err⟩ := y
    rw [hf] at h1 h2 h3
    dsimp only at h1 h2 h3 ⊢
    subst h1
    obtain ⟨i1, i2, i3⟩ := runAll_steady h2 fun f hf => h f (List.mem_cons_of_mem _ hf)
    cases hr : runAll captured fns lm1 m1 with | mk lm2 z =>
    obtain ⟨m2, errs⟩ := z
    rw [hr] at i1 i2 i3
    dsimp only at i1 i2 i3 ⊢
    refine ⟨i1, i2, ?_⟩
    have e : (∃ g ∈ f :: fns, V g) ↔ V f ∨ ∃ g ∈ fns, V g := by simp
    rw [e, ← h3, ← i3]
    cases err <;> simp

omit [DecidableEq F] in
/-- C72: several checks together give an error exactly if one of them does. (The checks may
change the manager as long as that does not change their verdicts.) -/
theorem C72_verify (L : Lib F) (captured : Bytes) {x : AMap F} (hu : L.unmarshal captured = (some x, none))
    {I : Manager → Prop} {V : Check F → Prop} {fns : List (Check F)} {m : Manager} (hI : I m)
    (h : ∀ f ∈ fns, ∀ m, I m → (f captured (some (fixLogMap L x)) m).1 = some (fixLogMap L x) ∧
      I (f captured (some (fixLogMap L x)) m).2.1 ∧
      ((f captured (some (fixLogMap L x)) m).2.2.isSome = true ↔ V f)) :
    (verify L fns captured none m).1 = none ∧ I (verify L fns captured none m).2.1 ∧
      ((verify L fns captured none m).2.2.isSome = true ↔ ∃ f ∈ fns, V f) := by
  have hg : getLogMap L captured none m = (some (fixLogMap L x), m) := by
    unfold getLogMap; rw [hu]; rfl
  obtain ⟨i1, i2, i3⟩ := runAll_steady hI h
  unfold verify
  rw [hg]
  dsimp only
  refine ⟨rfl, i2, ?_⟩
  rw [← i3]
  unfold joinErrs
  cases (runAll captured fns (some (fixLogMap L x)) m).2.2 <;> simp

omit [DecidableEq F] in
/-- For example, of several lists of fields: there is an error exactly if some field is
missing. -/
theorem C72_verify_fields (L : Lib F) (captured : Bytes) {x : AMap F} (hu : L.unmarshal captured = (some x, none))
    (lists : List (Bytes × List Bytes)) (m : Manager) :
    ((verify L (lists.map fun p => fields L p.1 p.2) captured none m).2.2.isSome = true ↔
      ∃ p ∈ lists, ∃ f ∈ p.2, seen L.upper x f = none) := by
  have := (C72_verify L captured hu (I := fun _ => True)
    (V := fun f => (f captured (some (fixLogMap L x)) m).2.2.isSome = true)
    (fns := lists.map fun p => fields L p.1 p.2) (m := m) trivial ?_).2.2
  · rw [this]
    constructor
    · rintro ⟨f, hf, hv⟩
      obtain ⟨p, hp, rfl⟩ := List.mem_map.1 hf
      refine ⟨p, hp, ?_⟩
      rw [BenchChecks.C68_fields] at hv
      split at hv
      · cases hv
      · rename_i hne
        obtain ⟨n, hn⟩ := List.exists_mem_of_ne_nil _ hne
        rw [List.mem_filter] at hn
        exact ⟨n, hn.1, by rw [← get_fix]; simpa using hn.2⟩
    · rintro ⟨p, hp, f, hf, hs⟩
      refine ⟨_, List.mem_map_of_mem hp, ?_⟩
      rw [BenchChecks.C68_fields]
      rw [if_neg]
      · rfl
      · intro e
        have : f ∈ p.2.filter fun f => (Map.get (fixLogMap L x) f).isNone := by
          rw [List.mem_filter]
          exact ⟨hf, by rw [get_fix, hs]; rfl⟩
        rw [e] at this
        cases this
  · intro f hf m' _
    obtain ⟨p, hp, rfl⟩ := List.mem_map.1 hf
    rw [BenchChecks.C68_fields, BenchChecks.C68_fields]
    split
    · exact ⟨rfl, trivial, Iff.rfl⟩
    · exact ⟨rfl, trivial, by simp⟩

example : (verify Sample.lib [fields Sample.lib b!"A" [b!"msg"], fields Sample.lib b!"B" [b!"a"], fields Sample.lib b!"C" [b!"b"]]
    b!"{\"message\":\"hi\",\"a\":1}" none {}).2.2.isSome = true := by decide +kernel

/-! ### Lines that cannot be decoded -/

omit [DecidableEq F] in
/-- C72: a line that cannot be decoded leaves a warning with the text of the error; checks
for fields then find none. -/
theorem C72_undecodable (L : Lib F) (testName captured : Bytes) {e : Bytes}
    (hu : L.unmarshal captured = (none, some e)) (m : Manager) :
    noDuplicates L testName captured none m = (none, m.addWarning L.fn testError e captured, none) ∧
    ∀ n names, fields L testName (n :: names) captured none m =
      (none, (m.addWarning L.fn testError e captured).addWarning L.fn mismatch
        (testName ++ b!": " ++ joinComma (n :: names)) captured,
        some (.extra mismatch (testName ++ b!": " ++ joinComma (n :: names)))) := by
  have hg : getLogMap L captured none m = (none, m.addWarning L.fn testError e captured) := by
    unfold getLogMap; rw [hu]; rfl
  constructor
  · unfold noDuplicates
    rw [hg]
    rfl
  · intro n names
    have hm : ∀ names, missingOf (fun f => (lookup (none : Option (AMap F)) f).isSome) names = names := by
      intro names
      induction names with
      | nil => rfl
      | cons n names ih => rw [missingOf, ih]; rfl
    unfold fields
    rw [hg]
    dsimp only
    rw [hm]
    rfl

example : Sample.lib.unmarshal b!"no JSON" = (none, some b!"unmarshal: syntax") := by rfl

omit [DecidableEq F] in
/-- C72: the benchmark Disabled fails exactly if something is written. -/
theorem C72_disabled (L : Lib F) (captured : Bytes) (m : Manager) :
    ∃ m' err, disabledCheck L captured m = some (m', err) ∧ (err = none ↔ captured = []) ∧
      (captured = [] → m' = m) := by
  cases captured with
  | nil => exact ⟨m, none, rfl, by simp, fun _ => rfl⟩
  | cons a s => exact ⟨_, _, rfl, by simp, fun h => by cases h⟩

end Verif.Props.BenchMore
