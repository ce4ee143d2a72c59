import Verif.Bench.Lines
import Verif.Bench.Builder
import Verif.Bench.Sample
import Verif.Flash.Sample

/-
The checks of the benchmark suite: C66, C67, C68, C69.
-/

namespace Verif.Props.BenchChecks
open Go Bench Warning Slog LogTree Json

variable {F : Type} [DecidableEq F]

/-! ### C66 -/

omit [DecidableEq F] in
/-- C66, what holds: the check never reports anything; so it never reports a line without
duplicates. What is missing: a line with duplicates is not reported either. -/
theorem C66_never_partial (L : Lib F) (testName captured : Bytes) (x : AMap F) (m : Manager) :
    noDuplicates L testName captured (some x) m = (some x, m, none) := rfl

omit [DecidableEq F] in
/-- C66, the same for a check that decodes the line itself: the only warning there can be
is that about a line that cannot be decoded. -/
theorem C66_never_decoding_partial (L : Lib F) (testName captured : Bytes) (m : Manager) :
    ∃ m', noDuplicates L testName captured none m = (none, m', none) ∧
      ((L.unmarshal captured).2 = none → m' = m) := by
  refine ⟨(getLogMap L captured none m).2, rfl, fun h => ?_⟩
  unfold getLogMap
  cases hu : L.unmarshal captured with
  | mk r e => rw [hu] at h; cases h; rfl

/-- The full statement of C66, for lines that denote an object. -/
def C66_statement : Prop :=
  ∀ (F : Type) (L : Lib F) (testName captured : Bytes) (x : AMap F) (m : Manager) (ms : List (Bytes × Tree)),
    Denotes captured (.obj ms) →
    ((noDuplicates L testName captured (some x) m).2.2.isSome = true ↔ ¬ (ms.map Prod.fst).Nodup)

/-- A line with a duplicate. -/
def twice : Bytes := b!"{\"a\":1,\"a\":2}"

theorem twice_denotes : Denotes twice (.obj [(b!"a", .num b!"1"), (b!"a", .num b!"2")]) := by
  refine ⟨.obj [(b!"a", .num b!"1"), (b!"a", .num b!"2")], ?_, by rfl⟩
  have w : Ws [] := fun _ h => by cases h
  have h1 : Members b!"\"a\":2" [(b!"a", .num b!"2")] :=
    .one (w1 := []) (k := b!"a") (w2 := []) (w3 := []) (b := b!"2") (w4 := []) w (by decide) w w
      (.num (by decide)) w
  exact .obj (b := b!"\"a\":1,\"a\":2") (.cons (w1 := []) (k := b!"a") (w2 := []) (w3 := [])
    (b := b!"1") (w4 := []) (r := b!"\"a\":2") w (by decide) w w (.num (by decide)) w h1)

/-- C66 is false: the counter is made but never run. -/
theorem C66_fails : ¬ C66_statement := by
  intro h
  have := (h Bytes Sample.lib b!"T" twice [] {} _ twice_denotes).2 (by decide)
  rw [C66_never_partial] at this
  cases this

/-- The case of the counterexample: the line decodes, and the check says nothing. -/
example : (noDuplicates Sample.lib b!"T" twice none {}).2 = ({}, none) := by
  have h : (Sample.lib.unmarshal twice).2 = none := by decide +kernel
  obtain ⟨m', h1, h2⟩ := C66_never_decoding_partial Sample.lib b!"T" twice {}
  rw [h1, h2 h]

/-! ### C67 -/

omit [DecidableEq F] in
/-- C67, what holds in general: the checks get the lines of the output in turn, up to the
first error; an unterminated rest is a line, too, unless it fills the buffer. -/
theorem C67_exact_partial (L : Lib F) (fns : List (Check F)) {s : Bytes} {ls : List Bytes} {t : Bytes}
    (h : Cut s ls t) (m : Manager) :
    verifyLinesWith L 4096 fns s m = some (inTurn L fns (linesRead 4096 ls t) m) :=
  linesLoop_eq L (by decide) fns h _ m (Nat.lt_succ_self _)

example : Cut b!"{}\r\n{\"a\":1}\n{" [b!"{}\r", b!"{\"a\":1}"] b!"{" ∧
    linesRead 4096 [b!"{}\r", b!"{\"a\":1}"] b!"{" = [b!"{}", b!"{\"a\":1}", b!"{"] := by
  constructor
  · exact .line (l := b!"{}\r") (by decide) (.line (l := b!"{\"a\":1}") (by decide) (.tail (by decide)))
  · unfold linesRead
    rw [if_neg (filled_short (by decide) (by decide))]
    rfl

omit [DecidableEq F] in
/-- C67 for outputs whose last line is terminated: exactly the lines. -/
theorem C67_terminated_partial (L : Lib F) (fns : List (Check F)) {s : Bytes} {ls : List Bytes}
    (h : Cut s ls []) (m : Manager) :
    verifyLinesWith L 4096 fns s m = some (inTurn L fns (ls.map dropCR) m) := by
  rw [C67_exact_partial L fns h m]
  unfold linesRead
  rw [if_pos .nil, List.append_nil]

example : Cut b!"{}\n\n" [b!"{}", b!""] [] :=
  .line (l := b!"{}") (by decide) (.line (l := []) (by decide) (.tail (by decide)))

/-- C67: which rests are lost, if they have no carriage return: those whose length is a
multiple of the size of the buffer. -/
theorem C67_lost_partial {t : Bytes} (h : (0x0D : UInt8) ∉ t) : Filled 4096 t ↔ 4096 ∣ t.length := by
  generalize hk : t.length = k
  induction k using Nat.strongRecOn generalizing t with
  | ind k ih =>
    by_cases h0 : t = []
    · subst h0; simp at hk; subst hk; simp [Filled.nil]
    · by_cases hl : t.length < 4096
      · have hp : 0 < t.length := List.length_pos_iff.2 h0
        refine ⟨fun hf => absurd hf (filled_short h0 hl), fun hd => ?_⟩
        exact absurd (Nat.le_of_dvd (by omega) hd) (by omega)
      · have hcr : (t.take 4096).getLast? ≠ some 0x0D := fun e =>
          h (List.mem_of_mem_take (List.mem_of_getLast? e))
        rw [filled_full (by omega) (by decide) hcr,
          ih (k - 4096) (by omega) (fun hm => h (List.mem_of_mem_drop hm)) (by simp [hk])]
        constructor
        · rintro ⟨c, hc⟩; exact ⟨c + 1, by omega⟩
        · rintro ⟨c, hc⟩; exact ⟨c - 1, by omega⟩

/-- No carriage return in a run of the letter x. -/
theorem xs_cr (n : Nat) : (0x0D : UInt8) ∉ List.replicate n 0x78 := fun h => by
  have := List.eq_of_mem_replicate h
  revert this; decide

theorem xs_nl (n : Nat) : (0x0A : UInt8) ∉ List.replicate n 0x78 := fun h => by
  have := List.eq_of_mem_replicate h
  revert this; decide

theorem xs_filled (n : Nat) : Filled 4096 (List.replicate (4096 * n) 0x78) :=
  (C67_lost_partial (xs_cr _)).2 (by rw [List.length_replicate]; exact Nat.dvd_mul_right _ _)

example : Filled 4096 (List.replicate (4096 * 2) 0x78) := xs_filled 2

/-- The full statement of C67: every line, terminated or not, is verified. -/
def C67_statement : Prop :=
  ∀ (F : Type) (_ : DecidableEq F) (L : Lib F) (fns : List (Check F)) (s : Bytes) (ls : List Bytes) (t : Bytes)
    (m : Manager), Cut s ls t →
    verifyLinesWith L 4096 fns s m =
      some (inTurn L fns (ls.map dropCR ++ if t = [] then [] else [t]) m)

/-- The fields a decoded line has for the checks: "time" is taken away, "message" is called
"msg". -/
def Has (x : AMap F) (f : Bytes) : Prop :=
  f ≠ b!"time" ∧ f ≠ b!"message" ∧
    ((Map.get x f).isSome = true ∨ f = b!"msg" ∧ (Map.get x b!"message").isSome = true)

omit [DecidableEq F] in
theorem fix_isSome (L : Lib F) (x : AMap F) (f : Bytes) :
    (Map.get (fixLogMap L x) f).isSome = true ↔ Has x f := by
  have hl : ∀ (y : AMap F) (f : Bytes), (Map.get (fixLevel L y) f).isSome = (Map.get y f).isSome := by
    intro y f
    unfold fixLevel
    split
    · rename_i g
      rw [Map.get_set]
      split
      · rename_i e; subst e; rw [g]; rfl
      · rfl
    · rfl
  have hm : ∀ (y : AMap F) (f : Bytes), (Map.get (fixMessage y) f).isSome = true ↔
      f ≠ b!"message" ∧ ((Map.get y f).isSome = true ∨
        f = b!"msg" ∧ (Map.get y b!"message").isSome = true) := by
    intro y f
    unfold fixMessage
    split
    · rename_i msg g
      rw [Map.get_del, g]
      by_cases h1 : f = b!"message"
      · simp [h1]
      · rw [if_neg h1, Map.get_set]
        by_cases h2 : f = b!"msg"
        · simp [h2]
        · simp [h1, h2]
    · rename_i g
      rw [g]
      by_cases h1 : f = b!"message"
      · subst h1; simp [g]
      · simp [h1]
  unfold fixLogMap Has
  rw [hm, hl, hl, Map.get_del, Map.get_del, if_neg (show b!"message" ≠ b!"time" by decide)]
  by_cases ht : f = b!"time"
  · subst ht; simp
  · simp [ht]

/-- What is decoded from a line has the field. -/
def LineHas (L : Lib F) (line f : Bytes) : Prop := ∃ x, (L.unmarshal line).1 = some x ∧ Has x f

omit [DecidableEq F] in
theorem lookup_line (L : Lib F) (line f : Bytes) (m : Manager) :
    (lookup (getLogMap L line none m).1 f).isSome = true ↔ LineHas L line f := by
  have : (getLogMap L line none m).1 = (L.unmarshal line).1.map (fixLogMap L) := by
    unfold getLogMap
    cases L.unmarshal line with | mk r e => cases e <;> rfl
  rw [this]
  unfold lookup LineHas
  cases (L.unmarshal line).1 with
  | none => simp
  | some x => simp [fix_isSome]

theorem mem_missing {has : Bytes → Bool} {names : List Bytes} {f : Bytes} :
    f ∈ missingOf has names ↔ f ∈ names ∧ has f = false := by
  induction names with
  | nil => simp [missingOf]
  | cons n names ih =>
    unfold missingOf
    cases h : has n with
    | true =>
      rw [if_pos rfl, ih]
      simp only [List.mem_cons]
      constructor
      · rintro ⟨h1, h2⟩; exact ⟨.inr h1, h2⟩
      · rintro ⟨rfl | h1, h2⟩
        · rw [h] at h2; cases h2
        · exact ⟨h1, h2⟩
    | false =>
      rw [if_neg (by simp)]
      simp only [List.mem_cons, ih]
      constructor
      · rintro (rfl | ⟨h1, h2⟩)
        · exact ⟨.inl rfl, h⟩
        · exact ⟨.inr h1, h2⟩
      · rintro ⟨rfl | h1, h2⟩
        · exact .inl rfl
        · exact .inr ⟨h1, h2⟩

theorem missing_eq {has : Bytes → Bool} {names : List Bytes} :
    missingOf has names = names.filter fun f => !has f := by
  induction names with
  | nil => rfl
  | cons n names ih => unfold missingOf; cases h : has n <;> simp [h, ih]

omit [DecidableEq F] in
theorem getLogMap_idem (L : Lib F) (line : Bytes) (m m' : Manager) :
    (getLogMap L line (getLogMap L line none m).1 m').1 = (getLogMap L line none m).1 := by
  have : ∀ m, (getLogMap L line none m).1 = (L.unmarshal line).1.map (fixLogMap L) := by
    intro m; unfold getLogMap
    cases L.unmarshal line with | mk r e => cases e <;> rfl
  rw [this]
  cases h : (L.unmarshal line).1 with
  | none => rw [Option.map_none, this, h]; rfl
  | some x => rfl

omit [DecidableEq F] in
theorem onLine_fields (L : Lib F) (testName : Bytes) (names : List Bytes) (line : Bytes) (m : Manager) :
    (onLine L [fields L testName names] line m).2.isSome = true ↔ ∃ f ∈ names, ¬ LineHas L line f := by
  have key : ∀ lm m', lm = (getLogMap L line none m).1 →
      ((fields L testName names line lm m').2.2.isSome = true ↔ ∃ f ∈ names, ¬ LineHas L line f) := by
    intro lm m' e
    subst e
    have h1 : ∀ f, f ∈ missingOf (fun f => (lookup (getLogMap L line (getLogMap L line none m).1 m').1 f).isSome) names ↔
        f ∈ names ∧ ¬ LineHas L line f := by
      intro f
      rw [mem_missing, getLogMap_idem, ← lookup_line L line f m]
      simp
    unfold fields
    dsimp only
    split
    · rename_i h
      obtain ⟨f, hf⟩ := List.exists_mem_of_length_pos h
      exact ⟨fun _ => ⟨f, (h1 f).1 hf⟩, fun _ => rfl⟩
    · rename_i h
      refine ⟨fun h => by (cases h), fun ⟨f, hf⟩ => absurd ?_ h⟩
      exact List.length_pos_of_mem ((h1 f).2 hf)
  unfold onLine
  cases hg : getLogMap L line none m with | mk lm m1 =>
  dsimp only
  have k := key lm m1 (by rw [hg])
  simp only [runAll]
  cases hf : fields L testName names line lm m1 with | mk a b =>
  obtain ⟨m2, err⟩ := b
  rw [hf] at k
  dsimp only at k ⊢
  rw [← k]
  cases err <;> simp [joinErrs]

omit [DecidableEq F] in
theorem inTurn_fields (L : Lib F) (testName : Bytes) (names : List Bytes) : ∀ (ls : List Bytes) (m : Manager),
    (inTurn L [fields L testName names] ls m).2.isSome = true ↔ ∃ l ∈ ls, ∃ f ∈ names, ¬ LineHas L l f
  | [], m => by simp [inTurn]
  | l :: ls, m => by
    have h1 := onLine_fields L testName names l m
    rw [inTurn]
    cases hon : onLine L [fields L testName names] l m with | mk m' e =>
    rw [hon] at h1
    cases e with
    | some e =>
      have := h1.1 rfl
      simp [this]
    | none =>
      have : ¬ ∃ f ∈ names, ¬ LineHas L l f := fun hc => by have := h1.2 hc; cases this
      dsimp only
      rw [inTurn_fields L testName names ls m']
      constructor
      · rintro ⟨l, hl, h⟩; exact ⟨l, List.mem_cons_of_mem _ hl, h⟩
      · rintro ⟨l', hl, h⟩
        rcases List.mem_cons.1 hl with e | hl
        · rw [e] at h; exact absurd h this
        · exact ⟨l', hl, h⟩

omit [DecidableEq F] in
/-- C67 for the check of the benchmark Logging, from the output to the error: there is one
exactly if a line lacks one of the fields. -/
theorem C67_fields_partial (L : Lib F) (testName : Bytes) (names : List Bytes) {s : Bytes} {ls : List Bytes}
    (h : Cut s ls []) (m : Manager) :
    ∃ m' err, verifyLinesWith L 4096 [fields L testName names] s m = some (m', err) ∧
      (err.isSome = true ↔ ∃ l ∈ ls, ∃ f ∈ names, ¬ LineHas L (dropCR l) f) := by
  refine ⟨_, _, C67_terminated_partial L _ h m, ?_⟩
  rw [inTurn_fields]
  constructor
  · rintro ⟨l, hl, h⟩
    obtain ⟨l', hl', rfl⟩ := List.mem_map.1 hl
    exact ⟨l', hl', h⟩
  · rintro ⟨l, hl, h⟩
    exact ⟨_, List.mem_map_of_mem hl, h⟩

example : ((verifyLinesWith Sample.lib 4096 [fields Sample.lib b!"T" [b!"a"]] b!"{\"a\":1}\n{\"b\":1}\n" {}).map
    fun r => (r.2.isSome, (Map.get r.1.warnings mismatch.name).map (·.data))) =
      some (true, some [⟨b!"Benchmark", b!"{\"b\":1}", b!"T: a"⟩]) := by decide +kernel

theorem xs_unmarshal (n : Nat) : Sample.lib.unmarshal (0x78 :: List.replicate n 0x78) =
    (none, some b!"unmarshal: syntax") := by
  rw [show Sample.lib.unmarshal = Sample.unmarshal from rfl]
  unfold Sample.unmarshal
  have : ∀ k r, Json.parseVal (k + 1) (0x78 :: r) = none := by
    intro k r; rw [Json.parseVal]; rfl
  rw [show 2 * (0x78 :: List.replicate n (0x78 : UInt8)).length = 2 * n + 1 + 1 by simp; omega, this]

/-- C67 is false: an unterminated line of 4096 bytes is not verified. -/
theorem C67_fails : ¬ C67_statement := by
  intro h
  have hf : Filled 4096 (List.replicate (4096 * 1) (0x78 : UInt8)) := xs_filled 1
  obtain ⟨n, hn⟩ : ∃ n, 4096 * 1 = n + 1 := ⟨4095, rfl⟩
  rw [hn] at hf
  have hc : Cut (List.replicate (n + 1) 0x78) [] (List.replicate (n + 1) 0x78) := .tail (xs_nl _)
  have h1 := h Bytes inferInstance Sample.lib [fields Sample.lib b!"T" [b!"a"]] _ _ _ {} hc
  rw [C67_exact_partial _ _ hc] at h1
  have e1 : linesRead 4096 [] (List.replicate (n + 1) (0x78 : UInt8)) = [] := by
    unfold linesRead; rw [if_pos hf]; rfl
  have h2 := (inTurn_fields Sample.lib b!"T" [b!"a"] [List.replicate (n + 1) 0x78] {}).2 ?_
  · rw [e1, if_neg (by rw [List.replicate_succ]; simp)] at h1
    simp only [Option.some.injEq] at h1
    have h3 : ([] : List Bytes).map dropCR ++ [List.replicate (n + 1) (0x78 : UInt8)] =
        [List.replicate (n + 1) 0x78] := rfl
    rw [h3] at h1
    rw [← h1] at h2
    cases h2
  · refine ⟨_, List.mem_singleton_self _, _, List.mem_singleton_self _, ?_⟩
    rintro ⟨x, hx, _⟩
    rw [List.replicate_succ, xs_unmarshal] at hx
    cases hx

/-! ### C68 -/

omit [DecidableEq F] in
/-- What the check `fields` says, from the fields that are there. -/
theorem C68_fields (L : Lib F) (testName captured : Bytes) (names : List Bytes) (x : AMap F) (m : Manager) :
    let missing := names.filter fun f => (Map.get x f).isNone
    fields L testName names captured (some x) m =
      if missing = [] then (some x, m, none)
      else (some x, m.addWarning L.fn mismatch (testName ++ b!": " ++ joinComma missing) captured,
        some (.extra mismatch (testName ++ b!": " ++ joinComma missing))) := by
  have e : missingOf (fun f => (lookup (getLogMap L captured (some x) m).1 f).isSome) names =
      names.filter fun f => (Map.get x f).isNone := by
    rw [missing_eq]
    congr 1
    funext f
    show (!(Map.get x f).isSome) = (Map.get x f).isNone
    cases Map.get x f <;> rfl
  dsimp only
  unfold fields
  dsimp only
  rw [e]
  cases h : names.filter fun f => (Map.get x f).isNone with
  | nil => rfl
  | cons a l => rfl

example : (fields Sample.lib b!"T" [b!"a", b!"b", b!"c"] [] (some [(b!"b", .nil)]) {}).2.2 =
    some (.extra mismatch b!"T: a,c") := by
  have := C68_fields Sample.lib b!"T" [] [b!"a", b!"b", b!"c"] [(b!"b", .nil)] {}
  rw [this]
  rfl

/-- The warnings that would change what `finder` does are not among those of the
handler. -/
structure Unflagged (L : Lib F) (testName : Bytes) (m : Manager) : Prop where
  mismatch : m.hasWarning L.useWarnings mismatch = false
  stringAny : m.hasWarning L.useWarnings stringAny = false
  skipDedup : m.hasWarning L.useWarnings skipDedup = true → testName ∉ skipDedupTests

/-- The name under which a fault is reported: the last step of its path, in quotes if the
value is there as a string of JSON. -/
def ReportedAs (L : Lib F) (e a : Any F) (name : Bytes) : Prop :=
  ∃ p n, Any.Fault e a p ∧ p.getLast? = some n ∧
    ((¬ Quoted L e a p ∧ name = n) ∨ (Quoted L e a p ∧ name = 0x22 :: (n ++ [0x22])))

omit [DecidableEq F] in
theorem fault_last {e a : AMap F} {p : List Bytes} (h : Any.Fault (.map e) (.map a) p) :
    ∃ n, p.getLast? = some n := by
  cases p with
  | nil => exact absurd ⟨rfl, rfl⟩ ((fault_nil _ _).1 h).1
  | cons k p => exact ⟨_, List.getLast?_eq_some_getLast (by simp)⟩

/-- C68, what holds for a handler without relevant warnings: nothing is reported exactly
if nothing is at fault; the manager is left as it is; the report names, for every field at
fault and nothing else, its last step. What is missing: the path to it. -/
theorem C68_finder_partial (L : Lib F) (testName captured : Bytes) {expected x : AMap F} (m : Manager)
    (he : (Any.map expected).Ok) (hx : (Any.map x).Ok) (hu : Unflagged L testName m) :
    ∃ err, finder L testName expected captured (some x) m = (some x, m, err) ∧
      (err = none ↔ ∀ p, ¬ Any.Fault (.map expected) (.map x) p) ∧
      (∀ e, err = some e → e = .marshal ∨ ∃ names, e = .mismatch (testName ++ b!": " ++ joinComma names) ∧
        ∀ name, name ∈ names ↔ ReportedAs L (.map expected) (.map x) name) := by
  have hs : (m.hasWarning L.useWarnings skipDedup && skipDedupTests.contains testName) = false := by
    cases h : m.hasWarning L.useWarnings skipDedup with
    | false => rfl
    | true => have := hu.skipDedup h; simpa using this
  have hd := deep_spec L he hx
  unfold finder
  rw [hs]
  simp only [Bool.false_eq_true, if_false]
  have hg : getLogMap L captured (some x) m = (some x, m) := rfl
  rw [hg]
  dsimp only [Option.getD_some]
  cases hf : finderDeep L expected x with
  | none =>
    rw [hf] at hd
    obtain ⟨p, hp⟩ := hd
    exact ⟨_, rfl, ⟨(fun h => by cases h), fun h => absurd hp (h p)⟩, fun e h => by cases h; exact .inl rfl⟩
  | some r =>
    obtain ⟨bf, sf⟩ := r
    rw [hf] at hd
    dsimp only at hd ⊢
    have e1 : finderStrings L testName captured bf sf m = (bf ++ sf.map fun fld => 0x22 :: (fld ++ [0x22]), m) := by
      unfold finderStrings
      rw [hu.stringAny]
      cases sf <;> simp
    rw [e1]
    dsimp only
    have mem : ∀ name, name ∈ (bf ++ sf.map fun fld => 0x22 :: (fld ++ [0x22])) ↔
        ReportedAs L (.map expected) (.map x) name := by
      intro name
      rw [List.mem_append, List.mem_map]
      constructor
      · rintro (h | ⟨n, h, rfl⟩)
        · obtain ⟨p, h1, h2, h3⟩ := (hd name).1.1 h
          exact ⟨p, name, h1, h3, .inl ⟨h2, rfl⟩⟩
        · obtain ⟨p, h1, h2, h3⟩ := (hd n).2.1 h
          exact ⟨p, n, h1, h3, .inr ⟨h2, rfl⟩⟩
      · rintro ⟨p, n, h1, h2, ⟨h3, rfl⟩ | ⟨h3, rfl⟩⟩
        · exact .inl ((hd name).1.2 ⟨p, h1, h3, h2⟩)
        · exact .inr ⟨n, (hd n).2.2 ⟨p, h1, h3, h2⟩, rfl⟩
    generalize bf ++ sf.map (fun fld => 0x22 :: (fld ++ [0x22])) = names at mem
    have e2 : finderReport L testName captured names m =
        (m, if names.length > 0 then some (.mismatch (testName ++ b!": " ++ joinComma names)) else none) := by
      unfold finderReport
      rw [hu.mismatch]
      cases names <;> simp
    rw [e2]
    refine ⟨_, rfl, ?_, ?_⟩
    · constructor
      · intro h p hp
        obtain ⟨n, hn⟩ := fault_last hp
        have : ∃ name, name ∈ names := by
          by_cases hq : Quoted L (.map expected) (.map x) p
          · exact ⟨_, (mem _).2 ⟨p, n, hp, hn, .inr ⟨hq, rfl⟩⟩⟩
          · exact ⟨_, (mem _).2 ⟨p, n, hp, hn, .inl ⟨hq, rfl⟩⟩⟩
        obtain ⟨name, hm⟩ := this
        rw [if_pos (List.length_pos_of_mem hm)] at h
        cases h
      · intro h
        cases names with
        | nil => rfl
        | cons n names =>
          obtain ⟨p, _, hp, _⟩ := (mem n).1 List.mem_cons_self
          exact absurd hp (h p)
    · intro e h
      split at h
      · cases h; exact .inr ⟨names, rfl, mem⟩
      · cases h

/-- C68 for a handler with the warning Mismatch (and without the others): the same names
go into a warning instead of an error; if nothing is at fault the warning is noted as
unused. -/
theorem C68_finder_warning_partial (L : Lib F) (testName captured : Bytes) {expected x : AMap F} (m : Manager)
    (he : (Any.map expected).Ok) (hx : (Any.map x).Ok) (hw : m.hasWarning L.useWarnings mismatch = true)
    (h2 : m.hasWarning L.useWarnings stringAny = false)
    (h3 : m.hasWarning L.useWarnings skipDedup = true → testName ∉ skipDedupTests) :
    ∃ m' err, finder L testName expected captured (some x) m = (some x, m', err) ∧
      (err = none ∨ err = some .marshal ∧ m' = m) ∧
      ((∀ p, ¬ Any.Fault (.map expected) (.map x) p) → err = none ∧ m' = m.addUnused L.fn mismatch captured) ∧
      ((∃ p, Any.Fault (.map expected) (.map x) p) → err = none → ∃ names,
        m' = m.addWarningFn mismatch (testName ++ b!": " ++ joinComma names) captured ∧
        ∀ name, name ∈ names ↔ ReportedAs L (.map expected) (.map x) name) := by
  have hs : (m.hasWarning L.useWarnings skipDedup && skipDedupTests.contains testName) = false := by
    cases h : m.hasWarning L.useWarnings skipDedup with
    | false => rfl
    | true => have := h3 h; simpa using this
  have hd := deep_spec L he hx
  unfold finder
  rw [hs]
  simp only [Bool.false_eq_true, if_false]
  have hg : getLogMap L captured (some x) m = (some x, m) := rfl
  rw [hg]
  dsimp only [Option.getD_some]
  cases hf : finderDeep L expected x with
  | none =>
    rw [hf] at hd
    obtain ⟨p, hp⟩ := hd
    exact ⟨_, _, rfl, .inr ⟨rfl, rfl⟩, fun h => absurd hp (h p), fun _ h => by cases h⟩
  | some r =>
    obtain ⟨bf, sf⟩ := r
    rw [hf] at hd
    dsimp only at hd ⊢
    have e1 : finderStrings L testName captured bf sf m = (bf ++ sf.map fun fld => 0x22 :: (fld ++ [0x22]), m) := by
      unfold finderStrings
      rw [h2]
      cases sf <;> simp
    rw [e1]
    dsimp only
    have mem : ∀ name, name ∈ (bf ++ sf.map fun fld => 0x22 :: (fld ++ [0x22])) ↔
        ReportedAs L (.map expected) (.map x) name := by
      intro name
      rw [List.mem_append, List.mem_map]
      constructor
      · rintro (h | ⟨n, h, rfl⟩)
        · obtain ⟨p, h1, h2, h3⟩ := (hd name).1.1 h
          exact ⟨p, name, h1, h3, .inl ⟨h2, rfl⟩⟩
        · obtain ⟨p, h1, h2, h3⟩ := (hd n).2.1 h
          exact ⟨p, n, h1, h3, .inr ⟨h2, rfl⟩⟩
      · rintro ⟨p, n, h1, h2, ⟨h3, rfl⟩ | ⟨h3, rfl⟩⟩
        · exact .inl ((hd name).1.2 ⟨p, h1, h3, h2⟩)
        · exact .inr ⟨n, (hd n).2.2 ⟨p, h1, h3, h2⟩, rfl⟩
    generalize bf ++ sf.map (fun fld => 0x22 :: (fld ++ [0x22])) = names at mem
    have hname : ∀ p, Any.Fault (.map expected) (.map x) p → names ≠ [] := by
      intro p hp e
      subst e
      obtain ⟨n, hn⟩ := fault_last hp
      by_cases hq : Quoted L (.map expected) (.map x) p
      · have := (mem _).2 ⟨p, n, hp, hn, .inr ⟨hq, rfl⟩⟩; cases this
      · have := (mem _).2 ⟨p, n, hp, hn, .inl ⟨hq, rfl⟩⟩; cases this
    unfold finderReport
    rw [hw]
    cases names with
    | nil => exact ⟨_, _, rfl, .inl rfl, fun _ => ⟨rfl, rfl⟩, fun ⟨p, hp⟩ => absurd rfl (hname p hp)⟩
    | cons n names =>
      refine ⟨_, _, rfl, .inl rfl, fun h => ?_, fun _ _ => ⟨_, rfl, mem⟩⟩
      obtain ⟨p, _, hp, _⟩ := (mem n).1 List.mem_cons_self
      exact absurd hp (h p)

/-- C68 for a handler with the warning SkipDedup: four of the checks say nothing, whatever
the line. -/
theorem C68_finder_skipped_partial (L : Lib F) (testName captured : Bytes) (expected : AMap F)
    (logMap : Option (AMap F)) (m : Manager) (h1 : m.hasWarning L.useWarnings skipDedup = true)
    (h2 : testName ∈ skipDedupTests) : finder L testName expected captured logMap m = (logMap, m, none) := by
  unfold finder
  rw [h1, if_pos (by simpa using h2)]

/-- The samples: expected and actual maps, nested. -/
def wanted : AMap Bytes :=
  [(b!"a", .map [(b!"x", .num b!"1"), (b!"y", .map [(b!"z", .str b!"s")])]), (b!"b", .map [(b!"x", .num b!"1")])]
/-- Wrong in a.x, and a.y.z missing. -/
def got : AMap Bytes :=
  [(b!"b", .map [(b!"x", .num b!"1")]), (b!"a", .map [(b!"x", .str b!"1"), (b!"y", .map [])])]
/-- Right in a, b.x wrong. -/
def got' : AMap Bytes :=
  [(b!"b", .map [(b!"x", .num b!"2")]),
   (b!"a", .map [(b!"x", .num b!"1"), (b!"y", .map [(b!"z", .str b!"s")])])]
/-- Wrong in a.x only. -/
def got'' : AMap Bytes :=
  [(b!"b", .map [(b!"x", .num b!"1")]),
   (b!"a", .map [(b!"x", .num b!"2"), (b!"y", .map [(b!"z", .str b!"s")])])]

theorem wanted_ok : (Any.map wanted).Ok := by
  refine .map (by decide) ?_
  simp only [wanted, List.forall_mem_cons, List.not_mem_nil, false_imp_iff, implies_true, and_true]
  refine ⟨.map (by decide) ?_, .map (by decide) ?_⟩ <;>
    simp only [List.forall_mem_cons, List.not_mem_nil, false_imp_iff, implies_true, and_true]
  · refine ⟨.num _, .map (by decide) ?_⟩
    simp only [List.forall_mem_cons, List.not_mem_nil, false_imp_iff, implies_true, and_true]
    exact .str _
  · exact .num _

theorem got_ok : (Any.map got).Ok := by
  refine .map (by decide) ?_
  simp only [got, List.forall_mem_cons, List.not_mem_nil, false_imp_iff, implies_true, and_true]
  refine ⟨.map (by decide) ?_, .map (by decide) ?_⟩ <;>
    simp only [List.forall_mem_cons, List.not_mem_nil, false_imp_iff, implies_true, and_true]
  · exact .num _
  · exact ⟨.str _, .map (by decide) (fun _ h => by cases h)⟩

example : Unflagged Sample.lib b!"T" {} ∧
    finderDeep Sample.lib wanted got = some ([b!"z"], [b!"x"]) ∧
    (finder Sample.lib b!"T" wanted [] (some got) {}).2.2 = some (.mismatch b!"T: z,\"x\"") := by
  refine ⟨⟨by decide, by decide, by decide⟩, by rfl, by rfl⟩

/-- The full statement of C68 (its last part): a report tells which fields are at fault. -/
def C68_statement : Prop :=
  ∀ (F : Type) (_ : DecidableEq F) (L : Lib F) (testName captured : Bytes) (expected x x' : AMap F) (m : Manager),
    (Any.map expected).Ok → (Any.map x).Ok → (Any.map x').Ok → Unflagged L testName m →
    (finder L testName expected captured (some x) m).2 = (finder L testName expected captured (some x') m).2 →
    ∀ p, Any.Fault (.map expected) (.map x) p ↔ Any.Fault (.map expected) (.map x') p

theorem got'_ok : (Any.map got').Ok ∧ (Any.map got'').Ok := by
  constructor <;> refine .map (by decide) ?_
  · simp only [got', List.forall_mem_cons, List.not_mem_nil, false_imp_iff, implies_true, and_true]
    refine ⟨.map (by decide) ?_, .map (by decide) ?_⟩ <;>
      simp only [List.forall_mem_cons, List.not_mem_nil, false_imp_iff, implies_true, and_true]
    · exact .num _
    · refine ⟨.num _, .map (by decide) ?_⟩
      simp only [List.forall_mem_cons, List.not_mem_nil, false_imp_iff, implies_true, and_true]
      exact .str _
  · simp only [got'', List.forall_mem_cons, List.not_mem_nil, false_imp_iff, implies_true, and_true]
    refine ⟨.map (by decide) ?_, .map (by decide) ?_⟩ <;>
      simp only [List.forall_mem_cons, List.not_mem_nil, false_imp_iff, implies_true, and_true]
    · exact .num _
    · refine ⟨.num _, .map (by decide) ?_⟩
      simp only [List.forall_mem_cons, List.not_mem_nil, false_imp_iff, implies_true, and_true]
      exact .str _

/-- C68 is false: the report does not say in which group a field is at fault. -/
theorem C68_fails : ¬ C68_statement := by
  intro h
  have := h Bytes inferInstance Sample.lib b!"T" [] wanted got' got'' {} wanted_ok got'_ok.1 got'_ok.2
    ⟨by decide, by decide, by decide⟩ (by rfl) [b!"b", b!"x"]
  have h1 : Any.Fault (.map wanted) (.map got') [b!"b", b!"x"] := by
    rw [fault_cons]
    refine ⟨.map [(b!"x", .num b!"1")], rfl, ?_⟩
    show Any.Fault (.map [(b!"x", .num b!"1")]) (.map [(b!"x", .num b!"2")]) [b!"x"]
    rw [fault_cons]
    refine ⟨.num b!"1", rfl, ?_⟩
    rw [fault_nil]
    refine ⟨fun h => by simp [Any.isMap] at h, fun h => ?_⟩
    have h : Any.Same (Any.num b!"1") (.num b!"2") := h
    have := (deep_iff _ _ (.num _) (.num _)).2 h
    revert this; decide
  have h2 : ¬ Any.Fault (.map wanted) (.map got'') [b!"b", b!"x"] := by
    rw [fault_cons]
    rintro ⟨v, hv, hf⟩
    have e : v = .map [(b!"x", .num b!"1")] := by cases hv; rfl
    subst e
    have hf : Any.Fault (.map [(b!"x", .num b!"1")]) (.map [(b!"x", .num b!"1")]) [b!"x"] := hf
    rw [fault_cons] at hf
    obtain ⟨v, hv, hf⟩ := hf
    have e : v = .num b!"1" := by cases hv; rfl
    subst e
    exact ((fault_nil _ _).1 hf).2 (.num _)
  exact h2 (this.1 h1)

/-! ### C69 -/

omit [DecidableEq F] in
/-- C69, the first half: whatever the random numbers, limits and names, the group passes
its check when it is decoded from the tree it stands for, and reaches exactly the limit. -/
theorem C69_builder_partial (env : Env) (layout : Bytes) (md : Mode) (rand : Nat → Fin 5) (limit : Nat) (stem : Bytes)
    (drawn : Nat) (hs : stem ≠ []) :
    ∃ t, attrMembers env layout md (bigGroupBuilder rand limit (limit + 1) stem drawn).1 = some [(stem, t)] ∧
      ∀ (num : Bytes → Option F) (a : Any F), IsAny num t a → bigGroupCheck a 0 stem = .ok limit := by
  obtain ⟨t, h1, h2⟩ := builder_tree env layout md rand limit limit stem drawn hs
  refine ⟨t, h1, fun num a ha => ?_⟩
  have := bigTree_check limit limit stem t a 0 h2 ha
  rwa [Nat.zero_add] at this

omit [DecidableEq F] in
/-- The error of the check, for the group of a decoded line. -/
theorem C69_checker_partial (L : Lib F) (testName captured : Bytes) {x : AMap F} (hx : (Any.map x).Ok) (m : Manager) :
    ∃ m' err, bigGroupChecker L testName captured (some x) m = (some x, m', err) ∧
      (err = none → m' = m) ∧
      (∀ e, err = some e → ∃ text, e = .extra mismatch text ∧ m' = m.addWarning L.fn mismatch text []) ∧
      (err = none ↔ Map.get x b!"group" = none ∨
        ∃ g, Map.get x b!"group" = some g ∧ g.isMap = true ∧ Any.Stemmed nonGroupFields b!"group" g ∧
          (∃ p, p.length = 5 ∧ g.MapAt p) ∧ ∀ p, g.MapAt p → p.length ≤ 5) := by
  have hl : ∀ k, lookup (getLogMap L captured (some x) m).1 k = Map.get x k := fun _ => rfl
  have hm : (getLogMap L captured (some x) m).2 = m := rfl
  unfold bigGroupChecker
  dsimp only
  rw [hl, hm]
  cases hg : Map.get x b!"group" with
  | none => exact ⟨_, _, rfl, fun _ => rfl, (fun _ h => by cases h), fun _ => .inl rfl, fun _ => rfl⟩
  | some g =>
    cases g with
    | map sub =>
      dsimp only
      have hok : (Any.map sub).Ok := ok_get hx hg
      have hc : ∀ n, bigGroupCheck (.map sub) 0 b!"group" = .ok n ↔
          Any.Stemmed nonGroupFields b!"group" (.map sub) ∧ (∃ p, p.length = n ∧ (Any.map sub).MapAt p) ∧
          ∀ p, (Any.map sub).MapAt p → p.length ≤ n := by
        intro n
        have := check_iff (.map sub) 0 b!"group" n hok rfl
        simpa using this
      cases hb : bigGroupCheck (.map sub) 0 b!"group" with
      | error e =>
        refine ⟨_, _, rfl, (fun h => by cases h), (fun e h => by cases h; exact ⟨_, rfl, rfl⟩),
          (fun h => by cases h), ?_⟩
        rintro (h | ⟨g, h, _, h1⟩)
        · cases h
        · cases h
          have := (hc 5).2 h1
          rw [hb] at this; cases this
      | ok n =>
        dsimp only
        by_cases hn : n = bigGroupLimit
        · subst hn
          rw [if_neg (by simp)]
          refine ⟨_, _, rfl, fun _ => rfl, (fun _ h => by cases h), fun _ => .inr ⟨_, rfl, rfl, (hc 5).1 hb⟩,
            fun _ => rfl⟩
        · rw [if_pos hn]
          refine ⟨_, _, rfl, (fun h => by cases h), (fun e h => by cases h; exact ⟨_, rfl, rfl⟩),
            (fun h => by cases h), ?_⟩
          rintro (h | ⟨g, h, _, h1⟩)
          · cases h
          · cases h
            have := (hc 5).2 h1
            rw [hb] at this; cases this
            exact absurd rfl hn
    | _ =>
      refine ⟨_, _, rfl, (fun h => by cases h), (fun e h => by cases h; exact ⟨_, rfl, rfl⟩),
        (fun h => by cases h), ?_⟩
      rintro (h | ⟨g, h, h1, _⟩)
      · cases h
      · cases h; cases h1

/-- The extra text of an error. -/
def extraText : Option Err → Option Bytes
  | some (.extra _ t) => some t
  | _ => none

/-- What the check says of a value of the group. -/
def said (g : Any Bytes) : Option Bytes :=
  extraText (bigGroupChecker Sample.lib b!"T" [] (some [(b!"group", g)]) {}).2.2

/-- A group that is not nested deeply enough, one with a field of another name, one with a
group of another name, no group. -/
example : said (.map [(b!"count", .num b!"1")]) = some b!"T: maxDepth 0 != 5 limit" ∧
    said (.map [(b!"kount", .num b!"1")]) = some b!"T: non-group value kount" ∧
    said (.map [(b!"grup-0", .map [])]) = some b!"T: bad prefix grup-0 != group" ∧
    said (.str []) = some b!"T: not a group" := by
  decide +kernel

/-- The full statement of C69 (its second half): a line without a proper group is
reported. -/
def C69_statement : Prop :=
  ∀ (F : Type) (L : Lib F) (testName captured : Bytes) (x : AMap F) (m : Manager), (Any.map x).Ok →
    (bigGroupChecker L testName captured (some x) m).2.2 = none →
    ∃ g, Map.get x b!"group" = some g ∧ g.MapAt []

/-- C69 is false: a line in which the group is missing passes. -/
theorem C69_fails : ¬ C69_statement := by
  intro h
  obtain ⟨g, hg, _⟩ := h Bytes Sample.lib b!"T" [] [] {} (.map .nil fun _ h => by cases h) rfl
  cases hg

/-- A group with two children and one grandchild each, from the attribute to the check. -/
example : ((attrMembers Flash.Sample.env [] .ideal
      (bigGroupBuilder (fun i => if i = 0 then 1 else 0) 2 3 b!"g" 0).1).bind fun ms =>
    ms.head?.bind fun e => (toAny Sample.num e.2).map fun a =>
      match bigGroupCheck a 0 b!"g" with
      | .ok n => n
      | .error _ => 99) = some 2 := by
  decide +kernel

end Verif.Props.BenchChecks
