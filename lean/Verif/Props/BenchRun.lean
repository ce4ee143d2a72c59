import Verif.Bench.Run
import Verif.Props.BenchFiled
import Verif.Props.CountWriter

/-
C85: every benchmark of the suite is measured once, or there is a warning that it is not.
-/

set_option linter.unusedSimpArgs false

namespace Verif.Props.BenchRun
open Go Verif.Warning Verif.Bench Verif.Tools Verif.Props.CountWriter

variable {F : Type} [DecidableEq F]

/-! ### Specification -/

/-- The benchmarks that log with a logger made from the options. -/
def plainNames : List Bytes :=
  [b!"Attributes", b!"BigGroup", b!"Disabled", b!"KeyValues", b!"Logging", b!"Simple", b!"SimpleSource"]

/-- The benchmarks that need a handler, to give it attributes or a group. -/
def handlerNames : List Bytes :=
  [b!"WithAttrsAttributes", b!"WithAttrsKeyValues", b!"WithAttrsSimple", b!"WithGroupAttributes", b!"WithGroupKeyValues"]

/-- The benchmarks that can be run with a creator. -/
def possible (s : Subject) : List Bytes := if s.canMake then plainNames ++ handlerNames else plainNames

/-- The others. -/
def impossible (s : Subject) : List Bytes := if s.canMake then [] else handlerNames

/-- The name of the benchmark of an outcome. -/
def test : Outcome → Bytes
  | .result t _ _ => t
  | .failed t _ _ => t

/-- The benchmarks that are not to write one line for each execution. -/
def uncounted : List Bytes := [b!"Disabled", b!"Logging"]

/-- One line for each execution. -/
def Agrees (name : Bytes) (r : Round) : Prop := name ∈ uncounted ∨ lines r.writes = r.n

/-- What is printed after the rounds: the number of executions of the last round if all
agree, otherwise the numbers of the first that does not. -/
def Measured (name : Bytes) (bytes : Nat) (rs : List Round) (o : Outcome) : Prop :=
  (∀ r ∈ rs, Agrees name r) ∧ o = .result name ((rs.getLast?.map Round.n).getD 0) bytes ∨
  ∃ pre r post, rs = pre ++ r :: post ∧ (∀ r ∈ pre, Agrees name r) ∧ ¬ Agrees name r ∧
    ∃ c : UInt64, c.toNat = lines r.writes ∧ o = .failed name r.n c

/-- Counts fit into 63 bits. -/
def Small (rs : List Round) : Prop := ∀ r ∈ rs, r.n < 2 ^ 63 ∧ lines r.writes < 2 ^ 63

/-- The benchmarks reported as left out. -/
def leftOut (m : Manager) : List Bytes := (instancesOf m b!"NoHandlerCreation").map Instance.function

/-! ### Measuring -/

theorem written_int {ws : List Bytes} (h : lines ws < 2 ^ 63) :
    (({} : CountWriter).writeAll ws).written.toInt64.toInt = (lines ws : Int) := by
  have hc := (C50_counts ws).2.1 (by omega)
  generalize (({} : CountWriter).writeAll ws).written = c at hc
  rw [← hc] at h ⊢
  have : c.toInt64.toInt = c.toBitVec.toInt := rfl
  rw [this, BitVec.toInt_eq_toNat_of_lt (by show 2 * c.toNat < _; omega)]
  rfl

theorem mismatched_iff {b : Benchmark} (hb : b.dontCount = decide (b.name ∈ uncounted)) {r : Round} (h : lines r.writes < 2 ^ 63) :
    mismatched b r (({} : CountWriter).writeAll r.writes).written = true ↔ ¬ Agrees b.name r := by
  unfold mismatched Agrees
  rw [written_int h, hb]
  simp only [Bool.and_eq_true, Bool.not_eq_eq_eq_not, Bool.not_true, decide_eq_false_iff_not, bne_iff_ne, ne_eq, not_or, Int.natCast_inj]
  constructor
  · rintro ⟨h1, h2⟩; exact ⟨h1, fun e => h2 e.symm⟩
  · rintro ⟨h1, h2⟩; exact ⟨h1, fun e => h2 e.symm⟩

theorem measure_spec {b : Benchmark} (hb : b.dontCount = decide (b.name ∈ uncounted)) (bytes : Nat) : ∀ (rs : List Round) (last : Nat), Small rs →
    ((∀ r ∈ rs, Agrees b.name r) ∧ measureAll b bytes last rs = .result b.name ((rs.getLast?.map Round.n).getD last) bytes ∨
    ∃ pre r post, rs = pre ++ r :: post ∧ (∀ r ∈ pre, Agrees b.name r) ∧ ¬ Agrees b.name r ∧
      ∃ c : UInt64, c.toNat = lines r.writes ∧ measureAll b bytes last rs = .failed b.name r.n c)
  | [], last, _ => .inl ⟨by simp, rfl⟩
  | r :: rs, last, h => by
    have hr := h r List.mem_cons_self
    by_cases hm : mismatched b r (({} : CountWriter).writeAll r.writes).written = true
    · refine .inr ⟨[], r, rs, rfl, by simp, (mismatched_iff hb hr.2).1 hm, (({} : CountWriter).writeAll r.writes).written,
        (C50_counts _).2.1 (by omega), ?_⟩
      unfold measureAll
      dsimp only
      rw [if_pos hm]
    · have ha : Agrees b.name r := by
        by_cases ha : Agrees b.name r
        · exact ha
        · exact absurd ((mismatched_iff hb hr.2).2 ha) hm
      have e : measureAll b bytes last (r :: rs) = measureAll b bytes r.n rs := by
        rw [measureAll]
        rw [if_neg hm]
      rw [e]
      rcases measure_spec hb bytes rs r.n (fun x hx => h x (List.mem_cons_of_mem _ hx)) with ⟨h1, h2⟩ | ⟨pre, r', post, h1, h2, h3⟩
      · refine .inl ⟨fun x hx => ?_, ?_⟩
        · rcases List.mem_cons.1 hx with rfl | hx
          · exact ha
          · exact h1 x hx
        · rw [h2]
          cases rs with
          | nil => rfl
          | cons r' rs => rfl
      · refine .inr ⟨r :: pre, r', post, by rw [h1]; rfl, fun x hx => ?_, h3⟩
        rcases List.mem_cons.1 hx with rfl | hx
        · exact ha
        · exact h2 x hx

theorem measured {b : Benchmark} (hb : b.dontCount = decide (b.name ∈ uncounted)) (bytes : Nat) {rs : List Round} (h : Small rs) :
    Measured b.name bytes rs (measureAll b bytes 0 rs) := measure_spec hb bytes rs 0 h

theorem measure_test (b : Benchmark) (bytes : Nat) : ∀ (rs : List Round) (last : Nat), test (measureAll b bytes last rs) = b.name
  | [], _ => rfl
  | r :: rs, last => by
    rw [measureAll]
    split
    · rfl
    · exact measure_test b bytes rs r.n

/-! ### The loop -/

/-- What is needed of a benchmark. -/
structure Sound (b : Benchmark) : Prop where
  counted : b.dontCount = decide (b.name ∈ uncounted)
  checked : ∀ captured m m' e, b.check captured m = some (m', e) → leftOut m' = leftOut m

/-- A benchmark that is skipped. -/
def skips (s : Subject) (b : Benchmark) : Bool := !b.ops.isEmpty && !s.canMake

theorem leftOut_add (m : Manager) (fn record : Bytes) : leftOut (m.addWarningFn noHandlerCreation fn record) = leftOut m ++ [fn] := by
  obtain ⟨r, e⟩ := instancesOf_add m noHandlerCreation fn [] record b!"NoHandlerCreation"
  rw [if_pos (show b!"NoHandlerCreation" = noHandlerCreation.name from rfl)] at e
  unfold leftOut
  rw [show m.addWarningFn noHandlerCreation fn record = m.addWarningFnText noHandlerCreation fn [] record from rfl, e]
  simp

theorem loop_spec {s : Subject} {jt : Bool} {rounds : Benchmark → List Round} : ∀ {bs : List Benchmark} {m m' : Manager} {outs : List Outcome},
    (∀ b ∈ bs, Sound b ∧ Small (rounds b)) → runLoop s jt rounds bs m = some (outs, m') →
    (if jt then outs = [] else outs.map test = (bs.filter fun b => !skips s b).map Benchmark.name) ∧
    (∀ b ∈ bs, skips s b = false → ∃ ws, s.output b = some ws ∧ (∃ m1 m2 e, b.check ws.flatten m1 = some (m2, e)) ∧
      (jt = false → ∃ o ∈ outs, Measured b.name ws.flatten.length (rounds b) o)) ∧
    leftOut m' = leftOut m ++ (bs.filter (skips s)).map fun b => b!"Benchmark" ++ b.name
  | [], m, m', outs, _, h => by
    rw [runLoop] at h
    cases h
    refine ⟨by cases jt <;> rfl, by simp, by simp⟩
  | b :: bs, m, m', outs, hs, h => by
    rw [runLoop] at h
    obtain ⟨r, e⟩ : ∃ r, r = runOne s jt rounds b m := ⟨_, rfl⟩
    rw [← e] at h
    cases r with
    | none => cases h
    | some r =>
      obtain ⟨o1, m1⟩ := r
      dsimp only at h
      obtain ⟨r2, e2⟩ : ∃ r2, r2 = runLoop s jt rounds bs m1 := ⟨_, rfl⟩
      rw [← e2] at h
      cases r2 with
      | none => cases h
      | some r2 =>
        obtain ⟨o2, m2⟩ := r2
        cases h
        obtain ⟨i1, i2, i3⟩ := loop_spec (fun b hb => hs b (List.mem_cons_of_mem _ hb)) e2.symm
        have hb := hs b List.mem_cons_self
        by_cases hk : skips s b = true
        · unfold runOne at e
          have hk' : (!b.ops.isEmpty && !s.canMake) = true := hk
          rw [if_pos hk'] at e
          cases e
          refine ⟨?_, fun b' hb' hn => ?_, ?_⟩
          · rw [List.filter_cons_of_neg (by simp [hk])]; exact i1
          · rcases List.mem_cons.1 hb' with rfl | hb'
            · rw [hk] at hn; cases hn
            · exact i2 b' hb' hn
          · rw [List.filter_cons_of_pos hk, i3, leftOut_add]
            simp [methodPrefix]
        · have hk2 : skips s b = false := by simpa using hk
          unfold runOne at e
          have hk' : (!b.ops.isEmpty && !s.canMake) = false := hk2
          rw [hk', if_neg (by simp)] at e
          cases ho : s.output b with
          | none => rw [ho] at e; cases e
          | some ws =>
            rw [ho] at e
            dsimp only at e
            cases hc : b.check ws.flatten m with
            | none => rw [hc] at e; cases e
            | some r =>
              obtain ⟨m3, err⟩ := r
              rw [hc] at e
              dsimp only at e
              have hl := hb.1.checked _ _ _ _ hc
              cases jt with
              | true =>
                rw [if_pos rfl] at e
                cases e
                refine ⟨i1, fun b' hb' hn => ?_, ?_⟩
                · rcases List.mem_cons.1 hb' with rfl | hb'
                  · exact ⟨ws, ho, ⟨_, _, _, hc⟩, by simp⟩
                  · exact i2 b' hb' hn
                · rw [List.filter_cons_of_neg (by simp [hk2]), i3, hl]
              | false =>
                rw [if_neg (by simp)] at e
                cases e
                refine ⟨?_, fun b' hb' hn => ?_, ?_⟩
                · rw [if_neg (by simp)] at i1 ⊢
                  rw [List.filter_cons_of_pos (by simp [hk2]), List.map_append, i1]
                  simp [measure_test]
                · rcases List.mem_cons.1 hb' with rfl | hb'
                  · exact ⟨ws, ho, ⟨_, _, _, hc⟩, fun _ => ⟨_, List.mem_append_left _ (List.mem_singleton.2 rfl), measured hb.1.counted _ hb.2⟩⟩
                  · obtain ⟨ws', h1, h2, h3⟩ := i2 b' hb' hn
                    exact ⟨ws', h1, h2, fun h => (h3 h).imp fun o ho => ⟨List.mem_append_right _ ho.1, ho.2⟩⟩
                · rw [List.filter_cons_of_neg (by simp [hk2]), i3, hl]

/-! ### The suite -/

theorem less_prefix (s t : Bytes) : less (methodPrefix ++ s) (methodPrefix ++ t) = less s t := by
  simp [methodPrefix, less]

section
variable {L : Lib F} {N : Nums F} {now : Nat} {rand : Nat → Fin 5} {logData : List (List Slog.Attr)}

theorem suite_facts : ∀ b ∈ benchmarks L N now rand logData,
    b.dontCount = decide (b.name ∈ uncounted) ∧ b.ops.isEmpty = decide (b.name ∉ handlerNames) := by
  intro b hb
  simp only [benchmarks, List.mem_cons, List.not_mem_nil, or_false] at hb
  rcases hb with rfl | rfl | rfl | rfl | rfl | rfl | rfl | rfl | rfl | rfl | rfl | rfl <;> exact ⟨rfl, rfl⟩

theorem sorted_names (S : Sorter) : (S.sort (fun a b => less (methodPrefix ++ a.name) (methodPrefix ++ b.name))
    (benchmarks L N now rand logData)).map Benchmark.name = plainNames ++ handlerNames := by
  simp only [less_prefix]
  have hw : StrictWeak fun a b : Benchmark => less a.name b.name := less_weak.comap Benchmark.name
  have hp := (S.perm (fun a b : Benchmark => less a.name b.name) (benchmarks L N now rand logData)).map Benchmark.name
  have hs := S.sorted (fun a b : Benchmark => less a.name b.name) (benchmarks L N now rand logData) hw
  have h1 : ((S.sort (fun a b : Benchmark => less a.name b.name) (benchmarks L N now rand logData)).map Benchmark.name).Pairwise
      fun a b => less b a = false := List.pairwise_map.2 hs
  have h2 : (plainNames ++ handlerNames).Pairwise fun a b => less b a = false := by decide +kernel
  have h3 : ((benchmarks L N now rand logData).map Benchmark.name).Perm (plainNames ++ handlerNames) := by
    show List.Perm [b!"Disabled", b!"Simple", b!"SimpleSource", b!"Attributes", b!"KeyValues", b!"WithAttrsSimple", b!"WithAttrsAttributes",
      b!"WithAttrsKeyValues", b!"WithGroupAttributes", b!"WithGroupKeyValues", b!"BigGroup", b!"Logging"] _
    decide +kernel
  refine List.Perm.eq_of_pairwise (fun a b _ _ h h' => ?_) h1 h2 (hp.trans h3)
  rcases less_total a b with e | e | e
  · rw [e] at h'; cases h'
  · exact e
  · rw [e] at h; cases h

theorem suite_sound {x : Bytes} (hx : BenchFiled.HandlerWord x) (hf : L.fn = b!"Benchmark" ++ x) : ∀ b ∈ benchmarks L N now rand logData, Sound b := by
  intro b hb
  refine ⟨(suite_facts b hb).1, fun captured m m' e h => ?_⟩
  obtain ⟨new, e, hn⟩ := (BenchFiled.suite_goes hx hf hb h).instances b!"NoHandlerCreation"
  have : new = [] := by
    cases new with
    | nil => rfl
    | cons i new =>
      obtain ⟨w, hw, tag, hp, _⟩ := hn i List.mem_cons_self
      rw [hw] at hp
      generalize hk : b!"NoHandlerCreation" = k at hp
      cases hp with
      | error => exact absurd hk (by decide)
      | unused => exact absurd hk (by decide)
      | disabled => exact absurd hk (by decide)
      | large => exact absurd hk (by decide)
      | simple => exact absurd hk (by decide)
      | whole _ h => subst hk; rcases h with h | h <;> exact absurd h (by decide)
      | source _ h => subst hk; rcases h with h | h <;> exact absurd h (by decide)
      | part _ h => subst hk; rcases h with h | h <;> exact absurd h (by decide)
  unfold leftOut
  rw [e, this, List.append_nil]

theorem filter_names {l : List Benchmark} {p : Benchmark → Bool} {q : Bytes → Bool} (h : ∀ b ∈ l, p b = q b.name) :
    (l.filter p).map Benchmark.name = (l.map Benchmark.name).filter q := by
  induction l with
  | nil => rfl
  | cons b l ih =>
    have := h b List.mem_cons_self
    have ih := ih fun b hb => h b (List.mem_cons_of_mem _ hb)
    cases hp : p b with
    | true => rw [hp] at this; simp [hp, ← this, ih]
    | false => rw [hp] at this; simp [hp, ← this, ih]

theorem skips_eq (s : Subject) : ∀ b ∈ benchmarks L N now rand logData, skips s b = (decide (b.name ∈ handlerNames) && !s.canMake) := by
  intro b hb
  unfold skips
  rw [(suite_facts b hb).2]
  simp

/-- C85: if the run comes to its end, what is printed are the outcomes of the benchmarks that
are possible with the creator, each once and in the order of names. Each is the result of
its rounds with the size of its output: the executions of the last round, or a failure of
the first round that has not written one line for each execution. For exactly the others
there is a warning that the handler cannot be made. With `-justTests` nothing is measured
but everything is verified. -/
theorem C85_run (S : Sorter) (stack : List Bytes) (s : Subject) (jt : Bool) (rounds : Benchmark → List Round) {x : Bytes}
    (hx : BenchFiled.HandlerWord x) (hf : L.fn = b!"Benchmark" ++ x) (hr : ∀ b ∈ benchmarks L N now rand logData, Small (rounds b))
    {m m' : Manager} {line : Bytes} {outs : List Outcome}
    (h : run S stack s jt rounds (benchmarks L N now rand logData) m = some (line, outs, m')) :
    outs.map test = (if jt then [] else possible s) ∧
    (∀ b ∈ benchmarks L N now rand logData, b.name ∈ possible s → ∃ ws, s.output b = some ws ∧
      (∃ m1 m2 e, b.check ws.flatten m1 = some (m2, e)) ∧ (jt = false → ∃ o ∈ outs, Measured b.name ws.flatten.length (rounds b) o)) ∧
    leftOut m' = leftOut m ++ (impossible s).map (b!"Benchmark" ++ ·) := by
  unfold run at h
  have hperm := S.perm (fun a b : Benchmark => less (methodPrefix ++ a.name) (methodPrefix ++ b.name)) (benchmarks L N now rand logData)
  have hn := sorted_names (L := L) (N := N) (now := now) (rand := rand) (logData := logData) S
  generalize hl : S.sort (fun a b : Benchmark => less (methodPrefix ++ a.name) (methodPrefix ++ b.name)) (benchmarks L N now rand logData) = l at *
  obtain ⟨r, e⟩ : ∃ r, r = runLoop s jt rounds l m := ⟨_, rfl⟩
  rw [← e] at h
  cases r with
  | none => cases h
  | some r =>
    obtain ⟨o, m1⟩ := r
    cases h
    have mem : ∀ b ∈ l, b ∈ benchmarks L N now rand logData := fun b hb => hperm.mem_iff.1 hb
    obtain ⟨h1, h2, h3⟩ := loop_spec (fun b hb => ⟨suite_sound hx hf b (mem b hb), hr b (mem b hb)⟩) e.symm
    refine ⟨?_, fun b hb hp => h2 b (hperm.mem_iff.2 hb) ?_, ?_⟩
    · cases jt with
      | true => rw [if_pos rfl] at h1; rw [h1]; rfl
      | false =>
        rw [if_neg (by simp)] at h1 ⊢
        rw [h1, filter_names (q := fun n => !(decide (n ∈ handlerNames) && !s.canMake)) (fun b hb => by rw [skips_eq s b (mem b hb)]), hn]
        unfold possible
        cases s.canMake <;> decide +kernel
    · rw [skips_eq s b hb]
      unfold possible at hp
      cases hc : s.canMake with
      | true => simp
      | false =>
        rw [hc] at hp
        have : ∀ n ∈ plainNames, n ∉ handlerNames := by decide
        simp [this _ hp]
    · rw [h3]
      congr 1
      have := congrArg (List.map (b!"Benchmark" ++ ·)) (filter_names (l := l) (p := skips s)
        (q := fun n => decide (n ∈ handlerNames) && !s.canMake) (fun b hb => skips_eq s b (mem b hb)))
      rw [List.map_map, hn] at this
      refine Eq.trans this ?_
      congr 1
      unfold impossible
      cases s.canMake <;> decide +kernel

end

/-! ### Flash -/

section
open Verif.Slog Verif.Flash Verif.Props.BenchFlash Verif.Json Verif.LogTree

theorem call_flat (h : H) (c : Call) (t pc : Nat) : (callWrites h c t pc).flatten = logCall h c t pc := by
  unfold callWrites logCall
  split
  · split <;> simp_all
  · rfl

theorem execution_flat (h : H) (clock : Nat → Nat × Nat) : ∀ (cs : List Call) (i : Nat), (execution h clock i cs).flatten = logCalls h clock i cs
  | [], _ => rfl
  | c :: cs, i => by rw [execution, logCalls, List.flatten_append, call_flat, execution_flat h clock cs]

theorem call_one {h : H} {c : Call} {t pc : Nat} {b : Bytes} (e : logCall h c t pc = b ++ [0x0A]) : callWrites h c t pc = [b ++ [0x0A]] := by
  unfold logCall at e
  unfold callWrites
  split
  · rename_i he
    rw [if_pos he] at e
    split
    · rename_i b' e'
      rw [e'] at e
      rw [← e]
    · rename_i hn
      split at e
      · rename_i b' e'; exact absurd e' (hn b')
      · simp at e
  · rename_i he
    rw [if_neg he] at e
    simp at e

theorem one_line {b : Bytes} : lines [b ++ [0x0A]] = 1 := by
  unfold lines
  rw [List.countP_cons_of_pos (by simpa using ⟨b, rfl⟩)]
  rfl

variable {env : Slog.Env} {clock : Nat → Nat × Nat} {now : Nat} {L : Lib F} {N : Nums F} {rand : Nat → Fin 5} {logData : List (List Slog.Attr)}

/-- An execution of a counted benchmark writes one line. -/
theorem execution_line (W : World env clock now) : ∀ b ∈ benchmarks L N now rand logData, b.name ∉ uncounted → ∀ h, flashHandler env b = some h →
    ∀ i, lines (execution h clock i b.calls) = 1 := by
  have hst := W.stack
  have key : ∀ (b : Benchmark) (attrs : List Slog.Attr), b.calls = info attrs → OpsClean env defaultTimeFormat b.ops → opsDepth b.ops < env.stack →
      ListClean env defaultTimeFormat attrs → listDepth attrs < env.stack → ∀ h, flashHandler env b = some h →
      ∀ i, lines (execution h clock i b.calls) = 1 := by
    intro b attrs hc h1 h2 h3 h4 h hh i
    obtain ⟨h', hh', hw⟩ := flash_writes W b h1 h2
    rw [hh] at hh'
    cases hh'
    obtain ⟨t, _, e, _⟩ := hw i message attrs (by decide) h3 h4
    rw [hc]
    unfold info
    rw [execution, execution, call_one e, List.append_nil, one_line]
  have d0 : ∀ l : List Attr, listDepth l ≤ 1 → listDepth l < env.stack := fun l h => by omega
  have dAll : listDepth (allAttributes now) < env.stack := d0 _ (Nat.le_of_eq rfl)
  have dWith : opsDepth [.attrs (withAttributes now)] < env.stack := by
    have : opsDepth [.attrs (withAttributes now)] ≤ 1 := Nat.le_of_eq rfl
    omega
  have cWith : OpsClean env defaultTimeFormat [.attrs (withAttributes now)] := ⟨with_clean W.now, trivial⟩
  have cNil : OpsClean env defaultTimeFormat [] := trivial
  have cGroup : OpsClean env defaultTimeFormat [.group b!"withGroup"] := ⟨by decide, trivial⟩
  have dNil : opsDepth [] < env.stack := by show 0 < _; omega
  have dGroup : opsDepth [.group b!"withGroup"] < env.stack := by show 0 < _; omega
  have d1 := d0 [] (by decide)
  intro b hb hu
  simp only [benchmarks, List.mem_cons, List.not_mem_nil, or_false] at hb
  rcases hb with rfl | rfl | rfl | rfl | rfl | rfl | rfl | rfl | rfl | rfl | rfl | rfl
  · exact absurd (by dsimp only; decide) hu
  · exact key _ [] rfl cNil dNil trivial d1
  · exact key _ [] rfl cNil dNil trivial d1
  · exact key _ _ rfl cNil dNil (all_clean W.now) dAll
  · exact key _ _ rfl cNil dNil (all_clean W.now) dAll
  · exact key _ [] rfl cWith dWith trivial d1
  · exact key _ _ rfl cWith dWith (all_clean W.now) dAll
  · exact key _ _ rfl cWith dWith (all_clean W.now) dAll
  · exact key _ _ rfl cGroup dGroup (all_clean W.now) dAll
  · exact key _ _ rfl cGroup dGroup (all_clean W.now) dAll
  · obtain ⟨c1, c2⟩ := builder_clean env defaultTimeFormat rand bigGroupLimit (bigGroupLimit + 1) b!"group" 0 (by decide)
    refine key _ [bigGroup rand] rfl cNil dNil ⟨c1, trivial⟩ ?_
    have : attrDepth (bigGroup rand) ≤ 6 := c2
    simp only [listDepth]; omega
  · exact absurd (by dsimp only; decide) hu

/-- A round of a benchmark with flash: some goroutines execute it one time after the other,
together `n` times, and their writes come in any order; each execution begins at some
call of the clock. -/
def FlashRound (env : Slog.Env) (clock : Nat → Nat × Nat) (b : Benchmark) (r : Round) : Prop :=
  ∃ h, flashHandler env b = some h ∧ ∃ gs : List (List Nat),
    Interleaved (gs.map fun g => (g.map fun i => execution h clock i b.calls).flatten) r.writes ∧ (gs.map List.length).sum = r.n

theorem lines_append (a b : List Bytes) : lines (a ++ b) = lines a + lines b := by
  unfold lines
  rw [List.countP_append]

theorem interleaved_lines {ts : List (List Bytes)} {ws : List Bytes} (h : Interleaved ts ws) : lines ws = (ts.map lines).sum := by
  induction h with
  | @done ts h =>
    have : ∀ ts : List (List Bytes), (∀ t ∈ ts, t = []) → (ts.map lines).sum = 0 := by
      intro ts
      induction ts with
      | nil => intro _; rfl
      | cons t ts ih =>
        intro h
        rw [List.map_cons, List.sum_cons, ih fun t ht => h t (List.mem_cons_of_mem _ ht), h t List.mem_cons_self]
        rfl
    rw [this ts h]; rfl
  | @step a b p t ws _ ih =>
    have h1 : lines (p :: ws) = lines [p] + lines ws := lines_append [p] ws
    have h2 : lines (p :: t) = lines [p] + lines t := lines_append [p] t
    rw [h1, ih]
    simp only [List.map_append, List.map_cons, List.sum_append, List.sum_cons, h2]
    omega

theorem flash_agrees (W : World env clock now) {b : Benchmark} (hb : b ∈ benchmarks L N now rand logData) {r : Round}
    (hr : FlashRound env clock b r) : Agrees b.name r := by
  by_cases hu : b.name ∈ uncounted
  · exact .inl hu
  · obtain ⟨h, hh, gs, hi, hn⟩ := hr
    refine .inr ?_
    rw [interleaved_lines hi, ← hn, List.map_map]
    have h1 : ∀ g : List Nat, lines (g.map fun i => execution h clock i b.calls).flatten = g.length := by
      intro g
      induction g with
      | nil => rfl
      | cons i g ih =>
        rw [List.map_cons, List.flatten_cons, lines_append, ih, execution_line W b hb hu h hh i, List.length_cons]
        omega
    congr 1
    exact List.map_congr_left fun g _ => h1 g

/-- C85 for flash: all twelve benchmarks are measured, none fails, and there are no
warnings. -/
theorem C85_flash (S : Sorter) (stack : List Bytes) (name : Bytes) (W : World env clock now) {num : Bytes → Option F} (D : Decoding L N num)
    (hl : ∀ attrs ∈ logData, IsRequest attrs) {m : Manager} (hm : Unwarned L m) {rounds : Benchmark → List Round}
    (hr : ∀ b ∈ benchmarks L N now rand logData, Small (rounds b) ∧ ∀ r ∈ rounds b, FlashRound env clock b r) :
    ∃ outs, run S stack (flashSubject env clock name) false rounds (benchmarks L N now rand logData) m = some (handlerLine stack name, outs, m) ∧
      outs.map test = plainNames ++ handlerNames ∧
      ∀ b ∈ benchmarks L N now rand logData, ∃ bytes, .result b.name (((rounds b).getLast?.map Round.n).getD 0) bytes ∈ outs := by
  have one : ∀ b ∈ benchmarks L N now rand logData, ∃ bytes, runOne (flashSubject env clock name) false rounds b m =
      some ([.result b.name (((rounds b).getLast?.map Round.n).getD 0) bytes], m) := by
    intro b hb
    have hv := C70_flash W D rand hl hm b hb
    unfold verifyFlash at hv
    cases hh : flashHandler env b with
    | none => rw [hh] at hv; cases hv
    | some h =>
      rw [hh, Option.bind_some] at hv
      refine ⟨(execution h clock 0 b.calls).flatten.length, ?_⟩
      have ho : (flashSubject env clock name).output b = some (execution h clock 0 b.calls) := by
        show (flashHandler env b).map _ = _
        rw [hh]; rfl
      have hk : ¬ (!b.ops.isEmpty && !(flashSubject env clock name).canMake) = true := by
        show ¬ (!b.ops.isEmpty && !true) = true
        simp
      unfold runOne
      rw [if_neg hk, ho]
      dsimp only
      rw [execution_flat, hv]
      dsimp only
      rw [if_neg (by simp)]
      congr 3
      rcases measured (suite_facts b hb).1 (logCalls h clock 0 b.calls).length (hr b hb).1 with ⟨_, e⟩ | ⟨pre, r, post, e, _, hn, _⟩
      · exact e
      · exact absurd (flash_agrees W hb ((hr b hb).2 r (by rw [e]; simp))) hn
  have loop : ∀ l : List Benchmark, (∀ b ∈ l, b ∈ benchmarks L N now rand logData) → ∃ outs,
      runLoop (flashSubject env clock name) false rounds l m = some (outs, m) ∧ outs.map test = l.map Benchmark.name ∧
      ∀ b ∈ l, ∃ bytes, .result b.name (((rounds b).getLast?.map Round.n).getD 0) bytes ∈ outs := by
    intro l
    induction l with
    | nil => intro _; exact ⟨[], rfl, rfl, by simp⟩
    | cons b l ih =>
      intro h
      obtain ⟨outs, e1, e2, e3⟩ := ih fun b hb => h b (List.mem_cons_of_mem _ hb)
      obtain ⟨bytes, e⟩ := one b (h b List.mem_cons_self)
      refine ⟨_, by rw [runLoop, e]; dsimp only; rw [e1], by rw [List.map_append, e2]; rfl, fun b' hb' => ?_⟩
      rcases List.mem_cons.1 hb' with rfl | hb'
      · exact ⟨bytes, by simp⟩
      · obtain ⟨bytes, hb⟩ := e3 b' hb'
        exact ⟨bytes, List.mem_append_right _ hb⟩
  have hperm := S.perm (fun a b : Benchmark => less (methodPrefix ++ a.name) (methodPrefix ++ b.name)) (benchmarks L N now rand logData)
  obtain ⟨outs, e1, e2, e3⟩ := loop _ fun b hb => hperm.mem_iff.1 hb
  refine ⟨outs, ?_, by rw [e2, sorted_names], fun b hb => e3 b (hperm.mem_iff.2 hb)⟩
  unfold run
  rw [e1]
  rfl

end

/-! ### Cases -/

/-- A creator that makes loggers but no handlers, with the same output for all benchmarks. -/
def noHandler : Subject := ⟨b!"some/creator", false, fun _ => some [b!"{\"level\":\"INFO\",\"msg\":\"This is a message\"}\n"]⟩

/-- Two rounds; in the second of Simple a line is missing. -/
def someRounds (b : Benchmark) : List Round :=
  [⟨1, [b!"x\n"]⟩, ⟨3, if b.name = b!"Simple" then [b!"x\n", b!"y\n"] else [b!"x\n", b!"y\n", b!"z\n"]⟩]

set_option maxRecDepth 100000 in
example : (run someSorter [b!"main.BenchmarkX"] noHandler false someRounds BenchFiled.suite {}).map (fun r => (r.2.1, leftOut r.2.2)) =
    some ([.result b!"Attributes" 3 43, .result b!"BigGroup" 3 43, .result b!"Disabled" 3 43, .result b!"KeyValues" 3 43,
      .result b!"Logging" 3 43, .failed b!"Simple" 3 2, .result b!"SimpleSource" 3 43],
      [b!"BenchmarkWithAttrsAttributes", b!"BenchmarkWithAttrsKeyValues", b!"BenchmarkWithAttrsSimple",
        b!"BenchmarkWithGroupAttributes", b!"BenchmarkWithGroupKeyValues"]) := by decide +kernel

example : ∀ b, Small (someRounds b) := by
  intro b r hr
  simp only [someRounds, List.mem_cons, List.not_mem_nil, or_false] at hr
  rcases hr with rfl | rfl
  · decide
  · dsimp only
    split <;> decide

/-- Rounds of flash: one with one execution, one with two goroutines. -/
example (h : Verif.Flash.H) (b : Benchmark) (hh : flashHandler Flash.Sample.env b = some h) (clock : Nat → Nat × Nat) :
    FlashRound Flash.Sample.env clock b ⟨2, execution h clock 5 b.calls ++ execution h clock 7 b.calls⟩ := by
  refine ⟨h, hh, [[5, 7]], ?_, rfl⟩
  have : ∀ ws : List Bytes, Interleaved [ws] ws := by
    intro ws
    induction ws with
    | nil => exact .done (by simp)
    | cons w ws ih => exact .step (a := []) ih
  simpa using this _

end Verif.Props.BenchRun
