import Verif.Data.BenchFields
import Verif.Props.BenchData

/-
C59: the lines that `go test -bench` prints for benchmarks are read.
-/

set_option linter.unusedSimpArgs false

namespace Verif.Props.BenchLines
open Go Slog Verif.Warning Verif.Data BenchData

variable {F : Type}

/-! ### Specification -/

/-- The result of a benchmark: times and rates as they are written. -/
structure Result where
  handler : Bytes
  test : Bytes
  procs : Nat
  runs : Nat
  nanos : Bytes
  rate : Option Bytes
  /-- Bytes and allocations. -/
  mem : Option (Nat × Nat)

/-- The white space in a line. -/
structure Gaps where
  runs : Bytes
  nanos : Bytes
  rate : Bytes
  bytes : Bytes
  allocs : Bytes

/-- All of it is white space. -/
structure Gaps.Ok (g : Gaps) : Prop where
  runs : Many isS g.runs
  nanos : Many isS g.nanos
  rate : Many isS g.rate
  bytes : Many isS g.bytes
  allocs : Many isS g.allocs

/-- The number of processors at the end of the name of a benchmark: package testing
writes it unless it is 1. -/
def suffix (procs : Nat) : Bytes := if procs = 1 then [] else b!"-" ++ decNat procs

/-- The rate in a line. -/
def rateText (g : Gaps) : Option Bytes → Bytes
  | none => []
  | some r => g.rate ++ r ++ b!" MB/s"

/-- Bytes and allocations in a line. -/
def memText (g : Gaps) : Option (Nat × Nat) → Bytes
  | none => []
  | some (b, a) => g.bytes ++ decNat b ++ b!" B/op" ++ g.allocs ++ decNat a ++ b!" allocs/op"

/-- The line that package testing prints. -/
def lineOf (g : Gaps) (r : Result) : Bytes :=
  b!"Benchmark" ++ r.handler ++ b!"/Benchmark" ++ r.test ++ suffix r.procs ++ g.runs ++ decNat r.runs ++
    g.nanos ++ r.nanos ++ b!" ns/op" ++ rateText g r.rate ++ memText g r.mem

/-- Names and numbers of a result. -/
structure Result.Ok (r : Result) : Prop where
  handler : r.handler ≠ [] ∧ Word' r.handler ∧ 0x2F ∉ r.handler
  test : r.test ≠ [] ∧ Word' r.test ∧ 0x2D ∉ r.test
  procs : r.procs < 2 ^ 64
  runs : r.runs < 2 ^ 64
  nanos : Decimal r.nanos
  rate : ∀ x ∈ r.rate, Decimal x
  mem : ∀ x ∈ r.mem, x.1 < 2 ^ 64 ∧ x.2 < 2 ^ 64

/-- The number of a rate. -/
def rateOf (fl : Floats F) : Option Bytes → Option F
  | none => some fl.zero
  | some x => fl.parse x

/-- What is to be known of it. -/
def Result.data (fl : Floats F) (r : Result) : Option (Data F) := do
  let ns ← fl.parse r.nanos
  let mb ← rateOf fl r.rate
  return { handler := r.handler, test := r.test, cpus := r.procs, runs := r.runs, nsOps := ns
           allocsOp := (r.mem.map Prod.snd).getD 0, bytesOp := (r.mem.map Prod.fst).getD 0, mbSec := mb }

/-- C59 as stated: every result is read. -/
def C59_statement : Prop := ∀ (E : Verif.Data.Env) (fl : Floats Term) (b : Bench Term) (g : Gaps) (r : Result) (d : Data Term),
  g.Ok → r.Ok → r.data fl = some d → b.line E fl (lineOf g r) = some (b.store E fl d)

/-! ### Proof -/

theorem isD_isDigit (a : UInt8) : isD a = Json.isDigit a := rfl

theorem dec_many (n : Nat) : Many isD (decNat n) := by
  refine ⟨?_, fun a ha => ?_⟩
  · by_cases h : n = 0
    · subst h; rw [decNat]; simp
    · obtain ⟨d, s, e, _⟩ := decNat_head h
      rw [e]; simp
  · have := decNat_digits n
    rw [List.all_eq_true] at this
    exact this a ha

theorem parse_dec {n : Nat} (h : n < 2 ^ 64) : parseUint64 (decNat n) = some n := by
  unfold parseUint64
  rw [readNat_decNat]
  simp only
  rw [if_pos h]

theorem gap_stops {s t : Bytes} (h : Many isS s) : Stops (s ++ t) := by
  obtain ⟨c, t', e, hc⟩ := many_first (t := t) h
  intro a x e'
  rw [e] at e'; cases e'; exact hc

theorem nil_stops : Stops [] := by intro a t e; cases e

theorem one_space : Many isS b!" " := ⟨by simp, by decide⟩

theorem rate_stops {g : Gaps} (hg : g.Ok) (r : Option Bytes) (t : Bytes) (ht : Stops t) : Stops (rateText g r ++ t) := by
  cases r with
  | none => exact ht
  | some r => simp only [rateText, List.append_assoc]; exact gap_stops hg.rate

theorem mem_stops {g : Gaps} (hg : g.Ok) (m : Option (Nat × Nat)) : Stops (memText g m) := by
  cases m with
  | none => exact nil_stops
  | some m => obtain ⟨b, a⟩ := m; simp only [memText, List.append_assoc]; exact gap_stops hg.bytes

/-- What follows a gap is one thing. -/
theorem gap_unique {sp u sp' w t : Bytes} (hs : Many isS sp) (hs' : Many isS sp') (hw : ∀ a x, w ++ t = a :: x → isS a = false) (hw0 : w ≠ [])
    {unit : Bytes} (hu : ∀ a x, unit = a :: x → isS a = false) (hun : unit ≠ []) (e : sp' ++ (w ++ t) = sp ++ u) (hp : unit <+: u) : u = w ++ t := by
  obtain ⟨q, rfl⟩ := hp
  obtain ⟨c, unit, rfl⟩ := List.exists_cons_of_ne_nil hun
  obtain ⟨d, w, rfl⟩ := List.exists_cons_of_ne_nil hw0
  have hc := hu c unit rfl
  have hd := hw d (w ++ t) rfl
  have key : ∀ (x y : Bytes), (∀ a ∈ x, isS a = true) → (∀ a ∈ y, isS a = true) → x ++ (d :: w ++ t) = y ++ (c :: unit ++ q) →
      c :: unit ++ q = d :: w ++ t := by
    intro x
    induction x with
    | nil =>
      intro y _ hy e
      cases y with
      | nil => exact e.symm
      | cons b y =>
        simp only [List.nil_append, List.cons_append, List.cons.injEq] at e
        have := hy d (by simp [e.1])
        rw [hd] at this; cases this
    | cons a x ih =>
      intro y hx hy e
      cases y with
      | nil =>
        simp only [List.nil_append, List.cons_append, List.cons.injEq] at e
        have := hx c (by simp [e.1])
        rw [hc] at this; cases this
      | cons b y =>
        simp only [List.cons_append, List.cons.injEq] at e
        exact ih y (fun b hb => hx b (by simp [hb])) (fun b hb => hy b (by simp [hb])) e.2
  exact key sp' sp hs'.all hs.all e

/-- A word that is followed by something that is not the unit. -/
theorem not_unit {sp' w t unit : Bytes} (hs' : Many isS sp') (hw : ∀ a x, w ++ t = a :: x → isS a = false) (hw0 : w ≠ [])
    (hu : ∀ a x, unit = a :: x → isS a = false) (hun : unit ≠ []) (hne : ¬ unit <+: w ++ t) :
    ∀ sp u, sp' ++ (w ++ t) = sp ++ u → Many isS sp → ¬ unit <+: u := by
  intro sp u e hs hp
  have := gap_unique hs hs' hw hw0 hu hun e hp
  rw [this] at hp
  exact hne hp

theorem word_first {w t : Bytes} (h : Word' w) (h0 : w ≠ []) : ∀ a x, w ++ t = a :: x → isS a = false := by
  cases w with
  | nil => exact absurd rfl h0
  | cons b w => rintro a x e; cases e; exact h _ (by simp)

/-- A unit that does not start like a number. -/
theorem unit_number {w t : Bytes} (hw : Decimal w) {c : UInt8} {unit : Bytes} (hc : isD c = false) : ¬ c :: unit <+: w ++ t := by
  rintro ⟨q, e⟩
  have h : ∀ w' t', Many isD w' → c :: unit ++ q = w' ++ t' → False := by
    intro w' t' h e
    obtain ⟨hne, h⟩ := h
    cases w' with
    | nil => exact hne rfl
    | cons d w' =>
      simp only [List.cons_append, List.cons.injEq] at e
      have := h c (by simp [e.1])
      rw [hc] at this; cases this
  rcases hw with hw | ⟨a, b, rfl, ha, _⟩
  · exact h w t hw e
  · exact h a _ ha (by rw [e, List.append_assoc])

/-- The part of the line before the optional measurements is skipped. -/
theorem skip_main {X Q : Re} {c : UInt8} {unit : Bytes} (hf : IsField X Q (c :: unit)) (hc : isD c = false) (hs : isS c = false) (hn : c ≠ 0x6E)
    {g : Gaps} (hg : g.Ok) {r : Result} (hr : r.Ok) {name rest : Bytes} (hname : Word' name) (hrest : Stops rest)
    (hnext : ∀ sp u, rest = sp ++ u → Many isS sp → ¬ c :: unit <+: u) :
    (field X Q).findAny (name ++ (g.runs ++ (decNat r.runs ++ (g.nanos ++ (r.nanos ++ (b!" " ++ (b!"ns/op" ++ rest))))))) =
      (field X Q).findAny rest := by
  have hcu : ∀ a x, c :: unit = a :: x → isS a = false := by rintro a x e; cases e; exact hs
  rw [skip_word hname]
  rw [skip_gap hf hg.runs.all (many_digit_word (dec_many _)) (gap_stops hg.nanos)
    (not_unit hg.nanos (word_first (decimal_word hr.nanos).2 (decimal_word hr.nanos).1) (decimal_word hr.nanos).1 hcu (by simp)
      (unit_number hr.nanos hc))]
  rw [skip_gap hf hg.nanos.all (decimal_word hr.nanos).2 (gap_stops one_space)
    (not_unit one_space (word_first (w := b!"ns/op") (by unfold Word'; decide) (by simp)) (by simp) hcu (by simp) (by
      rintro ⟨q, e⟩
      rw [List.cons_append, List.cons_append, List.cons.injEq] at e
      exact hn e.1))]
  exact skip_gap hf one_space.all (w := b!"ns/op") (by unfold Word'; decide) hrest hnext

theorem next_rate {g : Gaps} (hg : g.Ok) {r : Result} (hr : r.Ok) {c : UInt8} {unit t : Bytes} (hc : isD c = false) (hs : isS c = false)
    {x : Bytes} (hx : r.rate = some x) : ∀ sp u, rateText g r.rate ++ t = sp ++ u → Many isS sp → ¬ c :: unit <+: u := by
  have hd := hr.rate x (by rw [hx]; rfl)
  rw [hx]
  simp only [rateText, List.append_assoc]
  exact not_unit hg.rate (word_first (decimal_word hd).2 (decimal_word hd).1) (decimal_word hd).1 (by rintro a x e; cases e; exact hs)
    (by simp) (unit_number hd hc)

theorem next_mem {g : Gaps} (hg : g.Ok) (m : Option (Nat × Nat)) {c : UInt8} {unit : Bytes} (hc : isD c = false) (hs : isS c = false) :
    ∀ sp u, memText g m = sp ++ u → Many isS sp → ¬ c :: unit <+: u := by
  cases m with
  | none =>
    intro sp u e hsp _
    simp only [memText] at e
    have := hsp.ne
    cases sp with
    | nil => exact this rfl
    | cons a sp => simp at e
  | some m =>
    obtain ⟨b, a⟩ := m
    simp only [memText, List.append_assoc]
    exact not_unit hg.bytes (word_first (many_digit_word (dec_many _)) (dec_many _).ne) (dec_many _).ne
      (by rintro a x e; cases e; exact hs) (by simp) (unit_number (.inl (dec_many _)) hc)

theorem next_rate' {g : Gaps} (hg : g.Ok) {r : Result} (hr : r.Ok) {c : UInt8} {unit : Bytes} (hc : isD c = false) (hs : isS c = false) :
    ∀ sp u, rateText g r.rate ++ memText g r.mem = sp ++ u → Many isS sp → ¬ c :: unit <+: u := by
  cases hx : r.rate with
  | none => exact next_mem hg r.mem hc hs
  | some x => rw [← hx]; exact next_rate hg hr hc hs hx

/-- The rate is skipped by the other patterns. -/
theorem skip_rate {X Q : Re} {c : UInt8} {unit : Bytes} (hf : IsField X Q (c :: unit)) (hc : isD c = false) (hs : isS c = false) (hn : c ≠ 0x4D)
    {g : Gaps} (hg : g.Ok) {r : Result} (hr : r.Ok) :
    (field X Q).findAny (rateText g r.rate ++ memText g r.mem) = (field X Q).findAny (memText g r.mem) := by
  cases hx : r.rate with
  | none => rfl
  | some x =>
    have hd := hr.rate x (by rw [hx]; rfl)
    have hcu : ∀ a x, c :: unit = a :: x → isS a = false := by rintro a x e; cases e; exact hs
    have : rateText g (some x) ++ memText g r.mem = g.rate ++ (x ++ (b!" " ++ (b!"MB/s" ++ memText g r.mem))) := by
      simp [rateText]
    rw [this, skip_gap hf hg.rate.all (decimal_word hd).2 (gap_stops one_space)
      (not_unit one_space (word_first (w := b!"MB/s") (by unfold Word'; decide) (by simp)) (by simp) hcu (by simp) (by
        rintro ⟨q, e⟩
        rw [List.cons_append, List.cons_append, List.cons.injEq] at e
        exact hn e.1))]
    exact skip_gap hf one_space.all (w := b!"MB/s") (by unfold Word'; decide) (mem_stops hg _) (next_mem hg _ hc hs)

/-- The name of the benchmark in a line. -/
def nameOf (r : Result) : Bytes := b!"Benchmark" ++ r.handler ++ b!"/Benchmark" ++ r.test ++ suffix r.procs

theorem name_word {r : Result} (hr : r.Ok) : Word' (nameOf r) := by
  have h1 : Word' b!"Benchmark" := by unfold Word'; decide
  have h2 : Word' b!"/Benchmark" := by unfold Word'; decide
  have app : ∀ {a b : Bytes}, Word' a → Word' b → Word' (a ++ b) := fun ha hb x hx => by
    rcases List.mem_append.1 hx with h | h
    · exact ha x h
    · exact hb x h
  refine app (app (app (app h1 hr.handler.2.1) h2) hr.test.2.1) ?_
  unfold suffix
  split
  · intro a ha; cases ha
  · exact app (by unfold Word'; decide) (many_digit_word (dec_many _))

theorem line_split (g : Gaps) (r : Result) : lineOf g r =
    nameOf r ++ (g.runs ++ (decNat r.runs ++ (g.nanos ++ (r.nanos ++ (b!" " ++ (b!"ns/op" ++ (rateText g r.rate ++ memText g r.mem))))))) := by
  simp [lineOf, nameOf]

theorem allocs_read {g : Gaps} (hg : g.Ok) {r : Result} (hr : r.Ok) :
    Data.optional ptnAllocsOp parseUint64 0 (lineOf g r) = some ((r.mem.map Prod.snd).getD 0) := by
  have e : ptnAllocsOp = field (plus isD) (.cat (.lit b!"allocs/op") .nw) := rfl
  unfold Data.optional
  rw [e, line_split, skip_main allocs_field (by decide) (by decide) (by decide) hg hr (name_word hr) (rate_stops hg _ _ (mem_stops hg _))
    (next_rate' hg hr (by decide) (by decide)), skip_rate allocs_field (by decide) (by decide) (by decide) hg hr]
  cases hm : r.mem with
  | none => rw [memText, field_nil]; rfl
  | some m =>
    obtain ⟨b, a⟩ := m
    have hlt := hr.mem (b, a) (by rw [hm]; rfl)
    have : memText g (some (b, a)) = g.bytes ++ (decNat b ++ (b!" " ++ (b!"B/op" ++ (g.allocs ++ (decNat a ++ (b!" " ++ (b!"allocs/op" ++ []))))))) := by
      simp [memText]
    rw [this, skip_gap allocs_field hg.bytes.all (many_digit_word (dec_many _)) (gap_stops one_space)
      (not_unit one_space (word_first (w := b!"B/op") (by unfold Word'; decide) (by simp)) (by simp) (by rintro a x e; cases e; decide) (by simp)
        (by rintro ⟨q, e⟩; simp at e)),
      skip_gap allocs_field one_space.all (w := b!"B/op") (by unfold Word'; decide) (gap_stops hg.allocs)
      (not_unit hg.allocs (word_first (many_digit_word (dec_many _)) (dec_many _).ne) (dec_many _).ne (by rintro a x e; cases e; decide) (by simp)
        (unit_number (.inl (dec_many _)) (by decide))),
      hit allocs_field hg.allocs one_space (digits_run (dec_many a)) (by rintro a x e; cases e; decide) (fun m => unit_run rfl m)]
    simp only [Option.map_some, Option.getD_some]
    have : Caps.text [(1, decNat a)] 1 = decNat a := by simp [Caps.text, Map.get_cons]
    rw [this, parse_dec hlt.2]

theorem bytes_read {g : Gaps} (hg : g.Ok) {r : Result} (hr : r.Ok) :
    Data.optional ptnBytesOp parseUint64 0 (lineOf g r) = some ((r.mem.map Prod.fst).getD 0) := by
  have e : ptnBytesOp = field (plus isD) (.cat (.lit b!"B/op") .nw) := rfl
  unfold Data.optional
  rw [e, line_split, skip_main bytes_field (by decide) (by decide) (by decide) hg hr (name_word hr) (rate_stops hg _ _ (mem_stops hg _))
    (next_rate' hg hr (by decide) (by decide)), skip_rate bytes_field (by decide) (by decide) (by decide) hg hr]
  cases hm : r.mem with
  | none => rw [memText, field_nil]; rfl
  | some m =>
    obtain ⟨b, a⟩ := m
    have hlt := hr.mem (b, a) (by rw [hm]; rfl)
    have : memText g (some (b, a)) = g.bytes ++ (decNat b ++ (b!" " ++ (b!"B/op" ++ (g.allocs ++ (decNat a ++ (b!" " ++ (b!"allocs/op" ++ []))))))) := by
      simp [memText]
    rw [this, hit bytes_field hg.bytes one_space (digits_run (dec_many b)) (by rintro a x e; cases e; decide)
      (fun m => unit_run (stops_word (gap_stops hg.allocs)) m)]
    simp only [Option.map_some, Option.getD_some]
    have : Caps.text [(1, decNat b)] 1 = decNat b := by simp [Caps.text, Map.get_cons]
    rw [this, parse_dec hlt.1]

theorem rate_read {fl : Floats F} {g : Gaps} (hg : g.Ok) {r : Result} (hr : r.Ok) :
    Data.optional ptnMbSec fl.parse fl.zero (lineOf g r) = rateOf fl r.rate := by
  have e : ptnMbSec = field decimal (.lit b!"MB/s") := rfl
  unfold Data.optional
  rw [e, line_split, skip_main mb_field (by decide) (by decide) (by decide) hg hr (name_word hr) (rate_stops hg _ _ (mem_stops hg _))
    (next_rate' hg hr (by decide) (by decide))]
  cases hx : r.rate with
  | none =>
    simp only [rateText, List.nil_append]
    cases hm : r.mem with
    | none => rw [memText, field_nil]; rfl
    | some m =>
      obtain ⟨b, a⟩ := m
      have : memText g (some (b, a)) = g.bytes ++ (decNat b ++ (b!" " ++ (b!"B/op" ++ (g.allocs ++ (decNat a ++ (b!" " ++ (b!"allocs/op" ++ []))))))) := by
        simp [memText]
      rw [this, skip_gap mb_field hg.bytes.all (many_digit_word (dec_many _)) (gap_stops one_space)
        (not_unit one_space (word_first (w := b!"B/op") (by unfold Word'; decide) (by simp)) (by simp) (by rintro a x e; cases e; decide) (by simp)
          (by rintro ⟨q, e⟩; simp at e)),
        skip_gap mb_field one_space.all (w := b!"B/op") (by unfold Word'; decide) (gap_stops hg.allocs)
        (not_unit hg.allocs (word_first (many_digit_word (dec_many _)) (dec_many _).ne) (dec_many _).ne (by rintro a x e; cases e; decide) (by simp)
          (unit_number (.inl (dec_many _)) (by decide))),
        skip_gap mb_field hg.allocs.all (many_digit_word (dec_many _)) (gap_stops one_space)
        (not_unit one_space (word_first (w := b!"allocs/op") (by unfold Word'; decide) (by simp)) (by simp) (by rintro a x e; cases e; decide) (by simp)
          (by rintro ⟨q, e⟩; simp at e)),
        skip_gap mb_field one_space.all (w := b!"allocs/op") (by unfold Word'; decide) nil_stops
          (by intro sp u e hs _; exact hs.ne (List.append_eq_nil_iff.1 e.symm).1), field_nil]
      rfl
  | some x =>
    have hd := hr.rate x (by rw [hx]; rfl)
    have : rateText g (some x) ++ memText g r.mem = g.rate ++ (x ++ (b!" " ++ (b!"MB/s" ++ memText g r.mem))) := by
      simp [rateText]
    rw [this, hit mb_field hg.rate one_space (decimal_run hd) (by rintro a x e; cases e; decide) (fun m => run_lit _ _ _ m)]
    show fl.parse (Caps.text [(1, x)] 1) = fl.parse x
    have : Caps.text [(1, x)] 1 = x := by simp [Caps.text, Map.get_cons]
    rw [this]

theorem isNot_many {c : UInt8} {s : Bytes} (h0 : s ≠ []) (h : c ∉ s) : Many (isNot c) s :=
  ⟨h0, fun a ha => by unfold isNot; simp; rintro rfl; exact h ha⟩

theorem line_data {g : Gaps} (hg : g.Ok) {r : Result} (hr : r.Ok) (h1 : r.procs ≠ 1) :
    DataLine (lineOf g r) r.handler r.test (decNat r.procs) (decNat r.runs) r.nanos (rateText g r.rate ++ memText g r.mem) := by
  have := DataLine.mk (rest := rateText g r.rate ++ memText g r.mem) (isNot_many hr.handler.1 hr.handler.2.2) (isNot_many hr.test.1 hr.test.2.2)
    (dec_many r.procs) hg.runs (dec_many r.runs) hg.nanos hr.nanos one_space (stops_word (rate_stops hg _ _ (mem_stops hg _)))
  have e : lineOf g r = b!"Benchmark" ++ r.handler ++ b!"/Benchmark" ++ r.test ++ b!"-" ++ decNat r.procs ++ g.runs ++ decNat r.runs ++ g.nanos ++
      r.nanos ++ b!" " ++ b!"ns/op" ++ (rateText g r.rate ++ memText g r.mem) := by
    simp [lineOf, suffix, h1]
  rw [e]
  exact this

/-- What holds of C59: results measured with a number of processors other than 1 are read
as they are: names, number of processors, runs, time, rate, bytes and allocations, and
zero for what is not measured. -/
theorem C59_partial (E : Verif.Data.Env) (fl : Floats F) (b : Bench F) (g : Gaps) (r : Result) (d : Data F) (hg : g.Ok) (hr : r.Ok) (h1 : r.procs ≠ 1)
    (hd : r.data fl = some d) : b.line E fl (lineOf g r) = some (b.store E fl d) := by
  have hl := line_data hg hr h1
  unfold Result.data at hd
  have hrate := rate_read (fl := fl) hg hr
  cases e1 : fl.parse r.nanos with
  | none => rw [e1] at hd; cases hd
  | some ns =>
    rw [e1] at hd
    cases e2 : rateOf fl r.rate with
    | none => simp only [e2] at hd; cases hd
    | some mb =>
      simp only [e2] at hd
      have hd : d = _ := (Option.some.inj hd).symm
      subst hd
      rw [BenchData.line_data hl, readData_some (d := { handler := r.handler, test := r.test, cpus := r.procs, runs := r.runs, nsOps := ns, allocsOp := (r.mem.map Prod.snd).getD 0, bytesOp := (r.mem.map Prod.fst).getD 0, mbSec := mb }) (parse_dec hr.procs) (parse_dec hr.runs) e1 (allocs_read hg hr) (bytes_read hg hr) (hrate.trans e2)]
      rfl

/-- Without a number of processors there is nothing that looks like a result. -/
theorem no_data {g : Gaps} (hg : g.Ok) {r : Result} (hr : r.Ok) (h1 : r.procs = 1) (h t c n m rest : Bytes) :
    ¬ DataLine (lineOf g r) h t c n m rest := by
  generalize e : lineOf g r = l
  intro hd
  have hmem : ∀ t' : Bytes, (0x2D : UInt8) ∉ t' → ∀ u : Bytes, 0x2D ∉ t' ++ u → 0x2D ∉ u := fun _ _ _ h h' => h (by simp [h'])
  have space : ∀ s : Bytes, Many isS s → (0x2D : UInt8) ∉ s := fun s h h' => by have := h.all _ h'; revert this; decide
  have digits : ∀ s : Bytes, Many isD s → (0x2D : UInt8) ∉ s := fun s h h' => by have := h.all _ h'; revert this; decide
  have decim : ∀ s : Bytes, Decimal s → (0x2D : UInt8) ∉ s := fun s h h' => by
    rcases h with h | ⟨a, b, rfl, ha, hb⟩
    · exact digits s h h'
    · rw [List.mem_append, List.mem_cons] at h'
      rcases h' with h' | h' | h'
      · exact digits a ha h'
      · revert h'; decide
      · exact digits b hb h'
  have none1 : (0x2D : UInt8) ∉ rateText g r.rate := by
    cases hx : r.rate with
    | none => simp [rateText]
    | some x =>
      have := decim x (hr.rate x (by rw [hx]; rfl))
      have := space _ hg.rate
      simp [rateText, *]
  have none2 : (0x2D : UInt8) ∉ memText g r.mem := by
    cases hx : r.mem with
    | none => simp [memText]
    | some x =>
      obtain ⟨b, a⟩ := x
      have := digits _ (dec_many a)
      have := digits _ (dec_many b)
      have := space _ hg.bytes
      have := space _ hg.allocs
      simp [memText, *]
  have none3 : (0x2D : UInt8) ∉ b!"Benchmark" ++ r.test ++ g.runs ++ decNat r.runs ++ g.nanos ++ r.nanos ++ b!" ns/op" ++ rateText g r.rate ++ memText g r.mem := by
    have := digits _ (dec_many r.runs)
    have := space _ hg.runs
    have := space _ hg.nanos
    have := decim _ hr.nanos
    have := hr.test.2.2
    simp [*]
  cases hd with
  | mk hh ht hc hs hr' hs' hn hs'' hw =>
    rename_i s1 s2 s3
    have e' : r.handler ++ 0x2F :: (b!"Benchmark" ++ r.test ++ g.runs ++ decNat r.runs ++ g.nanos ++ r.nanos ++ b!" ns/op" ++ rateText g r.rate ++ memText g r.mem) =
        h ++ 0x2F :: (b!"Benchmark" ++ t ++ b!"-" ++ c ++ s1 ++ n ++ s2 ++ m ++ s3 ++ b!"ns/op" ++ rest) := by
      have := e
      simp [lineOf, suffix, h1] at this
      simp [this]
    have split : ∀ (x y u v : Bytes), (0x2F : UInt8) ∉ x → 0x2F ∉ y → x ++ 0x2F :: u = y ++ 0x2F :: v → u = v := by
      intro x
      induction x with
      | nil =>
        intro y u v _ hy e
        cases y with
        | nil => simpa using e
        | cons b y =>
          simp only [List.nil_append, List.cons_append, List.cons.injEq] at e
          exact absurd (by simp [e.1]) hy
      | cons a x ih =>
        intro y u v hx hy e
        cases y with
        | nil =>
          simp only [List.nil_append, List.cons_append, List.cons.injEq] at e
          exact absurd (by simp [e.1]) hx
        | cons b y =>
          simp only [List.cons_append, List.cons.injEq] at e
          exact ih y u v (fun h => hx (by simp [h])) (fun h => hy (by simp [h])) e.2
    have hh' : (0x2F : UInt8) ∉ h := fun h' => by have := hh.all _ h'; revert this; decide
    have := split _ _ _ _ hr.handler.2.2 hh' e'
    rw [this] at none3
    simp at none3

/-- Results measured with one processor are not read: package testing does not write the
number of processors then. -/
theorem C59_one_processor (E : Verif.Data.Env) (fl : Floats F) (b : Bench F) (g : Gaps) (r : Result) (hg : g.Ok) (hr : r.Ok) (h1 : r.procs = 1) :
    b.line E fl (lineOf g r) = some b := by
  have e : lineOf g r = 0x42 :: (b!"enchmark" ++ r.handler ++ b!"/Benchmark" ++ r.test ++ suffix r.procs ++ g.runs ++ decNat r.runs ++
    g.nanos ++ r.nanos ++ b!" ns/op" ++ rateText g r.rate ++ memText g r.mem) := by simp [lineOf]
  have hdef : ptnHandlerDef.find (lineOf g r) = none := find_handlerDef_none (by rw [e]; intro t h; simp at h)
  have hwarn : ptnWarnLine.find (lineOf g r) = none := find_warnLine_none (by rw [e]; rintro ⟨q, e⟩; simp at e)
  have hdata : ptnDataLine.find (lineOf g r) = none := find_data_none (no_data hg hr h1)
  unfold Bench.line
  rw [hdef, hwarn, hdata]

/-- Exactly the results measured with another number of processors are read. -/
theorem C59_read_iff (E : Verif.Data.Env) (fl : Floats F) (g : Gaps) (r : Result) (d : Data F) (hg : g.Ok) (hr : r.Ok) (hd : r.data fl = some d) :
    (∀ b : Bench F, b.line E fl (lineOf g r) = some (b.store E fl d)) ↔ r.procs ≠ 1 := by
  constructor
  · intro h h1
    have h2 := (h {}).symm.trans (C59_one_processor E fl {} g r hg hr h1)
    have h3 : (Bench.store E fl {} d).hasHandler d.handler = (({} : Bench F).hasHandler d.handler) := by rw [Option.some.inj h2]
    simp [Bench.store, Bench.hasHandler, Map.get_set, Map.get_nil] at h3
  · intro h1 b
    exact C59_partial E fl b g r d hg hr h1 hd

/-- A result with everything in it. -/
def someResult (procs : Nat) : Result := ⟨b!"Phsym", b!"Big_Group", procs, 1000, b!"12.5", some b!"2.50", some (16, 3)⟩
/-- White space. -/
def someGaps : Gaps := ⟨b!" \t ", b!"\t  ", b!"\t", b!"\t ", b!"\t"⟩

theorem someGaps_ok : someGaps.Ok := ⟨⟨by decide, by decide⟩, ⟨by decide, by decide⟩, ⟨by decide, by decide⟩, ⟨by decide, by decide⟩, ⟨by decide, by decide⟩⟩

theorem someResult_ok (procs : Nat) (h : procs < 2 ^ 64) : (someResult procs).Ok := by
  have h1 : b!"Phsym" ≠ [] ∧ Word' b!"Phsym" ∧ 0x2F ∉ b!"Phsym" := ⟨by decide, by unfold Word'; decide, by decide⟩
  have h2 : b!"Big_Group" ≠ [] ∧ Word' b!"Big_Group" ∧ 0x2D ∉ b!"Big_Group" := ⟨by decide, by unfold Word'; decide, by decide⟩
  refine ⟨h1, h2, h, show 1000 < 2 ^ 64 by decide, ?_, ?_, ?_⟩
  · exact .inr ⟨b!"12", b!"5", rfl, ⟨by decide, by decide⟩, ⟨by decide, by decide⟩⟩
  · intro x hx
    cases hx
    exact .inr ⟨b!"2", b!"50", rfl, ⟨by decide, by decide⟩, ⟨by decide, by decide⟩⟩
  · intro x hx
    cases hx
    decide

/-- C59 is false as stated. -/
theorem C59_fails : ¬ C59_statement := by
  intro h
  have := h ⟨Letters.asciiLib, fun _ => [], fun _ => none⟩ terms {} someGaps (someResult 1) _ someGaps_ok (someResult_ok 1 (by decide)) rfl
  rw [C59_one_processor _ _ _ _ _ someGaps_ok (someResult_ok 1 (by decide)) rfl] at this
  have h3 := congrArg (fun b : Option (Bench Term) => b.map fun b => b.hasHandler b!"Phsym") this
  simp [Bench.store, Bench.hasHandler, Map.get_set, someResult] at h3
  cases h3

/-- A case of `C59_partial`. -/
example (E : Verif.Data.Env) (b : Bench Term) :
    b.line E terms (b!"BenchmarkPhsym/BenchmarkBig_Group-8 \t 1000\t  12.5 ns/op\t2.50 MB/s\t 16 B/op\t3 allocs/op") =
      some (b.store E terms ⟨b!"Phsym", b!"Big_Group", 8, 1000, .num b!"12.5", 3, 16, .num b!"2.50"⟩) := by
  have := C59_partial E terms b someGaps (someResult 8) _ someGaps_ok (someResult_ok 8 (by decide)) (by decide) rfl
  have e : lineOf someGaps (someResult 8) = b!"BenchmarkPhsym/BenchmarkBig_Group-8 \t 1000\t  12.5 ns/op\t2.50 MB/s\t 16 B/op\t3 allocs/op" := by decide +kernel
  rw [e] at this
  exact this

/-- A case of `C59_one_processor`. -/
example (E : Verif.Data.Env) (b : Bench Term) :
    b.line E terms (b!"BenchmarkPhsym/BenchmarkBig_Group \t 1000\t  12.5 ns/op\t2.50 MB/s\t 16 B/op\t3 allocs/op") = some b := by
  have := C59_one_processor E terms b someGaps (someResult 1) someGaps_ok (someResult_ok 1 (by decide)) rfl
  have e : lineOf someGaps (someResult 1) = b!"BenchmarkPhsym/BenchmarkBig_Group \t 1000\t  12.5 ns/op\t2.50 MB/s\t 16 B/op\t3 allocs/op" := by decide +kernel
  rw [e] at this
  exact this

end Verif.Props.BenchLines
