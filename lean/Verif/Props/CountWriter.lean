import Verif.Tools.CountWriter
import Verif.Props.FlashLine
import Verif.Props.SloggyLine

/-
C50: counting lines.
-/

namespace Verif.Props.CountWriter

open Verif Verif.Tools

/-- The data of a write ends in a newline. -/
def EndsLine (p : Bytes) : Prop := ∃ q, p = q ++ [0x0A]

theorem endsLine_iff (p : Bytes) : EndsLine p ↔ p.getLast? = some 0x0A := by
  constructor
  · rintro ⟨q, rfl⟩; simp
  · intro h
    obtain ⟨q, e⟩ := List.getLast?_eq_some_iff.1 h
    exact ⟨q, e⟩

instance (p : Bytes) : Decidable (EndsLine p) := decidable_of_iff _ (endsLine_iff p).symm

/-- How many of the writes end in a newline. -/
def lines (ws : List Bytes) : Nat := ws.countP fun p => decide (EndsLine p)

theorem cond_iff (p : Bytes) : (decide (p.length > 0) && p.getD (p.length - 1) 0 == 0x0A) = decide (EndsLine p) := by
  rw [Bool.eq_iff_iff, decide_eq_true_eq, endsLine_iff, Bool.and_eq_true, decide_eq_true_eq, beq_iff_eq]
  rw [List.getLast?_eq_getElem?]
  cases p with
  | nil => simp
  | cons a p =>
    rw [List.getD_eq_getElem?_getD]
    have : (a :: p).length - 1 < (a :: p).length := by simp
    rw [List.getElem?_eq_getElem this]
    simp

theorem write_count (w : CountWriter) (p : Bytes) : (w.write p).1.count = w.count + UInt64.ofNat (if EndsLine p then 1 else 0) := by
  unfold CountWriter.write
  rw [cond_iff]
  by_cases h : EndsLine p <;> simp [h]

theorem writeAll_count (ws : List Bytes) : ∀ w : CountWriter, (w.writeAll ws).count = w.count + UInt64.ofNat (lines ws) := by
  induction ws with
  | nil => intro w; simp [CountWriter.writeAll, lines]
  | cons p ws ih =>
    intro w
    have e : lines (p :: ws) = (if EndsLine p then 1 else 0) + lines ws := by
      simp only [lines, List.countP_cons, decide_eq_true_eq]
      omega
    rw [CountWriter.writeAll, ih, write_count, UInt64.add_assoc, ← UInt64.ofNat_add, e]

/-- After any sequence of writes the number reported is that of the writes that end in a newline, as long as it fits
64 bits; every write reports all its bytes. -/
theorem C50_counts (ws : List Bytes) :
    (({} : CountWriter).writeAll ws).written.toNat = lines ws % 2 ^ 64 ∧
      (lines ws < 2 ^ 64 → (({} : CountWriter).writeAll ws).written.toNat = lines ws) ∧
      ∀ (w : CountWriter) (p : Bytes), (w.write p).2 = p.length := by
  have h : (({} : CountWriter).writeAll ws).written.toNat = lines ws % 2 ^ 64 := by
    unfold CountWriter.written
    rw [writeAll_count]
    simp
  exact ⟨h, fun hl => by rw [h, Nat.mod_eq_of_lt hl], fun _ _ => rfl⟩

example : (({} : CountWriter).writeAll [b!"a\n", b!"\n", b!"", b!"b\nc", b!"\n\n"]).written = 3 ∧
    lines [b!"a\n", b!"\n", b!"", b!"b\nc", b!"\n\n"] = 3 := by decide +kernel

/-- One order in which the writes of several goroutines, each with its own sequence, may happen. -/
inductive Interleaved : List (List Bytes) → List Bytes → Prop
  | done {ts : List (List Bytes)} : (∀ t ∈ ts, t = []) → Interleaved ts []
  | step {a b : List (List Bytes)} {p : Bytes} {t ws : List Bytes} :
      Interleaved (a ++ t :: b) ws → Interleaved (a ++ (p :: t) :: b) (p :: ws)

/-- However the goroutines take turns, the count is the sum of what each has written. -/
theorem C50_interleaved {ts : List (List Bytes)} {ws : List Bytes} (h : Interleaved ts ws) (hl : (ts.map lines).sum < 2 ^ 64) :
    (({} : CountWriter).writeAll ws).written.toNat = (ts.map lines).sum := by
  have key : lines ws = (ts.map lines).sum := by
    clear hl
    induction h with
    | done h =>
      rename_i ts
      have : ts.map lines = ts.map fun _ => 0 := by
        apply List.map_congr_left
        intro t ht
        rw [h t ht]
        rfl
      rw [this]
      simp [lines]
    | step _ ih =>
      simp only [List.map_append, List.map_cons, List.sum_append, List.sum_cons, lines, List.countP_cons] at ih ⊢
      omega
  rw [← key] at hl ⊢
  exact (C50_counts ws).2.1 hl

example : Interleaved [[b!"a\n", b!"b"], [b!"c\n"]] [b!"a\n", b!"c\n", b!"b"] :=
  .step (a := []) (.step (a := [[b!"b"]]) (.step (a := []) (.done (by simp))))

/-! ### Handlers that write to it -/

open Slog

/-- What calls of `Handle` of flash handlers write: one piece for each call that does not fail. -/
def flashWrites (calls : List (Flash.H × Flash.Ctx × Record)) : List Bytes :=
  calls.filterMap fun (h, ctx, r) => match h.handle ctx r with
    | .line b => some b
    | _ => none

theorem flash_line (h : Flash.H) : ∀ (ctx : Flash.Ctx) (r : Record) (b : Bytes), h.handle ctx r = .line b → EndsLine b := by
  have core : ∀ (h : Flash.Handler) (r : Record) (b : Bytes), h.handle r = .line b → EndsLine b := by
    intro h r b e
    unfold Flash.Handler.handle at e
    split at e
    · cases e
      exact ⟨_, by rw [show ([0x7D, 0x0A] : Bytes) = [0x7D] ++ [0x0A] from rfl, ← List.append_assoc]⟩
    · cases e
    · cases e
  induction h with
  | plain h => intro ctx r b e; exact core h r b e
  | group h name parent ih =>
    intro ctx r b e
    unfold Flash.H.handle at e
    split at e
    · exact ih _ r b e
    · exact core h r b e

/-- The count for flash is the number of records that were logged without error, for any handlers, options and records. -/
theorem C50_flash (calls : List (Flash.H × Flash.Ctx × Record)) :
    (({} : CountWriter).writeAll (flashWrites calls)).written.toNat =
      (calls.countP fun (h, ctx, r) => match h.handle ctx r with
        | .line _ => true
        | _ => false) % 2 ^ 64 := by
  rw [(C50_counts _).1]
  congr 1
  induction calls with
  | nil => rfl
  | cons c calls ih =>
    obtain ⟨h, ctx, r⟩ := c
    unfold flashWrites at *
    rw [List.filterMap_cons, List.countP_cons]
    cases e : h.handle ctx r with
    | line b =>
      have := flash_line h ctx r b e
      simp only [e, lines, List.countP_cons, decide_eq_true_eq, this, if_true] at ih ⊢
      rw [← ih]
    | fail m => simp only [e]; exact ih
    | overflow => simp only [e]; exact ih

/-- For records and chains as in C03 that is every record: the check of the benchmark suite
(bench/tests/suite.go:176) holds. -/
theorem C50_flash_all (env : Env) (x : Flash.Extras) (o : Flash.Options) (ops : List Op) (rs : List Record)
    (ho : o.replace = none) (he : Flash.EnvClean env) (hops : LogTree.OpsClean env x.timeFormat ops)
    (hr : ∀ r ∈ rs, Flash.RecordClean env x r ∧
      max (LogTree.opsDepth ops) (LogTree.listDepth r.attrs) < env.stack) (hl : rs.length < 2 ^ 64)
    (h : Flash.H) (hh : (Flash.H.plain (Flash.newHandler env o x)).derive ops = some h) :
    (({} : CountWriter).writeAll (flashWrites (rs.map fun r => (h, none, r)))).written.toNat = rs.length := by
  rw [C50_flash]
  have : ∀ c ∈ rs.map fun r => (h, (none : Flash.Ctx), r), (match c.1.handle c.2.1 c.2.2 with
        | .line _ => true
        | _ => false) = true := by
    intro c hc
    obtain ⟨r, hrm, rfl⟩ := List.mem_map.1 hc
    obtain ⟨h', e, b, _, hb, _⟩ := C03_flash_one_json_line env x o ops r ho he hops (hr r hrm).1 (hr r hrm).2
    rw [hh] at e
    cases e
    simp only [hb]
  rw [List.countP_eq_length.2 this, List.length_map, Nat.mod_eq_of_lt hl]

example : Flash.EnvClean Flash.Sample.env ∧
    LogTree.OpsClean Flash.Sample.env Flash.Sample.extras.timeFormat Flash.Sample.ops ∧
    ∀ r ∈ [Flash.Sample.record, Flash.Sample.record], Flash.RecordClean Flash.Sample.env Flash.Sample.extras r ∧
      max (LogTree.opsDepth Flash.Sample.ops) (LogTree.listDepth r.attrs) < Flash.Sample.env.stack := by
  refine ⟨Flash.Sample.env_clean, Flash.Sample.ops_clean, ?_⟩
  intro r hr
  simp only [List.mem_cons, List.not_mem_nil, or_false, or_self] at hr
  subst hr
  exact ⟨Flash.Sample.record_clean, by decide⟩

/-- What calls of `Handle` of sloggy handlers write, to a writer without errors: many pieces for each. -/
def sloggyWrites (calls : List (Sloggy.H × Flash.Ctx × Record)) : List Bytes :=
  calls.flatMap fun (h, ctx, r) => match h.handle ctx Sloggy.sure r with
    | .ok st => st.out
    | .err st => st.out
    | .overflow => []

theorem bind_ok {o : Sloggy.Out} {f : Sloggy.St → Sloggy.Out} {st : Sloggy.St} (h : o.bind f = .ok st) :
    ∃ st', o = .ok st' ∧ f st' = .ok st := by
  cases o with
  | ok st' => exact ⟨st', rfl, h⟩
  | err st' => cases h
  | overflow => cases h

theorem sloggy_last (h : Sloggy.H) : ∀ (ctx : Flash.Ctx) (r : Record) (st : Sloggy.St),
    h.handle ctx Sloggy.sure r = .ok st → ∃ pre, st.out = pre ++ [[0x0D, 0x0A]] := by
  have core : ∀ (h : Sloggy.Handler) (r : Record) (st : Sloggy.St), h.handle Sloggy.sure r = .ok st →
      ∃ pre, st.out = pre ++ [[0x0D, 0x0A]] := by
    intro h r st e
    unfold Sloggy.Handler.handle at e
    obtain ⟨_, _, e⟩ := bind_ok e
    obtain ⟨_, _, e⟩ := bind_ok e
    obtain ⟨_, _, e⟩ := bind_ok e
    obtain ⟨_, _, e⟩ := bind_ok e
    obtain ⟨_, _, e⟩ := bind_ok e
    obtain ⟨st', _, e⟩ := bind_ok e
    unfold Sloggy.write at e
    split at e
    · cases e; exact ⟨_, rfl⟩
    · cases e
  induction h with
  | plain h => intro ctx r b e; exact core h r b e
  | group h name parent ih =>
    intro ctx r b e
    unfold Sloggy.H.handle at e
    split at e
    · exact ih _ r b e
    · exact core h r b e

/-- One line, though many pieces. -/
theorem one_line {out : List Bytes} {pre : List Bytes} {b : Bytes} (h : out = pre ++ [[0x0D, 0x0A]])
    (hf : out.flatten = b ++ [0x0D, 0x0A]) (hb : (0x0A : UInt8) ∉ b) : lines out = 1 := by
  subst h
  rw [List.flatten_append, show ([[0x0D, 0x0A]] : List Bytes).flatten = [0x0D, 0x0A] from rfl,
    List.append_cancel_right_eq] at hf
  unfold lines
  rw [List.countP_append, List.countP_eq_zero.2 ?_]
  · decide
  · intro p hp
    rw [decide_eq_true_eq]
    rintro ⟨q, rfl⟩
    apply hb
    rw [← hf]
    exact List.mem_flatten.2 ⟨_, hp, by simp⟩

/-- For sloggy, under the conditions of C19, the count is again that of the records, although each is written in pieces. -/
theorem C50_sloggy_all (env : Env) (o : Flash.Options) (ops : List Op) (rs : List Record)
    (ho : o.replace = none) (he : Flash.EnvClean env) (hops : LogTree.SOpsClean env ops)
    (hr : ∀ r ∈ rs, Sloggy.SRecordClean env r ∧
      max (LogTree.opsDeep ops) (LogTree.listDeep r.attrs) < env.stack) (hl : rs.length < 2 ^ 64)
    (h : Sloggy.H) (hh : (Sloggy.H.plain (Sloggy.newHandler env o)).derive ops = some h) :
    (({} : CountWriter).writeAll (sloggyWrites (rs.map fun r => (h, none, r)))).written.toNat = rs.length := by
  have key : lines (sloggyWrites (rs.map fun r => (h, none, r))) = rs.length := by
    clear hl
    induction rs with
    | nil => rfl
    | cons r rs ih =>
      obtain ⟨h', pl, st, b, e, _, e2, e3, e4⟩ := Sloggy.handle_clean (o := o) ho he hops
        (hr r List.mem_cons_self).1 (hr r List.mem_cons_self).2
      rw [hh] at e
      cases e
      obtain ⟨pre, ep⟩ := sloggy_last h none r st e2
      have ih := ih fun r hr' => hr r (List.mem_cons_of_mem _ hr')
      simp only [sloggyWrites, List.map_cons, List.flatMap_cons, e2, lines, List.countP_append] at ih ⊢
      rw [ih, show List.countP (fun p => decide (EndsLine p)) st.out = 1 from one_line ep e3 e4.2, List.length_cons,
        Nat.add_comm]
  rw [(C50_counts _).2.1 (by rw [key]; exact hl), key]

example : Flash.EnvClean Flash.Sample.env ∧ LogTree.SOpsClean Flash.Sample.env Flash.Sample.ops ∧
    ∀ r ∈ [SloggyLine.record, SloggyLine.record], Sloggy.SRecordClean Flash.Sample.env r ∧
      max (LogTree.opsDeep Flash.Sample.ops) (LogTree.listDeep r.attrs) < Flash.Sample.env.stack := by
  refine ⟨Flash.Sample.env_clean, SloggyLine.sample_clean.1, ?_⟩
  intro r hr
  simp only [List.mem_cons, List.not_mem_nil, or_false, or_self] at hr
  subst hr
  exact ⟨SloggyLine.sample_clean.2, by decide⟩

end Verif.Props.CountWriter
