import Verif.Sloggy.Threads
import Verif.Props.SloggyDerive

/-
Properties C22 (goroutines logging through sloggy) and C56 (no deadlock).
-/

namespace Verif.Props.SloggyThreads
open Slog Sloggy Conc
open Flash (upd)

/-- A job of a goroutine: a record given to a handler. -/
structure Job where
  h : H
  r : Record

/-- The program in which goroutine `t` does the jobs `jobs t`, before it starts. -/
def program (jobs : Nat → List Job) : World where
  lock := none
  out := []
  threads := fun t => ⟨(jobs t).map (fun j => callOf j.h j.r), .idle, []⟩

theorem program_start (jobs : Nat → List Job) : (program jobs).Start :=
  ⟨rfl, rfl, fun _ => rfl, fun _ => rfl⟩

/-- The line a job prints. -/
def Job.line (j : Job) : Bytes := (callOf j.h j.r).line

/-! ### C22 -/

/-- The full claim of C22, for goroutines sharing one handler: once they have all
finished, the writer has received their whole lines in some order that respects
the order of each goroutine. -/
def C22_sloggy_statement : Prop :=
  ∀ (h : H) (records : Nat → List Record) (ts : List Nat),
    let jobs := fun t => (records t).map (Job.mk h)
    (∀ t, (((program jobs).run ts).threads t).calls = []) →
    ∃ lines : List (Nat × Bytes),
      ((program jobs).run ts).bytes = lines.flatMap Prod.snd ∧
      ∀ t, (lines.filter (fun e => e.1 == t)).map Prod.snd = (jobs t).map Job.line

/-- Two goroutines, one record each. -/
def two : Nat → List Record
  | 0 => [{ time := none, level := 0, message := b!"a", attrs := [] }]
  | 1 => [{ time := none, level := 0, message := b!"b", attrs := [] }]
  | _ => []

/-- Goroutine 0 writes its opening brace; goroutine 1 runs; goroutine 0 goes on. -/
def mixed : List Nat := [0, 0] ++ List.replicate 14 1 ++ List.replicate 12 0

/-- The jobs of `two`. -/
def twoJobs : Nat → List Job := fun t => (two t).map (Job.mk SloggyDerive.root)

theorem mixed_out : ((program twoJobs).run mixed).bytes =
    b!"{{\"level\": \"INFO\", \"msg\": \"b\"}\r\n\"level\": \"INFO\", \"msg\": \"a\"}\r\n" := by
  decide +kernel

theorem others_idle (s : World) (n : Nat) : ∀ (ts : List Nat), (∀ t ∈ ts, t < n) → ∀ u, n ≤ u →
    (s.run ts).threads u = s.threads u := by
  intro ts
  induction ts generalizing s with
  | nil => intro _ _ _; rfl
  | cons t ts ih =>
    intro h u hu
    rw [World.run, ih _ (fun x hx => h x (by simp [hx])) u hu]
    have := h t (by simp)
    exact step_others s (by omega)

theorem mixed_done (t : Nat) : (((program twoJobs).run mixed).threads t).calls = [] := by
  match t with
  | 0 => decide +kernel
  | 1 => decide +kernel
  | n + 2 =>
    rw [others_idle _ 2 mixed (by decide) (n + 2) (by omega)]
    rfl

/-- C22 is false: the mutex covers only the line end, so the writes of two calls
mix. -/
theorem C22_sloggy_lines_not_whole : ¬ C22_sloggy_statement := by
  intro h
  obtain ⟨lines, h1, h2⟩ := h SloggyDerive.root two mixed mixed_done
  have hb : ((program twoJobs).run mixed).bytes.take 2 = b!"{{" := by rw [mixed_out]; decide
  have hb : (lines.flatMap Prod.snd).take 2 = b!"{{" := by rw [← h1]; exact hb
  match lines, h2, hb with
  | [], _, hb => simp at hb
  | (t, l) :: rest, h2, hb =>
    have ht := h2 t
    simp only [List.filter_cons, beq_self_eq_true, if_true, List.map_cons] at ht
    match t with
    | 0 =>
      have e : l = (⟨SloggyDerive.root, { time := none, level := 0, message := b!"a", attrs := [] }⟩ : Job).line :=
        (List.cons.inj ht).1
      have : l.take 2 = b!"{\"" := by rw [e]; decide +kernel
      have hl : 2 ≤ l.length := by rw [e]; decide +kernel
      rw [List.flatMap_cons, List.take_append_of_le_length hl, this] at hb
      simp at hb
    | 1 =>
      have e : l = (⟨SloggyDerive.root, { time := none, level := 0, message := b!"b", attrs := [] }⟩ : Job).line :=
        (List.cons.inj ht).1
      have : l.take 2 = b!"{\"" := by rw [e]; decide +kernel
      have hl : 2 ≤ l.length := by rw [e]; decide +kernel
      rw [List.flatMap_cons, List.take_append_of_le_length hl, this] at hb
      simp at hb
    | n + 2 => simp [two] at ht

/-- C22 for callers that do not overlap. For any goroutines with any jobs and any
schedule in which no call starts while another one is running: the writer has
received whole outputs of calls, then the beginning of the one that is running;
the whole ones of each goroutine are those of its first jobs, in order; when
nobody is inside a call nothing but whole lines is there. Missing from the full
claim: overlapping calls, for which it is false (`C22_sloggy_lines_not_whole`). -/
theorem C22_sloggy_serialised_partial (jobs : Nat → List Job) (ts : List Nat)
    (hs : (program jobs).Serial ts) :
    ∃ (lines : List (Nat × Bytes)) (part : Bytes),
      ((program jobs).run ts).bytes = lines.flatMap Prod.snd ++ part ∧
      (part ≠ [] → ∃ t j, j ∈ jobs t ∧ part <+: j.line) ∧
      ((∀ t, (((program jobs).run ts).threads t).phase = .idle) → part = []) ∧
      ∀ t, ∃ k, (lines.filter (fun e => e.1 == t)).map Prod.snd = ((jobs t).take k).map Job.line ∧
        (((program jobs).run ts).threads t).calls =
          ((jobs t).drop k).map (fun j => callOf j.h j.r) := by
  have h0 : Whole (program jobs) [] [] := ⟨rfl, fun _ => rfl, .inl ⟨fun _ => rfl, rfl⟩⟩
  obtain ⟨done, part, h⟩ := run_whole ts h0 hs
  have ho := run_orderly ts (start_orderly (program_start jobs))
  rw [List.nil_append] at h
  generalize (program jobs).run ts = s at h ho
  have hcalls : ∀ t, (jobs t).map (fun j => callOf j.h j.r) = (s.threads t).finished ++ (s.threads t).calls :=
    fun t => ho.calls t
  have hk : ∀ t, (s.threads t).finished = ((jobs t).take (s.threads t).finished.length).map (fun j => callOf j.h j.r) ∧
      (s.threads t).calls = ((jobs t).drop (s.threads t).finished.length).map (fun j => callOf j.h j.r) := by
    intro t
    rw [List.map_take, List.map_drop, hcalls t]
    simp
  refine ⟨done.map (fun e => (e.1, e.2.line)), part, ?_, ?_, ?_, fun t => ⟨(s.threads t).finished.length, ?_, (hk t).2⟩⟩
  · rw [h.bytes, List.flatMap_map]
  · intro hp
    rcases h.shape with ⟨_, e⟩ | ⟨t, c, rest, hc, _, _, hb⟩
    · exact absurd e hp
    · have hm : c ∈ (jobs t).map (fun j => callOf j.h j.r) := by rw [hcalls t, hc]; simp
      obtain ⟨j, hj, e⟩ := List.mem_map.1 hm
      exact ⟨t, j, hj, by rw [Job.line, e, ← hb]; exact List.prefix_append _ _⟩
  · intro hi
    rcases h.shape with ⟨_, e⟩ | ⟨t, _, _, _, hn, _⟩
    · exact e
    · exact absurd (hi t) hn
  · have := congrArg (List.map Call.line) (h.order t)
    rw [(hk t).1] at this
    simp only [List.map_map, List.filter_map] at this ⊢
    have e : (fun j : Job => (callOf j.h j.r).line) = Job.line := rfl
    simpa [Function.comp_def, e] using this

/-- C22, what overlapping callers are left with: whatever the schedule, the bytes
that come from one goroutine are those of its first jobs in order, then the
beginning of its next one. Missing from the full claim: that those of different
goroutines do not mix. -/
theorem C22_sloggy_own_bytes_partial (jobs : Nat → List Job) (ts : List Nat) (t : Nat) :
    ∃ (k : Nat) (part : List Bytes),
      ((program jobs).run ts).own t = ((jobs t).take k).flatMap (fun j => (callOf j.h j.r).chunks) ++ part ∧
      (part ≠ [] → ∃ j, (jobs t)[k]? = some j ∧ part <+: (callOf j.h j.r).chunks) ∧
      (((program jobs).run ts).threads t).calls = ((jobs t).drop k).map (fun j => callOf j.h j.r) := by
  have ho := run_orderly ts (start_orderly (program_start jobs))
  have ht := run_tail ts (start_tail (program_start jobs))
  generalize (program jobs).run ts = s at ho ht
  have hcalls : (jobs t).map (fun j => callOf j.h j.r) = (s.threads t).finished ++ (s.threads t).calls :=
    ho.calls t
  have hfin : (s.threads t).finished = ((jobs t).take (s.threads t).finished.length).map (fun j => callOf j.h j.r) ∧
      (s.threads t).calls = ((jobs t).drop (s.threads t).finished.length).map (fun j => callOf j.h j.r) := by
    rw [List.map_take, List.map_drop, hcalls]
    simp
  have hown := ho.own t
  generalize hk : (s.threads t).finished.length = k at hfin
  cases hc : (s.threads t).calls with
  | nil =>
    refine ⟨k, [], ?_, fun h => absurd rfl h, hc ▸ hfin.2⟩
    simp only [Thread.todo, hc, List.take_nil, List.flatMap_nil, List.append_nil] at hown
    rw [hown, hfin.1, List.flatMap_map, List.append_nil]
  | cons c rest =>
    have hj : ∃ j, (jobs t)[k]? = some j ∧ callOf j.h j.r = c := by
      have e := hfin.2
      rw [hc] at e
      cases hd : (jobs t).drop k with
      | nil => rw [hd] at e; simp at e
      | cons j js =>
        rw [hd] at e
        refine ⟨j, ?_, (List.cons.inj e).1.symm⟩
        have := congrArg List.head? hd
        rwa [List.head?_drop] at this
    obtain ⟨j, hj, rfl⟩ := hj
    rw [hc] at hown
    simp only [List.take_succ_cons, List.take_zero, List.flatMap_cons, List.flatMap_nil, List.append_nil] at hown
    have hpre : (s.threads t).finished.flatMap Call.chunks <+: s.own t := by
      obtain ⟨pre, hpre⟩ := ht t _ rest hc
      rw [← hpre, ← List.append_assoc] at hown
      exact ⟨pre, (List.append_cancel_right hown).symm⟩
    obtain ⟨part, hp⟩ := hpre
    refine ⟨k, part, ?_, fun _ => ⟨j, hj, (s.threads t).todo, ?_⟩, hc ▸ hfin.2⟩
    · rw [← hp, hfin.1, List.flatMap_map]
    · rw [← hp, List.append_assoc] at hown
      exact List.append_cancel_left hown

theorem serial_append (s : World) (as bs : List Nat) :
    s.Serial (as ++ bs) ↔ s.Serial as ∧ (s.run as).Serial bs := by
  induction as generalizing s with
  | nil => simp [World.Serial, World.run]
  | cons a as ih => simp only [List.cons_append, World.Serial, World.run, ih, and_assoc]

/-- A goroutine running alone does not overlap with anybody. -/
theorem serial_alone (t n : Nat) : ∀ s : World, (∀ u, u ≠ t → (s.threads u).phase = .idle) →
    s.Serial (List.replicate n t) := by
  induction n with
  | zero => intro _ _; trivial
  | succ n ih =>
    intro s h
    refine ⟨fun _ ht u => ?_, ih _ (fun u hu => by rw [step_others s hu]; exact h u hu)⟩
    by_cases hu : u = t
    · rw [hu]; exact ht
    · exact h u hu

/-- Two goroutines taking turns at whole calls. -/
example : (program twoJobs).Serial (List.replicate 14 1 ++ List.replicate 14 0) ∧
    ((program twoJobs).run (List.replicate 14 1 ++ List.replicate 14 0)).bytes =
      b!"{\"level\": \"INFO\", \"msg\": \"b\"}\r\n{\"level\": \"INFO\", \"msg\": \"a\"}\r\n" := by
  refine ⟨(serial_append _ _ _).2 ⟨serial_alone _ _ _ (fun _ _ => rfl), serial_alone _ _ _ ?_⟩,
    by decide +kernel⟩
  intro u hu
  match u with
  | 0 => exact absurd rfl hu
  | 1 => decide +kernel
  | n + 2 =>
    rw [others_idle _ 2 _ (by decide) (n + 2) (by omega)]
    rfl

/-- The last write of every successful call is the line end; it is made with the
mutex held and is the only one that is. -/
theorem C22_sloggy_line_end (h : H) (r : Record) (hok : (callOf h r).ok = true) :
    ∃ cs, (callOf h r).chunks = cs ++ [[0x0D, 0x0A]] := by
  have fin : ∀ (o : Out) (cfg : Cfg), cfg.writer = sure → ∀ st,
      (o.bind fun st => write cfg [0x0D, 0x0A] st) = .ok st → ∃ cs, st.out = cs ++ [[0x0D, 0x0A]] := by
    intro o cfg hw st e
    cases o with
    | ok st0 =>
      simp only [Out.bind, write, hw, sure, Out.ok.injEq] at e
      exact ⟨st0.out, by rw [← e]⟩
    | err st0 => simp [Out.bind] at e
    | overflow => simp [Out.bind] at e
  have assoc : ∀ (o : Out) (f g : St → Out), (o.bind f).bind g = o.bind fun st => (f st).bind g := by
    intro o f g; cases o <;> rfl
  have hplain : ∀ (h : Handler) st, h.handle sure r = .ok st → ∃ cs, st.out = cs ++ [[0x0D, 0x0A]] := by
    intro h st e
    unfold Handler.handle at e
    simp only [← assoc] at e
    exact fin _ _ rfl st e
  have hall : ∀ (h : H) (ctx : Flash.Ctx) st, h.handle ctx sure r = .ok st →
      ∃ cs, st.out = cs ++ [[0x0D, 0x0A]] := by
    intro h
    induction h with
    | plain h => exact fun _ => hplain h
    | group h name parent ih =>
      intro ctx st e
      unfold H.handle at e
      split at e
      · exact ih _ st e
      · exact hplain h st e
  revert hok
  unfold callOf
  split
  · rename_i st e
    exact fun _ => hall h none st e
  · simp
  · simp

example : (callOf SloggyDerive.root SloggyLine.record).ok = true := by decide +kernel

/-- Two goroutines are never both writing a line end, in any schedule. -/
theorem C22_sloggy_line_end_exclusive (jobs : Nat → List Job) (ts : List Nat) (t u : Nat) (x y : Bytes)
    (ht : (((program jobs).run ts).threads t).phase = .hold x)
    (hu : (((program jobs).run ts).threads u).phase = .hold y) : t = u :=
  exclusive (run_orderly ts (start_orderly (program_start jobs))) ht hu

example : (((program twoJobs).run (List.replicate 12 1)).threads 1).phase = .hold [0x0D, 0x0A] := by
  decide +kernel

/-! ### C56 -/

/-- C56. Whatever finitely many goroutines do and whatever has been scheduled so
far, there is a continuation in which every call finishes. -/
theorem C56_sloggy_no_deadlock (jobs : Nat → List Job) (n : Nat) (hn : ∀ t, n ≤ t → jobs t = [])
    (ts : List Nat) : ∃ more, ∀ t, (((program jobs).run (ts ++ more)).threads t).calls = [] := by
  have ho := run_orderly ts (start_orderly (program_start jobs))
  obtain ⟨more, h⟩ := progress (n := n) ho (fun t ht => by
    have := ho.calls t
    have e : ((program jobs).threads t).calls = [] := by simp [program, hn t ht]
    rw [e] at this
    exact (List.append_eq_nil_iff.1 this.symm).2)
  exact ⟨more, fun t => by rw [run_append]; exact h t⟩

/-- After this schedule goroutine 1 holds the mutex and goroutine 0 waits for it. -/
example : ∃ ts, ((program twoJobs).run ts).lock = some 1 ∧
    (((program twoJobs).run ts).threads 0).phase = .run [[0x0D, 0x0A]] ∧
    (((program twoJobs).run ts).step 0).out = ((program twoJobs).run ts).out ∧
    ∀ t, 2 ≤ t → twoJobs t = [] :=
  ⟨List.replicate 11 0 ++ List.replicate 12 1, by decide +kernel, by decide +kernel, by decide +kernel,
    fun | n + 2, _ => rfl⟩

end Verif.Props.SloggyThreads
