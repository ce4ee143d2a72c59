import Verif.Flash.ThreadsHist
import Verif.Flash.Sample

/-
Properties C10, C11, C51 (flash part) and C55: goroutines logging through flash.
-/

set_option linter.unusedSimpArgs false

namespace Verif.Props
open Slog Flash
open Verif.Heap

/-! ### C10 -/

theorem noBad_step {grow} {s : World} {ch : Choice} (hb : ch.bad = false)
    (h : ∀ f, ∀ e ∈ s.log f, e.ok = true) : ∀ f, ∀ e ∈ (s.step grow ch).log f, e.ok = true := by
  unfold World.step
  simp only
  split
  · exact h
  split
  · unfold World.getBuf; split <;> exact h
  · unfold World.getComp; split <;> exact h
  · exact h
  · split
    · split <;> exact h
    · exact h
  · rw [hb]
    simp only [Bool.false_eq_true, if_false]
    split
    · exact h
    · intro f e he
      simp only [World.endWrite, World.ret, upd] at he
      split at he
      · rename_i hf
        subst hf
        rcases List.mem_append.1 he with he | he
        · exact h _ e he
        · simp at he; subst he; rfl
      · exact h f e he
  · exact h
  · exact h

theorem noBad_run {grow} : ∀ (cs : List Choice) {s : World}, (∀ c ∈ cs, c.bad = false) →
    (∀ f, ∀ e ∈ s.log f, e.ok = true) → ∀ f, ∀ e ∈ (s.run grow cs).log f, e.ok = true := by
  intro cs
  induction cs with
  | nil => intro s _ h; exact h
  | cons c cs ih =>
    intro s hb h
    exact ih (fun x hx => hb x (by simp [hx])) (noBad_step (hb c (by simp)) h)

/-- C10. Whatever the programs of the goroutines, the pools at the start, the
growth of arrays and the schedule, if no write fails: what a writer has received
is a sequence of complete lines, then possibly the beginning of the line of the
goroutine holding the mutex; the complete lines of each goroutine are those of
its finished calls that composed without error, in program order. -/
theorem C10_flash_lines_whole (grow : Nat → Nat → Nat) (hg : ∀ c n, n ≤ grow c n) (s : World)
    (hs : s.Start) (cs : List Choice) (hb : ∀ c ∈ cs, c.bad = false) (f : Nat) :
    ∃ (lines : List (Nat × Call)) (part : Bytes),
      (s.run grow cs).out f = lines.flatMap (fun x => x.2.line) ++ part ∧
      ((s.run grow cs).lock f = none → part = []) ∧
      (∀ t, (s.run grow cs).lock f = some t →
        ∃ call rest, ((s.run grow cs).threads t).calls = call :: rest ∧ part <+: call.line) ∧
      ∀ t, ∃ finished left, (s.threads t).calls = finished ++ left ∧
        ((s.run grow cs).threads t).results.map Prod.fst = finished ∧
        (lines.filter (fun x => x.1 == t)).map Prod.snd =
          finished.filter (fun c => c.fam == f && c.ok) := by
  obtain ⟨_, hist⟩ := run_hist hg cs (start_sep hs) (start_hist hs)
  have hok := noBad_run (grow := grow) cs (s := s) hb (by intro f e he; rw [hs.log] at he; cases he)
  generalize s.run grow cs = s' at hist hok
  have hw : s'.wrote f = ((s'.log f).map (fun e => (e.thread, e.call))).flatMap (fun x => x.2.line) := by
    have : ∀ l : List Entry, (∀ e ∈ l, e.written = e.call.line) →
        l.flatMap Entry.written = (l.map (fun e => (e.thread, e.call))).flatMap (fun x => x.2.line) := by
      intro l
      induction l with
      | nil => intro _; rfl
      | cons e l ih =>
        intro h
        simp only [List.flatMap_cons, List.map_cons, ih (fun x hx => h x (by simp [hx])), h e (by simp)]
    exact this _ (fun e he => (hist.entry f e he).2.2.2 (hok f e he))
  have hord : ∀ t, ∃ finished left, (s.threads t).calls = finished ++ left ∧
        (s'.threads t).results.map Prod.fst = finished ∧
        (((s'.log f).map (fun e => (e.thread, e.call))).filter (fun x => x.1 == t)).map Prod.snd =
          finished.filter (fun c => c.fam == f && c.ok) := by
    intro t
    refine ⟨_, _, hist.prog t, rfl, ?_⟩
    have h1 := congrArg (List.map Prod.fst) (hist.order t f)
    simp only [List.map_map] at h1
    have e1 : ∀ l : List Entry, ((l.map (fun e => (e.thread, e.call))).filter (fun x => x.1 == t)).map Prod.snd =
        (l.filter (fun e => e.thread == t)).map (Prod.fst ∘ fun e => (e.call, e.ok)) := by
      intro l
      induction l with
      | nil => rfl
      | cons e l ih =>
        simp only [List.map_cons, List.filter_cons]
        split <;> simp_all
    rw [e1, h1]
    have e2 : ∀ l : List (Call × Result), (∀ x ∈ l, (x.2 = .composeError ↔ x.1.ok = false)) →
        (l.filter (fun x => x.1.fam == f && x.2 != .composeError)).map
          (Prod.fst ∘ fun x => (x.1, x.2 == .ok)) =
        (l.map Prod.fst).filter (fun c => c.fam == f && c.ok) := by
      intro l
      induction l with
      | nil => intro _; rfl
      | cons x l ih =>
        intro h
        have hx := h x (by simp)
        have ih := ih (fun y hy => h y (by simp [hy]))
        have e : (x.2 != .composeError) = x.1.ok := by
          cases ho : x.1.ok
          · rw [hx.2 ho]; rfl
          · have : x.2 ≠ .composeError := fun hc => by rw [hx.1 hc] at ho; cases ho
            simp [this]
        simp only [List.map_cons, List.filter_cons, e]
        split
        · simp only [List.map_cons, ih, Function.comp]
        · exact ih
    exact e2 _ (hist.results t)
  cases hl : s'.lock f with
  | none =>
    exact ⟨_, [], by rw [hist.free f hl, hw]; simp, fun _ => rfl, fun t h => by simp at h, hord⟩
  | some t =>
    obtain ⟨o, c, k, call, rest, hp, hc, hfam⟩ := hist.lock f t hl
    obtain ⟨call', rest', h1, h2, h3, h4, h5, h6⟩ := hist.write t o c k hp
    rw [hc] at h1
    simp only [List.cons.injEq] at h1
    obtain ⟨rfl, rfl⟩ := h1
    subst hfam
    refine ⟨_, call.line.take k, by rw [h6, hw], by simp, ?_, hord⟩
    intro u hu
    simp at hu; subst hu
    exact ⟨call, rest, hc, List.take_prefix _ _⟩

/-- A job of a goroutine: family, handler, context and record. -/
structure Job where
  fam : Nat
  h : H
  ctx : Ctx
  r : Record

/-- The call a job makes: it composes the line that `Handle` computes, in some
pieces, or fails. -/
def Job.makes (j : Job) (c : Call) : Prop :=
  c.fam = j.fam ∧
  match j.h.handle j.ctx j.r with
  | .line b => c.ok = true ∧ c.line = b
  | .fail _ => c.ok = false
  | .overflow => False

/-- The line a job should write, if any. -/
def Job.line (j : Job) : Option Bytes :=
  match j.h.handle j.ctx j.r with
  | .line b => some b
  | _ => none

/-- C10 for goroutines that log records through handlers, when all are done: the
writer of a family received exactly one line per successful call, and each
goroutine's lines are in its program order. -/
theorem C10_flash_all_done (grow : Nat → Nat → Nat) (hg : ∀ c n, n ≤ grow c n) (s : World)
    (hs : s.Start) (jobs : Nat → List Job)
    (hj : ∀ t, List.Forall₂ Job.makes (jobs t) (s.threads t).calls)
    (cs : List Choice) (hb : ∀ c ∈ cs, c.bad = false)
    (hdone : ∀ t, ((s.run grow cs).threads t).calls = []) (f : Nat) :
    ∃ lines : List (Nat × Bytes),
      (s.run grow cs).out f = lines.flatMap Prod.snd ∧
      ∀ t, (lines.filter (fun x => x.1 == t)).map Prod.snd =
        ((jobs t).filter (fun j => j.fam == f)).filterMap Job.line := by
  obtain ⟨lines, part, h1, h2, h3, h4⟩ := C10_flash_lines_whole grow hg s hs cs hb f
  have hpart : part = [] := by
    cases hl : (s.run grow cs).lock f with
    | none => exact h2 hl
    | some t =>
      obtain ⟨call, rest, hc, _⟩ := h3 t hl
      rw [hdone t] at hc; cases hc
  subst hpart
  refine ⟨lines.map (fun x => (x.1, x.2.line)), ?_, ?_⟩
  · rw [h1]; simp [List.flatMap_map]
  · intro t
    obtain ⟨finished, left, e1, e2, e3⟩ := h4 t
    have hleft : left = [] := by
      obtain ⟨_, hist⟩ := run_hist hg cs (start_sep hs) (start_hist hs)
      have hp := hist.prog t
      rw [e1, e2] at hp
      have := List.append_cancel_left hp
      rw [this]
      unfold Thread.left
      split <;> simp [hdone t]
    have e4 : ((lines.map (fun x => (x.1, x.2.line))).filter (fun x => x.1 == t)).map Prod.snd =
        ((lines.filter (fun x => x.1 == t)).map Prod.snd).map Call.line := by
      have : ∀ l : List (Nat × Call), ((l.map (fun x => (x.1, x.2.line))).filter (fun x => x.1 == t)).map Prod.snd =
          ((l.filter (fun x => x.1 == t)).map Prod.snd).map Call.line := by
        intro l
        induction l with
        | nil => rfl
        | cons x l ih => simp only [List.map_cons, List.filter_cons]; split <;> simp_all
      exact this lines
    rw [e4, e3]
    have hj := hj t
    rw [e1, hleft, List.append_nil] at hj
    clear e3 e2 e1
    generalize jobs t = js at hj
    induction hj with
    | nil => rfl
    | @cons j c js cs' hjc _ ih =>
      obtain ⟨hfam, hm⟩ := hjc
      simp only [List.filter_cons, hfam]
      by_cases hf : j.fam == f
      · simp only [hf, Bool.true_and, if_true, List.filterMap_cons]
        split at hm
        · rename_i b hb
          simp only [hm.1, if_true, List.map_cons, Job.line, hb, hm.2, ih]
        · rename_i m hb
          simp only [hm, Bool.false_eq_true, if_false, Job.line, hb, ih]
        · exact hm.elim
      · simp only [hf, Bool.false_and, Bool.false_eq_true, if_false, ih]

/-! ### C11 -/

/-- Same place in `Handle`, whatever the buffers and composers. -/
def Phase.like : Phase → Phase → Prop
  | .idle, .idle => True
  | .buf _, .buf _ => True
  | .comp _ _ a, .comp _ _ b => a = b
  | .write _ _ a, .write _ _ b => a = b
  | .free _ _, .free _ _ => True
  | .put _, .put _ => True
  | _, _ => False

/-- Two worlds that differ only in pools, arrays and composers. -/
structure Alike (s u : World) : Prop where
  lock : s.lock = u.lock
  out : s.out = u.out
  log : s.log = u.log
  calls : ∀ t, (s.threads t).calls = (u.threads t).calls
  results : ∀ t, (s.threads t).results = (u.threads t).results
  phase : ∀ t, Phase.like (s.threads t).phase (u.threads t).phase

theorem alike_thread {s u s' u' : World} (a : Alike s u) (t : Nat)
    (h1 : ∀ v, v ≠ t → s'.threads v = s.threads v) (h2 : ∀ v, v ≠ t → u'.threads v = u.threads v)
    (lock : s'.lock = u'.lock) (out : s'.out = u'.out) (log : s'.log = u'.log)
    (calls : (s'.threads t).calls = (u'.threads t).calls)
    (results : (s'.threads t).results = (u'.threads t).results)
    (phase : Phase.like (s'.threads t).phase (u'.threads t).phase) : Alike s' u' := by
  refine ⟨lock, out, log, ?_, ?_, ?_⟩ <;> intro v <;> by_cases hv : v = t
  · subst hv; exact calls
  · rw [h1 v hv, h2 v hv]; exact a.calls v
  · subst hv; exact results
  · rw [h1 v hv, h2 v hv]; exact a.results v
  · subst hv; exact phase
  · rw [h1 v hv, h2 v hv]; exact a.phase v

theorem alike_step {g1 g2 : Nat → Nat → Nat} {prog} {s u : World} (a : Alike s u)
    (hs : Hist prog s) (hu : Hist prog u) (ch : Choice) (pick : Nat) :
    Alike (s.step g1 ch) (u.step g2 { ch with pick := pick }) := by
  have o1 : ∀ v, v ≠ ch.thread → (s.step g1 ch).threads v = s.threads v :=
    fun v hv => step_other g1 s ch hv
  have o2 : ∀ v, v ≠ ch.thread → (u.step g2 { ch with pick := pick }).threads v = u.threads v :=
    fun v hv => step_other g2 u { ch with pick := pick } hv
  refine alike_thread a ch.thread o1 o2 ?_ ?_ ?_ ?_ ?_ ?_
  all_goals
    clear o1 o2
    unfold World.step
    simp only
    have hc := a.calls ch.thread
    have hr := a.results ch.thread
    have hp := a.phase ch.thread
    generalize ch.thread = t at *
    rw [← hc]
    cases hcalls : (s.threads t).calls with
    | nil =>
      first
        | exact a.lock | exact a.out | exact a.log
        | (simp only; rw [hc]) | exact hr | exact hp
    | cons call rest =>
      rw [hcalls] at hc
      cases hps : (s.threads t).phase <;> cases hpu : (u.threads t).phase <;>
        rw [hps, hpu] at hp <;> simp only [Phase.like] at hp
      · simp only [World.getBuf]
        split <;> split <;> simp [World.go, a.lock, a.out, a.log, hcalls, ← hc, hr, Phase.like]
      · simp only [World.getComp]
        split <;> split <;> simp [World.go, a.lock, a.out, a.log, hcalls, ← hc, hr, Phase.like]
      · subst hp
        rename_i o1 c1 todo o2 c2
        cases todo with
        | nil =>
          simp only [← a.lock]
          cases call.ok
          · simp [World.ret, a.lock, a.out, a.log, hcalls, ← hc, hr, Phase.like]
          · simp only [if_true]
            cases hl : s.lock call.fam <;>
              simp [World.go, a.lock, a.out, a.log, hcalls, ← hc, hr, Phase.like, hps, hpu]
        | cons x todo => simp [World.go, a.lock, a.out, a.log, hcalls, ← hc, hr, Phase.like]
      · subst hp
        rename_i o1 c1 k o2 c2
        obtain ⟨ca, ra, e1, e2, e3, _⟩ := hs.write t _ _ _ hps
        obtain ⟨cb, rb, f1, f2, f3, _⟩ := hu.write t _ _ _ hpu
        rw [hcalls] at e1
        rw [← hc] at f1
        simp only [List.cons.injEq] at e1 f1
        obtain ⟨rfl, rfl⟩ := e1
        obtain ⟨rfl, rfl⟩ := f1
        simp only [e3, f3]
        cases ch.bad
        · simp only [Bool.false_eq_true, if_false]
          cases call.line[k]? <;>
            simp [World.go, World.endWrite, World.ret, a.lock, a.out, a.log, hcalls, ← hc, hr, Phase.like]
        · simp [World.endWrite, World.ret, a.lock, a.out, a.log, hcalls, ← hc, hr, Phase.like]
      · simp [World.go, a.lock, a.out, a.log, hcalls, ← hc, hr, Phase.like]
      · simp [a.lock, a.out, a.log, hr, Phase.like]

/-- C11, first half: a completed write carries exactly the text of its own call,
whatever the pools held at the start and however calls are interleaved. -/
theorem C11_flash_own_bytes (grow : Nat → Nat → Nat) (hg : ∀ c n, n ≤ grow c n) (s : World)
    (hs : s.Start) (cs : List Choice) (f : Nat) (e : Entry) (he : e ∈ (s.run grow cs).log f) :
    e.written <+: e.call.line ∧ (e.ok = true → e.written = e.call.line) := by
  obtain ⟨_, hist⟩ := run_hist hg cs (start_sep hs) (start_hist hs)
  exact (hist.entry f e he).2.2

/-- C11, second half: start twice with the same programs but different pools,
stale contents, composers and growth policies, and run the same schedule, except
that each call may get different pool elements: all writers receive the same
bytes, all calls return the same, at every point. -/
theorem C11_flash_pools_invisible (g1 g2 : Nat → Nat → Nat) (h1 : ∀ c n, n ≤ g1 c n)
    (h2 : ∀ c n, n ≤ g2 c n) (s u : World) (hs : s.Start) (hu : u.Start)
    (hprog : ∀ t, (s.threads t).calls = (u.threads t).calls) (cs : List (Choice × Nat)) :
    (s.run g1 (cs.map Prod.fst)).out =
      (u.run g2 (cs.map fun c => { c.1 with pick := c.2 })).out ∧
    ∀ t, ((s.run g1 (cs.map Prod.fst)).threads t).results =
      ((u.run g2 (cs.map fun c => { c.1 with pick := c.2 })).threads t).results := by
  have start : Alike s u := by
    refine ⟨?_, ?_, ?_, hprog, ?_, ?_⟩
    · funext f; rw [hs.lock, hu.lock]
    · funext f; rw [hs.out, hu.out]
    · funext f; rw [hs.log, hu.log]
    · intro t; rw [(hs.idle t).2, (hu.idle t).2]
    · intro t; rw [(hs.idle t).1, (hu.idle t).1]; trivial
  have key : ∀ (cs : List (Choice × Nat)) (s u : World) (prog : Nat → List Call), Alike s u →
      Sep s → Hist prog s → Sep u → Hist prog u →
      Alike (s.run g1 (cs.map Prod.fst)) (u.run g2 (cs.map fun c => { c.1 with pick := c.2 })) := by
    intro cs
    induction cs with
    | nil => intro s u prog a _ _ _ _; exact a
    | cons c cs ih =>
      intro s u prog a s1 s2 u1 u2
      exact ih _ _ prog (alike_step a s2 u2 c.1 c.2) (s1.step h1 _) (s2.step h1 s1 _)
        (u1.step h2 _) (u2.step h2 u1 _)
  have hu' : Hist (fun t => (s.threads t).calls) u := by
    have := start_hist hu
    have e : (fun t => (s.threads t).calls) = fun t => (u.threads t).calls := funext hprog
    rw [e]; exact this
  have := key cs s u _ start (start_sep hs) (start_hist hs) (start_sep hu) hu'
  exact ⟨this.out, this.results⟩

/-! ### C51 -/

/-- C51 for flash: with any pattern of write failures, `Handle` returns an error
exactly for the calls that fail to compose and those whose write failed; every
successful write brings its whole line; what the writer received is the sequence
of all these pieces. -/
theorem C51_flash_write_failures (grow : Nat → Nat → Nat) (hg : ∀ c n, n ≤ grow c n) (s : World)
    (hs : s.Start) (cs : List Choice) (f : Nat) (hfree : (s.run grow cs).lock f = none) :
    ∃ log : List Entry,
      (s.run grow cs).out f = log.flatMap Entry.written ∧
      (∀ e ∈ log, e.written <+: e.call.line ∧ (e.ok = true → e.written = e.call.line)) ∧
      ∀ t, (log.filter (fun e => e.thread == t)).map (fun e => (e.call, e.ok)) =
        (((s.run grow cs).threads t).results.filter
          (fun x => x.1.fam == f && x.1.ok)).map (fun x => (x.1, x.2 == .ok)) := by
  obtain ⟨_, hist⟩ := run_hist hg cs (start_sep hs) (start_hist hs)
  generalize s.run grow cs = s' at hist hfree
  refine ⟨s'.log f, hist.free f hfree, fun e he => (hist.entry f e he).2.2, ?_⟩
  intro t
  rw [hist.order t f]
  congr 1
  apply List.filter_congr
  intro x hx
  have := hist.results t x hx
  cases ho : x.1.ok
  · rw [this.2 ho]; simp
  · have : x.2 ≠ .composeError := fun hc => by rw [this.1 hc] at ho; cases ho
    simp [this]

/-! ### C55 -/

/-- Work left in a call, phase by phase. -/
def phaseLeft (call : Call) : Phase → Nat
  | .idle => call.chunks.length + call.line.length + 12
  | .buf _ => call.chunks.length + call.line.length + 11
  | .comp _ _ todo => todo.length + call.line.length + 8
  | .write _ _ k => (call.line.length - k) + 4
  | .free _ _ => 2
  | .put _ => 1

/-- Work left of a goroutine. -/
def threadLeft (th : Thread) : Nat :=
  match th.calls with
  | [] => 0
  | call :: rest => phaseLeft call th.phase +
      (rest.map fun c => c.chunks.length + c.line.length + 12).sum

/-- A goroutine that does not wait for the mutex makes progress. -/
theorem progress {grow : Nat → Nat → Nat} {prog} {s : World} (hist : Hist prog s) (t : Nat)
    (hc : (s.threads t).calls ≠ [])
    (hf : ∀ o c call rest, (s.threads t).phase = .comp o c [] → (s.threads t).calls = call :: rest →
      s.lock call.fam = none) :
    threadLeft ((s.step grow { thread := t }).threads t) < threadLeft (s.threads t) := by
  unfold World.step
  simp only
  cases hcalls : (s.threads t).calls with
  | nil => exact absurd hcalls hc
  | cons call rest =>
    simp only
    have e : threadLeft (s.threads t) = phaseLeft call (s.threads t).phase +
      (rest.map fun c => c.chunks.length + c.line.length + 12).sum := by
      simp only [threadLeft, hcalls]
    rw [e]
    cases hph : (s.threads t).phase with
    | idle =>
      simp only [World.getBuf]
      split <;> simp [threadLeft, hcalls, phaseLeft]
    | buf o =>
      simp only [World.getComp]
      split <;> simp [threadLeft, hcalls, phaseLeft]
    | comp o c todo =>
      cases todo with
      | nil =>
        simp only
        cases call.ok
        · simp [World.ret, threadLeft, hcalls, phaseLeft]
        · simp only [if_true]
          rw [hf o c call rest hph hcalls]
          simp [threadLeft, hcalls, phaseLeft]
      | cons x todo => simp [threadLeft, hcalls, phaseLeft]
    | write o c k =>
      obtain ⟨ca, ra, e1, e2, e3, e4, e5, e6⟩ := hist.write t _ _ _ hph
      rw [hcalls] at e1
      simp only [List.cons.injEq] at e1
      obtain ⟨rfl, rfl⟩ := e1
      simp only [Bool.false_eq_true, if_false]
      rw [e3]
      cases hk : call.line[k]? with
      | some x =>
        have := (List.getElem?_eq_some_iff.1 hk).1
        simp [threadLeft, hcalls, phaseLeft]; omega
      | none => simp [World.endWrite, World.ret, threadLeft, hcalls, phaseLeft]
    | free o c => simp [threadLeft, hcalls, phaseLeft]
    | put o =>
      simp only [upd_same]
      unfold threadLeft
      cases rest <;> simp [phaseLeft]

/-- C55: flash cannot deadlock. After any schedule, if finitely many goroutines
have work, there is a continuation in which all calls finish. -/
theorem C55_flash_no_deadlock (grow : Nat → Nat → Nat) (hg : ∀ c n, n ≤ grow c n) (s : World)
    (hs : s.Start) (n : Nat) (hn : ∀ t, n ≤ t → (s.threads t).calls = []) (cs : List Choice) :
    ∃ more : List Choice, (∀ c ∈ more, c.bad = false) ∧
      ∀ t, ((s.run grow (cs ++ more)).threads t).calls = [] := by
  have runapp : ∀ (a b : List Choice) (s : World), s.run grow (a ++ b) = (s.run grow a).run grow b := by
    intro a
    induction a with
    | nil => intro b s; rfl
    | cons c a ih => intro b s; exact ih b _
  have big : ∀ (cs : List Choice) (s : World), (∀ t, n ≤ t → (s.threads t).calls = []) →
      ∀ t, n ≤ t → ((s.run grow cs).threads t).calls = [] := by
    intro cs
    induction cs with
    | nil => intro s h; exact h
    | cons c cs ih =>
      intro s h
      apply ih
      intro t ht
      by_cases hc : t = c.thread
      · have : (s.threads c.thread).calls = [] := by rw [← hc]; exact h t ht
        have e : s.step grow c = s := by unfold World.step; simp only [this]
        rw [e]; exact h t ht
      · rw [step_other grow s c hc]; exact h t ht
  obtain ⟨sep, hist⟩ := run_hist hg cs (start_sep hs) (start_hist hs)
  have hn' := big cs s hn
  suffices h : ∀ (m : Nat) (s' : World) (prog : Nat → List Call), Sep s' → Hist prog s' →
      (∀ t, n ≤ t → (s'.threads t).calls = []) →
      ((List.range n).map fun t => threadLeft (s'.threads t)).sum ≤ m →
      ∃ more : List Choice, (∀ c ∈ more, c.bad = false) ∧
        ∀ t, ((s'.run grow more).threads t).calls = [] by
    obtain ⟨more, h1, h2⟩ := h _ _ _ sep hist hn' (Nat.le_refl _)
    exact ⟨more, h1, by rw [runapp]; exact h2⟩
  intro m
  induction m with
  | zero =>
    intro s' prog _ _ hn' hm
    refine ⟨[], by simp, ?_⟩
    intro t
    by_cases ht : n ≤ t
    · exact hn' t ht
    · have hz : threadLeft (s'.threads t) = 0 := by
        have := List.sum_eq_zero_iff_forall_eq_nat.1 (Nat.le_zero.1 hm) (threadLeft (s'.threads t))
          (List.mem_map.2 ⟨t, List.mem_range.2 (by omega), rfl⟩)
        exact this
      show (s'.threads t).calls = []
      unfold threadLeft at hz
      split at hz
      · assumption
      · rename_i call rest _
        unfold phaseLeft at hz
        split at hz <;> omega
  | succ m ih =>
    intro s' prog sep hist hn' hm
    by_cases hall : ∀ t, (s'.threads t).calls = []
    · exact ⟨[], by simp, hall⟩
    · -- somebody can move
      have hex : ∃ t, (s'.threads t).calls ≠ [] := Classical.not_forall.1 hall
      obtain ⟨t, ht⟩ := hex
      have mover : ∃ v, (s'.threads v).calls ≠ [] ∧ (∀ o c call rest, (s'.threads v).phase = .comp o c [] →
          (s'.threads v).calls = call :: rest → s'.lock call.fam = none) := by
        by_cases hb : ∃ o c call rest v, (s'.threads t).phase = .comp o c [] ∧
            (s'.threads t).calls = call :: rest ∧ s'.lock call.fam = some v
        · obtain ⟨o, c, call, rest, v, h1, h2, h3⟩ := hb
          obtain ⟨o', c', k', call', rest', h4, h5, h6⟩ := hist.lock _ v h3
          refine ⟨v, by rw [h5]; simp, ?_⟩
          intro o'' c'' _ _ h7
          rw [h4] at h7; cases h7
        · refine ⟨t, ht, ?_⟩
          intro o c call rest h1 h2
          cases hl : s'.lock call.fam with
          | none => rfl
          | some v => exact absurd ⟨o, c, call, rest, v, h1, h2, hl⟩ hb
      obtain ⟨v, hv, hfree⟩ := mover
      have hlt := progress (grow := grow) hist v hv hfree
      have hvn : v < n := by
        rcases Nat.lt_or_ge v n with h | h
        · exact h
        · exact absurd (hn' v h) hv
      have hsum : ((List.range n).map fun t => threadLeft ((s'.step grow { thread := v }).threads t)).sum <
          ((List.range n).map fun t => threadLeft (s'.threads t)).sum := by
        have key : ∀ l : List Nat, v ∈ l → l.Nodup →
            (l.map fun t => threadLeft ((s'.step grow { thread := v }).threads t)).sum <
            (l.map fun t => threadLeft (s'.threads t)).sum := by
          intro l
          induction l with
          | nil => intro h; cases h
          | cons x l ihl =>
            intro hm hnd
            rw [List.nodup_cons] at hnd
            simp only [List.map_cons, List.sum_cons]
            by_cases hx : x = v
            · subst hx
              have : (l.map fun t => threadLeft ((s'.step grow { thread := x }).threads t)) =
                  (l.map fun t => threadLeft (s'.threads t)) := by
                apply List.map_congr_left
                intro y hy
                have : y ≠ x := by rintro rfl; exact hnd.1 hy
                rw [step_other grow s' _ this]
              rw [this]; omega
            · have := ihl ((List.mem_cons.1 hm).resolve_left (Ne.symm hx)) hnd.2
              rw [step_other grow s' { thread := v } hx]; omega
        exact key _ (List.mem_range.2 hvn) List.nodup_range
      obtain ⟨more, m1, m2⟩ := ih (s'.step grow { thread := v }) prog (sep.step hg _) (hist.step hg sep _)
        (big [{ thread := v }] s' hn') (by omega)
      exact ⟨{ thread := v } :: more, by simpa using m1, m2⟩

/-! ### A concrete start -/

/-- Two goroutines with two calls each, pools with stale contents. -/
def sampleWorld : World where
  M := [b!"stale", b!"old line\n"]
  C := [⟨1, 3, 8⟩, ⟨0, 5, 5⟩]
  bufs := [⟨1, 9, 1024⟩, ⟨0, 2, 4⟩]
  comps := [1, 0]
  lock := fun _ => none
  out := fun _ => []
  log := fun _ => []
  threads := fun t =>
    { calls := if t < 2 then [⟨0, [b!"{\"a\"", b!": 1}\n"], true⟩, ⟨t, [b!"{\"b\"", b!": 2", b!"}\n"], true⟩]
        else if t = 2 then [⟨0, [b!"{\"a\""], false⟩] else []
      phase := .idle
      results := [] }

theorem sampleWorld_start : sampleWorld.Start := by
  refine ⟨?_, by decide, ?_, by decide, fun _ => rfl, fun _ => rfl, fun _ => rfl, fun _ => ⟨rfl, rfl⟩⟩
  · intro o ho; simp [sampleWorld] at ho; rcases ho with rfl | rfl <;> decide
  · intro c hc; simp [sampleWorld] at hc; rcases hc with rfl | rfl <;> decide

/-- Two goroutines in lock step, the second growing its buffer: their lines
come out whole. -/
example : (sampleWorld.run (fun _ n => 2 * n)
    ((List.range 150).map fun i => { thread := i % 3, pick := 0 })).out 0 =
      b!"{\"a\": 1}\n{\"a\": 1}\n{\"b\": 2}\n" := by decide +kernel

/-- A job and a call it makes. -/
example : Job.makes ⟨0, Sample.root, none, { time := none, level := 0, message := b!"m" }⟩
    ⟨0, [b!"{\"level\": \"INFO\"", b!", \"msg\": \"m\"}\n"], true⟩ := by
  refine ⟨rfl, ?_⟩
  have : Sample.root.handle none { time := none, level := 0, message := b!"m" } =
    .line b!"{\"level\": \"INFO\", \"msg\": \"m\"}\n" := by decide
  simp only [this]
  decide

end Verif.Props
