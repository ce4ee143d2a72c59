import Verif.Sloggy.Handler
import Verif.Flash.Threads

/-
Goroutines calling sloggy's `Handle` (/repo/handlers/sloggy/handler.go:41-106)
through handlers that share a writer and a mutex.

A goroutine is a program (a list of calls) and a phase; a schedule is a list of
goroutine numbers. One step is: starting a call, one `Write`, locking the mutex,
unlocking it.

Simplifications: a `Write` is a single step and does not fail; what a call writes
is given in advance (`callOf`: it is a function of handler and record); a
marshaler that itself logs is not modelled.
-/

namespace Verif.Sloggy.Conc
open Slog Sloggy
open Flash (upd upd_same upd_ne)

/-- A call of `Handle`: the `Write` calls it makes, in order, and whether it
succeeds; then the last one is the line end, made with the mutex held
(handlers/sloggy/handler.go:98-103). -/
structure Call where
  chunks : List Bytes
  ok : Bool
deriving DecidableEq

/-- The bytes of a call. -/
def Call.line (c : Call) : Bytes := c.chunks.flatten

/-- The call made for a handler and a record (handlers/sloggy/handler.go:41-106). -/
def callOf (h : H) (r : Record) : Call :=
  match h.handle none sure r with
  | .ok st => ⟨st.out, true⟩
  | .err st => ⟨st.out, false⟩
  | .overflow => ⟨[], false⟩

/-- Where a goroutine is in `Handle` (handlers/sloggy/handler.go:41-106). -/
inductive Phase
  /-- before line 42 -/
  | idle
  /-- lines 42-97, with the writes still to make -/
  | run (todo : List Bytes)
  /-- lines 99-103, mutex held -/
  | hold (last : Bytes)
  /-- deferred `Unlock`, line 99 -/
  | release
deriving DecidableEq

/-- A goroutine: calls still to finish (the first one is running), phase,
finished calls. -/
structure Thread where
  calls : List Call
  phase : Phase
  finished : List Call

/-- The state of the program. -/
structure World where
  /-- who holds the mutex -/
  lock : Option Nat
  /-- what the writer has received, with the goroutine it came from -/
  out : List (Nat × Bytes)
  threads : Nat → Thread

/-- The bytes received by the writer. -/
def World.bytes (s : World) : Bytes := s.out.flatMap Prod.snd

/-- A goroutine changes phase. -/
def World.go (s : World) (t : Nat) (p : Phase) : World :=
  { s with threads := upd s.threads t { s.threads t with phase := p } }

/-- A `Write` (e.g. handlers/sloggy/composer.go:60-65). -/
def World.emit (s : World) (t : Nat) (b : Bytes) : World := { s with out := s.out ++ [(t, b)] }

/-- `Handle` returns. -/
def World.ret (s : World) (t : Nat) (c : Call) (rest : List Call) : World :=
  { s with threads := upd s.threads t ⟨rest, .idle, (s.threads t).finished ++ [c]⟩ }

/-- One step of goroutine `t`; nothing happens if it has to wait for the mutex or
has no call left (handlers/sloggy/handler.go:41-106). -/
def World.step (s : World) (t : Nat) : World :=
  match (s.threads t).calls with
  | [] => s
  | c :: rest =>
    match (s.threads t).phase with
    | .idle => s.go t (.run c.chunks)
    | .run [] => s.ret t c rest
    | .run (x :: xs) =>
      if xs = [] ∧ c.ok = true then
        -- line 98
        match s.lock with
        | none => { s with lock := some t }.go t (.hold x)
        | some _ => s
      else (s.emit t x).go t (.run xs)
    -- line 101
    | .hold x => (s.emit t x).go t .release
    | .release => { s with lock := none }.ret t c rest

/-- Run a schedule. -/
def World.run (s : World) : List Nat → World
  | [] => s
  | t :: ts => (s.step t).run ts

/-- Nothing has happened yet. -/
structure World.Start (s : World) : Prop where
  lock : s.lock = none
  out : s.out = []
  idle : ∀ t, (s.threads t).phase = .idle
  finished : ∀ t, (s.threads t).finished = []

/-! ### Each goroutine's bytes, in any schedule -/

/-- What the running call has still to write. -/
def Thread.todo (th : Thread) : List Bytes :=
  match th.calls, th.phase with
  | [], _ => []
  | c :: _, .idle => c.chunks
  | _ :: _, .run xs => xs
  | _ :: _, .hold x => [x]
  | _ :: _, .release => []

/-- The writes of one goroutine. -/
def World.own (s : World) (t : Nat) : List Bytes :=
  (s.out.filter (fun e => e.1 == t)).map Prod.snd

/-- The writes made by `t` are those of its finished calls and of the part of
the running call that is not still to be made. -/
structure Orderly (s0 s : World) : Prop where
  calls : ∀ t, (s0.threads t).calls = (s.threads t).finished ++ (s.threads t).calls
  own : ∀ t, s.own t ++ (s.threads t).todo =
    (s.threads t).finished.flatMap Call.chunks ++ ((s.threads t).calls.take 1).flatMap Call.chunks
  lock : ∀ t, s.lock = some t ↔
    ((s.threads t).phase = .release ∨ ∃ x, (s.threads t).phase = .hold x)
  busy : ∀ t, (s.threads t).calls = [] → (s.threads t).phase = .idle
  run : ∀ t c rest, (s.threads t).calls = c :: rest → (s.threads t).phase = .run [] →
    c.ok = true → c.chunks = []

theorem start_orderly {s : World} (h : s.Start) : Orderly s s where
  calls := fun t => by rw [h.finished t]; rfl
  own := fun t => by
    rw [World.own, h.out, h.finished t]
    simp only [Thread.todo, h.idle t]
    cases (s.threads t).calls <;> simp
  lock := fun t => by rw [h.lock, h.idle t]; simp
  busy := fun t _ => h.idle t
  run := fun t _ _ _ hp => by rw [h.idle t] at hp; cases hp

theorem own_emit_same (s : World) (t : Nat) (b : Bytes) : (s.emit t b).own t = s.own t ++ [b] := by
  simp [World.own, World.emit]

theorem own_emit_ne (s : World) {t u : Nat} (b : Bytes) (h : u ≠ t) : (s.emit t b).own u = s.own u := by
  have : (t == u) = false := by simpa using fun e : t = u => h e.symm
  simp [World.own, World.emit, this]

theorem step_orderly {s0 s : World} (h : Orderly s0 s) (t : Nat) : Orderly s0 (s.step t) := by
  obtain ⟨h1, h2, h3, h4, h5⟩ := h
  unfold World.step
  split
  · exact ⟨h1, h2, h3, h4, h5⟩
  rename_i c rest hc
  have c1 := h1 t
  have c2 := h2 t
  have c3 := h3 t
  rw [hc] at c1 c2
  split
  · rename_i hp
    simp only [Thread.todo, hc, hp] at c2
    rw [hp] at c3
    refine ⟨fun u => ?_, fun u => ?_, fun u => ?_, fun u => ?_, fun u => ?_⟩ <;>
      by_cases hu : u = t
    · subst hu; simpa [World.go] using h1 u
    · simpa [World.go, hu] using h1 u
    · subst hu; simpa [World.go, Thread.todo, hc, World.own] using c2
    · simpa [World.go, hu, World.own] using h2 u
    · subst hu
      show s.lock = some u ↔ _
      rw [c3]; simp [World.go]
    · simpa [World.go, hu] using h3 u
    · subst hu; simp [World.go, hc]
    · simpa [World.go, hu] using h4 u
    · subst hu; simp only [World.go, upd_same, hc, List.cons.injEq, Phase.run.injEq]
      rintro d r ⟨rfl, rfl⟩ e _; exact e
    · simpa [World.go, hu] using h5 u
  · rename_i hp
    simp only [Thread.todo, hc, hp] at c2
    rw [hp] at c3
    refine ⟨fun u => ?_, fun u => ?_, fun u => ?_, fun u => ?_, fun u => ?_⟩ <;>
      by_cases hu : u = t
    · subst hu; simpa [World.ret, hc] using h1 u
    · simpa [World.ret, hu] using h1 u
    · subst hu
      simp only [World.ret, upd_same, Thread.todo]
      cases rest
      · simpa [World.own] using c2
      · have c2' : s.own u = (s.threads u).finished.flatMap Call.chunks ++ c.chunks := by simpa using c2
        simp only [World.own] at c2' ⊢
        rw [c2']; simp
    · simpa [World.ret, hu, World.own] using h2 u
    · subst hu
      show s.lock = some u ↔ _
      rw [c3]; simp [World.ret]
    · simpa [World.ret, hu] using h3 u
    · subst hu; simp [World.ret]
    · simpa [World.ret, hu] using h4 u
    · subst hu; simp [World.ret]
    · simpa [World.ret, hu] using h5 u
  · rename_i x xs hp
    simp only [Thread.todo, hc, hp] at c2
    rw [hp] at c3
    split
    · rename_i hx
      obtain ⟨rfl, hok⟩ := hx
      split
      · rename_i hl
        refine ⟨fun u => ?_, fun u => ?_, fun u => ?_, fun u => ?_, fun u => ?_⟩ <;>
          by_cases hu : u = t
        · subst hu; simpa [World.go] using h1 u
        · simpa [World.go, hu] using h1 u
        · subst hu; simpa [World.go, Thread.todo, hc, World.own] using c2
        · simpa [World.go, hu, World.own] using h2 u
        · subst hu; simp [World.go]
        · have := h3 u
          rw [hl] at this
          have hu' : t ≠ u := fun e => hu e.symm
          simpa [World.go, hu, hu'] using this
        · subst hu; simp [World.go, hc]
        · simpa [World.go, hu] using h4 u
        · subst hu; simp [World.go]
        · simpa [World.go, hu] using h5 u
      · exact ⟨h1, h2, h3, h4, h5⟩
    · rename_i hx
      refine ⟨fun u => ?_, fun u => ?_, fun u => ?_, fun u => ?_, fun u => ?_⟩ <;>
        by_cases hu : u = t
      · subst hu; simpa [World.go, World.emit] using h1 u
      · simpa [World.go, World.emit, hu] using h1 u
      · subst hu
        have := own_emit_same s u x
        simp only [World.own, World.go] at this ⊢
        rw [this]
        simpa [Thread.todo, hc, World.own, World.emit] using c2
      · have := own_emit_ne s x hu
        simp only [World.own, World.go] at this ⊢
        rw [this]
        simpa [hu, World.own, World.emit] using h2 u
      · subst hu
        show s.lock = some u ↔ _
        rw [c3]; simp [World.go]
      · simpa [World.go, World.emit, hu] using h3 u
      · subst hu; simp [World.go, World.emit, hc]
      · simpa [World.go, World.emit, hu] using h4 u
      · subst hu
        simp only [World.go, World.emit, upd_same, hc, List.cons.injEq, Phase.run.injEq]
        rintro d r ⟨rfl, rfl⟩ rfl hd
        simp [hd] at hx
      · simpa [World.go, World.emit, hu] using h5 u
  · rename_i x hp
    simp only [Thread.todo, hc, hp] at c2
    rw [hp] at c3
    refine ⟨fun u => ?_, fun u => ?_, fun u => ?_, fun u => ?_, fun u => ?_⟩ <;>
      by_cases hu : u = t
    · subst hu; simpa [World.go, World.emit] using h1 u
    · simpa [World.go, World.emit, hu] using h1 u
    · subst hu
      have := own_emit_same s u x
      simp only [World.own, World.go] at this ⊢
      rw [this]
      simpa [Thread.todo, hc, World.own, World.emit] using c2
    · have := own_emit_ne s x hu
      simp only [World.own, World.go] at this ⊢
      rw [this]
      simpa [hu, World.own, World.emit] using h2 u
    · subst hu
      show s.lock = some u ↔ _
      rw [c3]; simp [World.go]
    · simpa [World.go, World.emit, hu] using h3 u
    · subst hu; simp [World.go, World.emit, hc]
    · simpa [World.go, World.emit, hu] using h4 u
    · subst hu; simp [World.go, World.emit]
    · simpa [World.go, World.emit, hu] using h5 u
  · rename_i hp
    simp only [Thread.todo, hc, hp] at c2
    have hl : s.lock = some t := c3.2 (.inl hp)
    refine ⟨fun u => ?_, fun u => ?_, fun u => ?_, fun u => ?_, fun u => ?_⟩ <;>
      by_cases hu : u = t
    · subst hu; simpa [World.ret, hc] using h1 u
    · simpa [World.ret, hu] using h1 u
    · subst hu
      simp only [World.ret, upd_same, Thread.todo]
      cases rest
      · simpa [World.own] using c2
      · have c2' : s.own u = (s.threads u).finished.flatMap Call.chunks ++ c.chunks := by simpa using c2
        simp only [World.own] at c2' ⊢
        rw [c2']; simp
    · simpa [World.ret, hu, World.own] using h2 u
    · subst hu; simp [World.ret]
    · have := h3 u
      rw [hl] at this
      have hu' : t ≠ u := fun e => hu e.symm
      simp only [Option.some.injEq, hu', false_iff] at this
      simpa [World.ret, hu] using this
    · subst hu; simp [World.ret]
    · simpa [World.ret, hu] using h4 u
    · subst hu; simp [World.ret]
    · simpa [World.ret, hu] using h5 u

theorem run_orderly {s0 : World} : ∀ (ts : List Nat) {s : World}, Orderly s0 s → Orderly s0 (s.run ts)
  | [], _, h => h
  | t :: ts, _, h => run_orderly ts (step_orderly h t)

/-- What is left of the running call is its end. -/
def Tail (s : World) : Prop :=
  ∀ t c rest, (s.threads t).calls = c :: rest → (s.threads t).todo <:+ c.chunks

theorem start_tail {s : World} (h : s.Start) : Tail s := fun t c rest hc => by
  simp only [Thread.todo, hc, h.idle t]
  exact List.suffix_rfl

theorem step_tail {s : World} (h : Tail s) (t : Nat) : Tail (s.step t) := by
  unfold World.step
  split
  · exact h
  rename_i c rest hc
  have c1 := h t c rest hc
  split
  · intro u d r
    by_cases hu : u = t
    · subst hu
      simp only [World.go, upd_same, hc, List.cons.injEq, Thread.todo]
      rintro ⟨rfl, rfl⟩; exact List.suffix_rfl
    · simpa [World.go, hu] using h u d r
  · intro u d r
    by_cases hu : u = t
    · subst hu
      simp only [World.ret, upd_same, Thread.todo]
      rintro rfl; exact List.suffix_rfl
    · simpa [World.ret, hu] using h u d r
  · rename_i x xs hp
    simp only [Thread.todo, hc, hp] at c1
    split
    · rename_i hx
      split
      · intro u d r
        by_cases hu : u = t
        · subst hu
          simp only [World.go, upd_same, hc, List.cons.injEq, Thread.todo]
          rintro ⟨rfl, rfl⟩; rw [← hx.1]; exact c1
        · simpa [World.go, hu] using h u d r
      · exact h
    · intro u d r
      by_cases hu : u = t
      · subst hu
        simp only [World.go, World.emit, upd_same, hc, List.cons.injEq, Thread.todo]
        rintro ⟨rfl, rfl⟩; exact (List.suffix_cons x xs).trans c1
      · simpa [World.go, World.emit, hu] using h u d r
  · intro u d r
    by_cases hu : u = t
    · subst hu
      simp only [World.go, World.emit, upd_same, hc, List.cons.injEq, Thread.todo]
      rintro ⟨rfl, rfl⟩; exact List.nil_suffix
    · simpa [World.go, World.emit, hu] using h u d r
  · intro u d r
    by_cases hu : u = t
    · subst hu
      simp only [World.ret, upd_same, Thread.todo]
      rintro rfl; exact List.suffix_rfl
    · simpa [World.ret, hu] using h u d r

theorem run_tail : ∀ (ts : List Nat) {s : World}, Tail s → Tail (s.run ts)
  | [], _, h => h
  | t :: ts, _, h => run_tail ts (step_tail h t)

/-! ### Serialised use -/

/-- No call starts while another goroutine is inside one. -/
def World.Serial (s : World) : List Nat → Prop
  | [] => True
  | t :: ts => ((s.threads t).calls ≠ [] → (s.threads t).phase = .idle →
      ∀ u, (s.threads u).phase = .idle) ∧ (s.step t).Serial ts

/-- The writer has received whole lines, then the beginning of one. -/
structure Whole (s : World) (done : List (Nat × Call)) (part : Bytes) : Prop where
  bytes : s.bytes = done.flatMap (fun e => e.2.line) ++ part
  order : ∀ t, (done.filter (fun e => e.1 == t)).map Prod.snd = (s.threads t).finished
  shape : ((∀ t, (s.threads t).phase = .idle) ∧ part = []) ∨
    ∃ t c rest, (s.threads t).calls = c :: rest ∧ (s.threads t).phase ≠ .idle ∧
      (∀ u, u ≠ t → (s.threads u).phase = .idle) ∧ part ++ (s.threads t).todo.flatten = c.line

theorem step_whole {s : World} {done : List (Nat × Call)} {part : Bytes}
    (h : Whole s done part) (t : Nat)
    (hs : (s.threads t).calls ≠ [] → (s.threads t).phase = .idle → ∀ u, (s.threads u).phase = .idle) :
    ∃ done' part', Whole (s.step t) (done ++ done') part' := by
  obtain ⟨h1, h2, h3⟩ := h
  unfold World.step
  split
  · exact ⟨[], part, by simpa using h1, by simpa using h2, h3⟩
  rename_i c rest hc
  have hs := hs (by rw [hc]; simp)
  split
  · rename_i hp
    have hall := hs hp
    have hpart : part = [] := by
      rcases h3 with ⟨_, h⟩ | ⟨u, _, _, _, h, _⟩
      · exact h
      · exact absurd (hall u) h
    subst hpart
    refine ⟨[], [], by simpa [World.bytes, World.go] using h1, fun u => ?_, .inr ⟨t, c, rest, ?_, ?_, ?_, ?_⟩⟩
    · by_cases hu : u = t
      · subst hu; simpa [World.go] using h2 u
      · simpa [World.go, hu] using h2 u
    · simpa [World.go] using hc
    · simp [World.go]
    · intro u hu; simpa [World.go, hu] using hall u
    · simp [World.go, Thread.todo, hc, Call.line]
  all_goals
    rename_i hp
    have hne : (s.threads t).phase ≠ .idle := by rw [hp]; simp
    have hmid : (∀ u, u ≠ t → (s.threads u).phase = .idle) ∧
        part ++ (s.threads t).todo.flatten = c.line := by
      rcases h3 with ⟨h, _⟩ | ⟨u, c', rest', hc', hu, hn, hb⟩
      · exact absurd (h t) hne
      · by_cases hut : u = t
        · subst hut
          rw [hc] at hc'
          injection hc' with e1 e2
          subst e1; exact ⟨hn, hb⟩
        · exact absurd (hn t (fun e => hut e.symm)) hne
    obtain ⟨hn, hb⟩ := hmid
    simp only [Thread.todo, hc, hp] at hb
  · refine ⟨[(t, c)], [], ?_, fun u => ?_, .inl ⟨fun u => ?_, rfl⟩⟩
    · simp only [List.flatten_nil, List.append_nil] at hb
      simpa [World.bytes, World.ret, hb] using h1
    · by_cases hu : u = t
      · subst hu; simpa [World.ret] using h2 u
      · have hu' : (t == u) = false := by simpa using fun e : t = u => hu e.symm
        simpa [World.ret, hu, hu'] using h2 u
    · by_cases hu : u = t
      · subst hu; simp [World.ret]
      · simpa [World.ret, hu] using hn u hu
  · rename_i x xs
    split
    · rename_i hx
      obtain ⟨rfl, hok⟩ := hx
      split
      · refine ⟨[], part, by simpa [World.bytes, World.go] using h1, fun u => ?_,
          .inr ⟨t, c, rest, ?_, ?_, ?_, ?_⟩⟩
        · by_cases hu : u = t
          · subst hu; simpa [World.go] using h2 u
          · simpa [World.go, hu] using h2 u
        · simpa [World.go] using hc
        · simp [World.go]
        · intro u hu; simpa [World.go, hu] using hn u hu
        · simpa [World.go, Thread.todo, hc] using hb
      · exact ⟨[], part, by simpa using h1, by simpa using h2, h3⟩
    · refine ⟨[], part ++ x, ?_, fun u => ?_, .inr ⟨t, c, rest, ?_, ?_, ?_, ?_⟩⟩
      · simp only [World.bytes] at h1
        simp [World.bytes, World.go, World.emit, h1]
      · by_cases hu : u = t
        · subst hu; simpa [World.go, World.emit] using h2 u
        · simpa [World.go, World.emit, hu] using h2 u
      · simpa [World.go, World.emit] using hc
      · simp [World.go]
      · intro u hu; simpa [World.go, World.emit, hu] using hn u hu
      · simpa [World.go, World.emit, Thread.todo, hc] using hb
  · rename_i x
    refine ⟨[], part ++ x, ?_, fun u => ?_, .inr ⟨t, c, rest, ?_, ?_, ?_, ?_⟩⟩
    · simp only [World.bytes] at h1
      simp [World.bytes, World.go, World.emit, h1]
    · by_cases hu : u = t
      · subst hu; simpa [World.go, World.emit] using h2 u
      · simpa [World.go, World.emit, hu] using h2 u
    · simpa [World.go, World.emit] using hc
    · simp [World.go]
    · intro u hu; simpa [World.go, World.emit, hu] using hn u hu
    · simpa [World.go, World.emit, Thread.todo, hc] using hb
  · refine ⟨[(t, c)], [], ?_, fun u => ?_, .inl ⟨fun u => ?_, rfl⟩⟩
    · simp only [List.flatten_nil, List.append_nil] at hb
      simpa [World.bytes, World.ret, hb] using h1
    · by_cases hu : u = t
      · subst hu; simpa [World.ret] using h2 u
      · have hu' : (t == u) = false := by simpa using fun e : t = u => hu e.symm
        simpa [World.ret, hu, hu'] using h2 u
    · by_cases hu : u = t
      · subst hu; simp [World.ret]
      · simpa [World.ret, hu] using hn u hu

theorem run_whole : ∀ (ts : List Nat) {s : World} {done : List (Nat × Call)} {part : Bytes},
    Whole s done part → s.Serial ts →
    ∃ done' part', Whole (s.run ts) (done ++ done') part'
  | [], _, _, part, h, _ => ⟨[], part, by rwa [List.append_nil]⟩
  | t :: ts, _, _, _, h, hs => by
    obtain ⟨d, p, h'⟩ := step_whole h t hs.1
    obtain ⟨d', p', h''⟩ := run_whole ts h' hs.2
    exact ⟨d ++ d', p', by rwa [← List.append_assoc]⟩

/-! ### Progress -/

theorem run_append (s : World) (as bs : List Nat) : s.run (as ++ bs) = (s.run as).run bs := by
  induction as generalizing s with
  | nil => rfl
  | cons a as ih => exact ih _

/-- What running goroutine `t` alone reaches: `t` has no call left, the mutex is
free, nobody else has moved. -/
def Done (s s' : World) (t : Nat) : Prop :=
  (s'.threads t).calls = [] ∧ s'.lock = none ∧ ∀ u, u ≠ t → s'.threads u = s.threads u

/-- Running `t` once, then on. -/
theorem done_step {s : World} {t : Nat} (hn : ∀ u, u ≠ t → (s.step t).threads u = s.threads u)
    (h : ∃ n, Done (s.step t) ((s.step t).run (List.replicate n t)) t) :
    ∃ n, Done s (s.run (List.replicate n t)) t := by
  obtain ⟨n, h1, h2, h3⟩ := h
  refine ⟨n + 1, ?_⟩
  rw [List.replicate_succ, World.run]
  exact ⟨h1, h2, fun u hu => by rw [h3 u hu, hn u hu]⟩

/-- A step of `t` moves nobody else. -/
theorem step_others (s : World) {t u : Nat} (hu : u ≠ t) : (s.step t).threads u = s.threads u := by
  unfold World.step
  repeat' split
  all_goals simp [World.go, World.emit, World.ret, hu]

/-- The end of a call, from the moment the mutex is held. -/
theorem finish_hold {s : World} {t : Nat} {c : Call} {rest : List Call}
    (ih : ∀ s : World, (s.threads t).calls = rest → (s.threads t).phase = .idle → s.lock = none →
      ∃ n, Done s (s.run (List.replicate n t)) t)
    (hc : (s.threads t).calls = c :: rest)
    (hp : (s.threads t).phase = .release ∨ ∃ x, (s.threads t).phase = .hold x) :
    ∃ n, Done s (s.run (List.replicate n t)) t := by
  have rel : ∀ s : World, (s.threads t).calls = c :: rest → (s.threads t).phase = .release →
      ∃ n, Done s (s.run (List.replicate n t)) t := fun s hc hp => by
    refine done_step (fun u hu => step_others s hu) ?_
    have e : s.step t = { s with lock := none }.ret t c rest := by simp only [World.step, hc, hp]
    rw [e]
    exact ih _ (by simp [World.ret]) (by simp [World.ret]) rfl
  rcases hp with hp | ⟨x, hp⟩
  · exact rel s hc hp
  · refine done_step (fun u hu => step_others s hu) ?_
    have e : s.step t = (s.emit t x).go t .release := by simp only [World.step, hc, hp]
    rw [e]
    exact rel _ (by simp [World.go, World.emit, hc]) (by simp [World.go])

/-- The writes of a call, with the mutex free. -/
theorem finish_run {t : Nat} {c : Call} {rest : List Call}
    (ih : ∀ s : World, (s.threads t).calls = rest → (s.threads t).phase = .idle → s.lock = none →
      ∃ n, Done s (s.run (List.replicate n t)) t) (xs : List Bytes) :
    ∀ s : World, (s.threads t).calls = c :: rest → (s.threads t).phase = .run xs → s.lock = none →
      ∃ n, Done s (s.run (List.replicate n t)) t := by
  induction xs with
  | nil =>
    intro s hc hp hl
    refine done_step (fun u hu => step_others s hu) ?_
    have e : s.step t = s.ret t c rest := by simp only [World.step, hc, hp]
    rw [e]
    exact ih _ (by simp [World.ret]) (by simp [World.ret]) hl
  | cons x xs ihx =>
    intro s hc hp hl
    refine done_step (fun u hu => step_others s hu) ?_
    by_cases hx : xs = [] ∧ c.ok = true
    · have e : s.step t = { s with lock := some t }.go t (.hold x) := by
        simp only [World.step, hc, hp, if_pos hx, hl]
      rw [e]
      exact finish_hold (c := c) ih (by simp [World.go, hc]) (.inr ⟨x, by simp [World.go]⟩)
    · have e : s.step t = (s.emit t x).go t (.run xs) := by
        simp only [World.step, hc, hp, if_neg hx]
      rw [e]
      exact ihx _ (by simp [World.go, World.emit, hc]) (by simp [World.go]) hl

/-- With the mutex free, a goroutine between two calls can finish all its calls. -/
theorem finish_idle (t : Nat) : ∀ (calls : List Call) (s : World), (s.threads t).calls = calls →
    (s.threads t).phase = .idle → s.lock = none → ∃ n, Done s (s.run (List.replicate n t)) t
  | [], _, hc, _, hl => ⟨0, hc, hl, fun _ _ => rfl⟩
  | c :: rest, s, hc, hp, hl => by
    refine done_step (fun u hu => step_others s hu) ?_
    have e : s.step t = s.go t (.run c.chunks) := by simp only [World.step, hc, hp]
    rw [e]
    exact finish_run (c := c) (finish_idle t rest) c.chunks _ (by simp [World.go, hc]) (by simp [World.go]) hl

/-- A goroutine can finish all its calls unless another one has the mutex. -/
theorem finish {s0 s : World} (h : Orderly s0 s) (t : Nat) (hl : s.lock = none ∨ s.lock = some t) :
    ∃ n, Done s (s.run (List.replicate n t)) t := by
  cases hc : (s.threads t).calls with
  | nil =>
    refine ⟨0, hc, ?_, fun _ _ => rfl⟩
    rcases hl with hl | hl
    · exact hl
    · have := (h.lock t).1 hl
      rw [h.busy t hc] at this
      simp at this
  | cons c rest =>
    rcases hl with hl | hl
    · cases hp : (s.threads t).phase with
      | idle => exact finish_idle t _ s rfl hp hl
      | run xs => exact finish_run (finish_idle t rest) xs s hc hp hl
      | hold x => exact absurd ((h.lock t).2 (.inr ⟨x, hp⟩)) (by rw [hl]; simp)
      | release => exact absurd ((h.lock t).2 (.inl hp)) (by rw [hl]; simp)
    · exact finish_hold (finish_idle t rest) hc ((h.lock t).1 hl)

/-- With the mutex free, the goroutines below `n` can all finish. -/
theorem finish_all {s0 : World} : ∀ (n : Nat) {s : World}, Orderly s0 s → s.lock = none →
    ∃ ts, (∀ t, t < n → ((s.run ts).threads t).calls = []) ∧ (s.run ts).lock = none ∧
      ∀ t, n ≤ t → (s.run ts).threads t = s.threads t
  | 0, _, _, hl => ⟨[], fun _ h => absurd h (Nat.not_lt_zero _), hl, fun _ _ => rfl⟩
  | n + 1, s, h, hl => by
    obtain ⟨ts, h1, h2, h3⟩ := finish_all n h hl
    obtain ⟨k, g1, g2, g3⟩ := finish (run_orderly ts h) n (.inl h2)
    refine ⟨ts ++ List.replicate k n, fun t ht => ?_, ?_, fun t ht => ?_⟩
    · rw [run_append]
      by_cases e : t = n
      · rw [e]; exact g1
      · rw [g3 t e]; exact h1 t (by omega)
    · rw [run_append]; exact g2
    · rw [run_append, g3 t (by omega)]; exact h3 t (by omega)

/-- From any state met on the way, all calls can still finish. -/
theorem progress {s0 s : World} {n : Nat} (h : Orderly s0 s) (hn : ∀ t, n ≤ t → (s.threads t).calls = []) :
    ∃ ts, ∀ t, ((s.run ts).threads t).calls = [] := by
  have key : ∀ s : World, Orderly s0 s → s.lock = none → (∀ t, n ≤ t → (s.threads t).calls = []) →
      ∃ ts, ∀ t, ((s.run ts).threads t).calls = [] := fun s h hl hn => by
    obtain ⟨ts, h1, _, h3⟩ := finish_all n h hl
    refine ⟨ts, fun t => ?_⟩
    by_cases ht : t < n
    · exact h1 t ht
    · rw [h3 t (by omega)]; exact hn t (by omega)
  cases hl : s.lock with
  | none => exact key s h hl hn
  | some t =>
    obtain ⟨k, g1, g2, g3⟩ := finish h t (.inr hl)
    obtain ⟨ts, hts⟩ := key _ (run_orderly _ h) g2 (fun u hu => by
      by_cases e : u = t
      · rw [e]; exact g1
      · rw [g3 u e]; exact hn u hu)
    exact ⟨List.replicate k t ++ ts, fun u => by rw [run_append]; exact hts u⟩

/-! ### Mutual exclusion -/

/-- Two goroutines are never both at the write of the line end. -/
theorem exclusive {s0 s : World} (h : Orderly s0 s) {t u : Nat} {x y : Bytes}
    (ht : (s.threads t).phase = .hold x) (hu : (s.threads u).phase = .hold y) : t = u := by
  have a := (h.lock t).2 (.inr ⟨x, ht⟩)
  have b := (h.lock u).2 (.inr ⟨y, hu⟩)
  rw [a] at b
  exact Option.some.inj b

end Verif.Sloggy.Conc
