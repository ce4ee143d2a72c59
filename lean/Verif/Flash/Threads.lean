import Verif.Heap.Slice
import Verif.Basic

/-
Goroutines calling flash's `Handle`: recycled buffers and composers
(/repo/handlers/flash/pools.go, composer.go:28-49), the mutex and the writer
(/repo/handlers/flash/handler.go:52-136).

A goroutine is a program (a list of calls) and a phase; a schedule is a list of
choices. One step is: taking a buffer, taking a composer, one append of the
composer, locking, writing one byte, ending the write, returning the composer,
returning the buffer. The pools are shared by all handlers, mutex and writer by
the handlers of a family (derived from one NewHandler call).

Simplifications: what a call appends is given in advance (`Call.chunks`; it is
a function of handler and record, see Verif/Flash/Handler.lean); a marshaler
that itself logs is not modelled; the writer does not keep the slice it is
given (required by `io.Writer`); the fields of a composer other than `buffer`
are overwritten by `newComposer` in the same way and not represented.
-/

namespace Verif.Flash
open Heap

/-- A call of `Handle`: the family of the handler, the pieces the composer
appends, and whether composing ends well (handlers/flash/handler.go:58-127). -/
structure Call where
  fam : Nat
  chunks : List Bytes
  ok : Bool

/-- The text composed. -/
def Call.line (c : Call) : Bytes := c.chunks.flatten

/-- Where a goroutine is in `Handle` (handlers/flash/handler.go:52-136). `o` is
the variable `buffer`, `c` the composer. -/
inductive Phase
  /-- before line 55 -/
  | idle
  /-- before line 58 -/
  | buf (o : Slice)
  /-- lines 60-127, with the pieces still to append -/
  | comp (o : Slice) (c : Nat) (todo : List Bytes)
  /-- lines 129-133, mutex held, `k` bytes written -/
  | write (o : Slice) (c : Nat) (k : Nat)
  /-- deferred `reuseComposer(c)`, line 59 -/
  | free (o : Slice) (c : Nat)
  /-- deferred `logPool.put(buffer)`, line 56 -/
  | put (o : Slice)

/-- What a call of `Handle` returned. -/
inductive Result
  | ok
  | composeError
  | writeError
deriving DecidableEq

/-- A goroutine: calls still to finish (the first one is running), phase, and
what the finished calls returned. -/
structure Thread where
  calls : List Call
  phase : Phase
  results : List (Call × Result)

/-- A finished `Write`: who called it, for which call, the bytes that reached
the writer, and whether it succeeded. -/
structure Entry where
  thread : Nat
  call : Call
  written : Bytes
  ok : Bool

/-- The state of the program. -/
structure World where
  /-- backing arrays of buffers -/
  M : Mem UInt8
  /-- composers: the field `buffer` -/
  C : List Slice
  /-- `logPool` (handlers/flash/handler.go:50) -/
  bufs : List Slice
  /-- `composerPool` (handlers/flash/composer.go:14) -/
  comps : List Nat
  /-- who holds the mutex of a family -/
  lock : Nat → Option Nat
  /-- bytes received by the writer of a family -/
  out : Nat → Bytes
  /-- finished writes (history only) -/
  log : Nat → List Entry
  threads : Nat → Thread

/-- Change a function at one place. -/
def upd (f : Nat → α) (i : Nat) (x : α) : Nat → α := fun j => if j = i then x else f j

@[simp] theorem upd_same (f : Nat → α) (i x) : upd f i x i = x := by simp [upd]
@[simp] theorem upd_ne (f : Nat → α) {i j} (x) (h : j ≠ i) : upd f i x j = f j := by simp [upd, h]

/-- A choice of the scheduler: the goroutine that moves; which pool element it
gets (if there is one of that number, otherwise a new object is made); whether
the writer fails at this point. -/
structure Choice where
  thread : Nat
  pick : Nat := 0
  bad : Bool := false

/-- The composer's current buffer. -/
def World.cur (s : World) (c : Nat) : Slice := (s.C[c]?).getD Slice.nil

/-- A goroutine changes phase. -/
def World.go (s : World) (t : Nat) (p : Phase) : World :=
  { s with threads := upd s.threads t { s.threads t with phase := p } }

/-- Lines 55 of handlers/flash/handler.go: `logPool.get()[:0]`
(handlers/flash/pools.go:56-69; a new array has capacity `lenLog`). -/
def World.getBuf (s : World) (t pick : Nat) : World :=
  match s.bufs[pick]? with
  | some o => { s with bufs := s.bufs.eraseIdx pick }.go t (.buf { o with len := 0 })
  | none =>
    let (M, o) := s.M.alloc 1024
    { s with M }.go t (.buf o)

/-- `newComposer` (handlers/flash/composer.go:28-41). -/
def World.getComp (s : World) (t : Nat) (o : Slice) (chunks : List Bytes) (pick : Nat) : World :=
  match s.comps[pick]? with
  | some c => { s with comps := s.comps.eraseIdx pick, C := s.C.set c o }.go t (.comp o c chunks)
  | none => { s with C := s.C ++ [o] }.go t (.comp o s.C.length chunks)

/-- The end of `Handle` in the body: note the result. -/
def World.ret (s : World) (t : Nat) (call : Call) (res : Result) (p : Phase) : World :=
  let th := s.threads t
  { s with threads := upd s.threads t { th with phase := p, results := th.results ++ [(call, res)] } }

/-- End of `Write` and unlocking (handlers/flash/handler.go:129-135). -/
def World.endWrite (s : World) (t : Nat) (call : Call) (o : Slice) (c : Nat) (w : Bytes) (ok : Bool) : World :=
  let s := { s with
    lock := upd s.lock call.fam none
    log := upd s.log call.fam (s.log call.fam ++ [(⟨t, call, w, ok⟩ : Entry)]) }
  s.ret t call (if ok then .ok else .writeError) (.free o c)

/-- One step of goroutine `t` (handlers/flash/handler.go:52-136). -/
def World.step (grow : Nat → Nat → Nat) (s : World) (ch : Choice) : World :=
  let t := ch.thread
  match (s.threads t).calls with
  | [] => s
  | call :: rest =>
    match (s.threads t).phase with
    | .idle => s.getBuf t ch.pick
    | .buf o => s.getComp t o call.chunks ch.pick
    | .comp o c (x :: todo) =>
      let (M, sl) := s.M.append grow (s.cur c) x
      { s with M, C := s.C.set c sl }.go t (.comp o c todo)
    | .comp o c [] =>
      if call.ok then
        match s.lock call.fam with
        | some _ => s
        | none => { s with lock := upd s.lock call.fam (some t) }.go t (.write o c 0)
      else s.ret t call .composeError (.free o c)
    | .write o c k =>
      let b := s.M.read (s.cur c)
      if ch.bad then s.endWrite t call o c (b.take k) false
      else match b[k]? with
        | some x => { s with out := upd s.out call.fam (s.out call.fam ++ [x]) }.go t (.write o c (k + 1))
        | none => s.endWrite t call o c b true
    | .free o c => { s with comps := c :: s.comps }.go t (.put o)
    | .put o =>
      { s with
        bufs := o :: s.bufs
        threads := upd s.threads t { s.threads t with calls := rest, phase := .idle } }

/-- A schedule. -/
def World.run (grow : Nat → Nat → Nat) : World → List Choice → World
  | s, [] => s
  | s, c :: cs => World.run grow (s.step grow c) cs

/-- A program about to start, with pools in any state that sharing allows: the
pooled slices have distinct arrays, the pooled composers are distinct; their
contents are arbitrary. -/
structure World.Start (s : World) : Prop where
  bufs : ∀ o ∈ s.bufs, o.arr < s.M.length
  bufsNodup : (s.bufs.map Slice.arr).Nodup
  comps : ∀ c ∈ s.comps, c < s.C.length
  compsNodup : s.comps.Nodup
  lock : ∀ f, s.lock f = none
  out : ∀ f, s.out f = []
  log : ∀ f, s.log f = []
  idle : ∀ t, (s.threads t).phase = .idle ∧ (s.threads t).results = []

end Verif.Flash
