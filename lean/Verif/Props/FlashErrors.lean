import Verif.Flash.Errors
import Verif.Props.FlashThreads

/-
Property C12: errors in flash.
-/

namespace Verif.Props
open Slog LogTree Flash

/-- C12, when: without ReplaceAttr, `Handle` of any derived handler, in any
context, fails exactly if showing some attribute of the record gives an error,
wherever it is; the error returned is the first one met. Otherwise there is a
line to write. -/
theorem C12_flash_error_iff (env : Env) (o : Options) (x : Extras) (ops : List Op) (h : H)
    (ho : o.replace = none) (hd : (H.plain (newHandler env o x)).derive ops = some h) (ctx : Ctx)
    (r : Record) (hs : listDepth r.attrs < env.stack) :
    (∀ m, h.handle ctx r = .fail m ↔ listError env r.attrs = some m) ∧
    ((∃ b, h.handle ctx r = .line b) ↔ listError env r.attrs = none) := by
  have hu : h.Uniform (newHandler env o x) :=
    derive_uniform (h := .plain (newHandler env o x)) ⟨rfl, rfl, rfl⟩ hd
  have := H.handle_says (h0 := newHandler env o x) ho hu ctx r hs
  change match listError env r.attrs with
    | none => ∃ b, h.handle ctx r = .line b
    | some m => h.handle ctx r = .fail m at this
  split at this
  · rename_i he
    obtain ⟨b, this⟩ := this
    rw [this, he]
    simp
  · rename_i m he
    rw [this, he]
    simp [eq_comm]

/-- C12, consequence, in the model of goroutines: whatever the schedule, pools
and write failures, all bytes a writer receives belong to calls that composed
without error; a goroutine whose calls all fail writes nothing at all, and each
of its finished calls returns the error. -/
theorem C12_flash_failing_writes_nothing (grow : Nat → Nat → Nat) (hg : ∀ c n, n ≤ grow c n)
    (s : World) (hs : s.Start) (cs : List Choice) (f : Nat)
    (hfree : (s.run grow cs).lock f = none) :
    ∃ log : List Entry, (s.run grow cs).out f = log.flatMap Entry.written ∧
      (∀ e ∈ log, e.call.ok = true) ∧
      ∀ t, (∀ c ∈ (s.threads t).calls, c.ok = false) →
        (∀ e ∈ log, e.thread ≠ t) ∧
        ∀ x ∈ ((s.run grow cs).threads t).results, x.2 = .composeError := by
  obtain ⟨_, hist⟩ := run_hist hg cs (start_sep hs) (start_hist hs)
  generalize s.run grow cs = s' at hist hfree
  have mem : ∀ e ∈ s'.log f, e.call.ok = true ∧ e.call ∈ (s.threads e.thread).calls := by
    intro e he
    have h1 : (e.call, e.ok) ∈ ((s'.log f).filter (fun x => x.thread == e.thread)).map
        (fun e => (e.call, e.ok)) :=
      List.mem_map.2 ⟨e, List.mem_filter.2 ⟨he, by simp⟩, rfl⟩
    rw [hist.order e.thread f] at h1
    obtain ⟨x, hx, hxe⟩ := List.mem_map.1 h1
    obtain ⟨hx1, hx2⟩ := List.mem_filter.1 hx
    simp only [Prod.mk.injEq] at hxe
    have hx3 := hist.results e.thread x hx1
    refine ⟨?_, ?_⟩
    · rw [← hxe.1]
      cases ho : x.1.ok
      · rw [hx3.2 ho] at hx2; simp at hx2
      · rfl
    · rw [hist.prog e.thread, ← hxe.1]
      exact List.mem_append_left _ (List.mem_map.2 ⟨x, hx1, rfl⟩)
  refine ⟨s'.log f, hist.free f hfree, fun e he => (mem e he).1, ?_⟩
  intro t ht
  refine ⟨?_, ?_⟩
  · rintro e he rfl
    have := ht _ (mem e he).2
    rw [(mem e he).1] at this
    cases this
  · intro x hx
    rw [hist.results t x hx]
    apply ht
    have : (s.threads t).calls = _ := hist.prog t
    rw [this]
    exact List.mem_append_left _ (List.mem_map.2 ⟨x, hx, rfl⟩)

/-- Goroutine 2 of the sample fails, after having composed a piece. -/
example : (∀ c ∈ (sampleWorld.threads 2).calls, c.ok = false) ∧
    (((sampleWorld.run (fun _ n => 2 * n)
      ((List.range 150).map fun i => { thread := i % 3, pick := 0 })).threads 2).results).map
        Prod.snd = [.composeError] := by decide +kernel

/-- A record whose third attribute fails, deep inside, after others rendered. -/
def failing : List Attr :=
  [Sample.i b!"a" 1, .grp b!"g" [Sample.s b!"b" b!"x",
    .grp b!"h" [.mk b!"bad" (.any (.obj { jsonM := some (.error b!"no"), marshal := .ok b!"{}" }))]],
   .mk b!"worse" (.any (.obj { marshal := .error b!"never" }))]

example : listError Sample.env failing = some b!"no" ∧
    (Sample.root.derive Sample.ops).map (·.handle none { Sample.record with attrs := failing }) =
      some (.fail b!"no") := by
  constructor
  · decide
  · decide +kernel

end Verif.Props
