import Verif.Flash.Heap
import Verif.Flash.Sample

/-
Property C08 for flash: derived handlers and shared slices.
-/

namespace Verif.Props
open Slog Flash

/-- C08 in full, for flash: whatever is derived later, from whatever handlers,
each handler keeps printing what it printed. -/
def C08_flash_statement : Prop :=
  ∀ (F : Fam), F.Good → ∀ (ds es : List (Nat × Op)) (m m' : Store),
    Store.init.run F ds = some m → m.run F es = some m' →
    ∀ (i : Nat) (h : H), (m.values F)[i]? = some h →
      ∃ h' : H, (m'.values F)[i]? = some h' ∧ ∀ ctx r, h'.handle ctx r = h.handle ctx r

/-- A runtime that doubles arrays and appends in one piece. -/
def sampleFam (o : Options) : Fam :=
  { env := Sample.env, options := o, extras := Sample.extras, grow := fun _ n => 2 * n, chunk := fun b => [b] }

theorem sampleFam_good (o : Options) : (sampleFam o).Good :=
  ⟨fun _ n => by simp [sampleFam]; omega, fun b => by simp [sampleFam]⟩

/-- What handler `i` prints for a record after a history. -/
def printed (F : Fam) (ds : List (Nat × Op)) (i : Nat) (r : Record) : Option HOut :=
  (Store.init.run F ds).bind fun m => ((m.values F)[i]?).map (·.handle none r)

/-- C08 is false: `l.With("a", true)` is derived from twice; the second
derivation rewrites the prefix of the first. -/
theorem C08_flash_sibling_overwrites : ¬ C08_flash_statement := by
  intro hs
  have key : ∀ ds es i r x y, printed (sampleFam {}) ds i r = some x →
      printed (sampleFam {}) (ds ++ es) i r = some y → y = x := by
    intro ds es i r x y hx hy
    simp only [printed, Option.bind_eq_some_iff, Option.map_eq_some_iff] at hx hy
    obtain ⟨m, hm, h, hh, rfl⟩ := hx
    obtain ⟨m', hm', h', hh', rfl⟩ := hy
    rw [run_append, hm] at hm'
    obtain ⟨h'', e, hp⟩ := hs (sampleFam {}) (sampleFam_good {}) ds es m m' hm hm' i h hh
    rw [e] at hh'
    cases hh'
    exact hp none r
  have := key [(0, .attrs [.mk b!"a" (.bool true)]), (1, .attrs [.mk b!"b" (.bool true)])]
    [(1, .attrs [.mk b!"c" (.bool true)])] 2 { time := none, level := 0, message := b!"m" }
    (.line b!"{\"level\": \"INFO\", \"msg\": \"m\", \"a\": true, \"b\": true}\n")
    (.line b!"{\"level\": \"INFO\", \"msg\": \"m\", \"a\": true, \"c\": true}\n")
    (by decide +kernel) (by decide +kernel)
  revert this
  decide

/-- The same through the list of group names given to ReplaceAttr: four
handlers with three open groups share a list of capacity four. -/
theorem C08_flash_groups_overwritten : ∃ (F : Fam) (ds es : List (Nat × Op)) (m m' : Store) (g g' : List Bytes),
    F.Good ∧ Store.init.run F ds = some m ∧ m.run F es = some m' ∧
    (∀ d ∈ ds ++ es, ∃ n, d.2 = .group n) ∧
    ((m.values F)[4]?.map fun h => h.core.groups) = some g ∧
    ((m'.values F)[4]?.map fun h => h.core.groups) = some g' ∧ g ≠ g' := by
  refine ⟨{ sampleFam { replace := some fun _ a => a } with grow := fun _ n => if n = 3 then 4 else n },
    [(0, .group b!"a"), (1, .group b!"b"), (2, .group b!"c"), (3, .group b!"d")], [(3, .group b!"e")],
    _, _, [b!"a", b!"b", b!"c", b!"d"], [b!"a", b!"b", b!"c", b!"e"], ⟨?_, ?_⟩, rfl, rfl, ?_, ?_, ?_, ?_⟩
  · intro c n; simp only; split <;> omega
  · intro b; simp [sampleFam]
  · intro d hd
    simp only [List.cons_append, List.nil_append, List.mem_cons, List.not_mem_nil, or_false] at hd
    rcases hd with rfl | rfl | rfl | rfl | rfl <;> exact ⟨_, rfl⟩
  · decide +kernel
  · decide +kernel
  · decide

/-- C08 for histories in which no handler with a non-empty prefix is derived
from twice (any number of derivations from handlers without prefix, and any
chains): the shared slices behave exactly like immutable values, with any
growth policy, any piecewise appending and any ReplaceAttr. -/
theorem C08_flash_heap_refines_values (F : Fam) (hF : F.Good) (ds : List (Nat × Op)) (m : Store)
    (hrun : Store.init.run F ds = some m)
    (ho : Once [.plain (newHandler F.env F.options F.extras)] [] ds) :
    famRun [.plain (newHandler F.env F.options F.extras)] ds = some (m.values F) := by
  obtain ⟨fam', used', h1, h2⟩ := run_inv hF ds (init_inv F) ho hrun
  rw [h1, h2.values]

/-- C08 under that guard, as stated. -/
theorem C08_flash_immutable_partial (F : Fam) (hF : F.Good) (ds es : List (Nat × Op)) (m m' : Store)
    (h1 : Store.init.run F ds = some m) (h2 : m.run F es = some m')
    (ho : Once [.plain (newHandler F.env F.options F.extras)] [] (ds ++ es))
    (i : Nat) (h : H) (hi : (m.values F)[i]? = some h) :
    (m'.values F)[i]? = some h := by
  have e1 := C08_flash_heap_refines_values F hF ds m h1 (once_append ds es ho)
  have e2 := C08_flash_heap_refines_values F hF (ds ++ es) m'
    (by rw [run_append, h1]; exact h2) ho
  rw [famRun_append, e1] at e2
  obtain ⟨t, ht⟩ := famRun_prefix es e2
  rw [← ht, List.getElem?_append_left (by
    rcases Nat.lt_or_ge i (m.values F).length with h | h
    · exact h
    · rw [List.getElem?_eq_none h] at hi; cases hi)]
  exact hi

/-- Two loggers made from the new handler and one chain below each. -/
example : Once [.plain (newHandler Sample.env {} Sample.extras)] []
    ([(0, .attrs [.mk b!"a" (.bool true)]), (0, .group b!"g")] ++
      [(2, .attrs [.mk b!"c" (.bool true)]), (1, .attrs [.mk b!"b" (.bool true)])]) := by
  refine ⟨by simp, fun f hf => ?_⟩
  cases hf
  refine ⟨?_, fun f hf => ?_⟩
  · intro _ h hh; cases hh; rfl
  cases hf
  refine ⟨by simp, fun f hf => ?_⟩
  cases hf
  refine ⟨by simp, fun f hf => trivial⟩

end Verif.Props
