import Verif.Sloggy.Heap
import Verif.Flash.Sample

/-
Property C08 for sloggy: derived handlers and the shared list of group names.
-/

namespace Verif.Props.SloggyHeap
open Slog Sloggy
open Flash.Sample (env)

/-- C08 in full, for sloggy: whatever is derived later, from whatever handlers,
each handler keeps writing what it wrote. -/
def C08_sloggy_statement : Prop :=
  ∀ (F : Fam), F.Good → ∀ (ds es : List (Nat × Op)) (m m' : Store),
    Store.init.run F ds = some m → m.run F es = some m' →
    ∀ (i : Nat) (h : H), (m.values F)[i]? = some h →
      ∃ h' : H, (m'.values F)[i]? = some h' ∧ ∀ ctx w r, h'.handle ctx w r = h.handle ctx w r

/-- ReplaceAttr that shows the innermost open group. -/
def innermost : AttrFn := fun gs a => .mk a.key (.string (gs.getLast?.getD []))

/-- A runtime that grows a full array of two to four. -/
def fam4 : Fam :=
  { env, options := { replace := some innermost }, grow := fun _ n => if n = 3 then 4 else n }

theorem fam4_good : fam4.Good := fun _ n => by
  simp only [fam4]
  split <;> omega

/-- What handler `i` prints for a record after a history. -/
def printed (F : Fam) (ds : List (Nat × Op)) (i : Nat) (r : Record) : Option (Option Bytes) :=
  (Store.init.run F ds).bind fun m => ((m.values F)[i]?).map fun h =>
    match h.handle none sure r with
    | .ok st => some st.out.flatten
    | _ => none

/-- C08 is false for sloggy with ReplaceAttr: a handler with three open groups is
derived from twice; opening the second group renames the first one in the list
that ReplaceAttr is given. -/
theorem C08_sloggy_groups_overwritten : ¬ C08_sloggy_statement := by
  intro hs
  have key : ∀ ds es i r x y, printed fam4 ds i r = some x →
      printed fam4 (ds ++ es) i r = some y → y = x := by
    intro ds es i r x y hx hy
    simp only [printed, Option.bind_eq_some_iff, Option.map_eq_some_iff] at hx hy
    obtain ⟨m, hm, h, hh, rfl⟩ := hx
    obtain ⟨m', hm', h', hh', rfl⟩ := hy
    rw [run_append, hm] at hm'
    obtain ⟨h'', e, hp⟩ := hs fam4 fam4_good ds es m m' hm hm' i h hh
    rw [e] at hh'
    cases hh'
    rw [hp none sure r]
  have := key [(0, .group b!"a"), (1, .group b!"b"), (2, .group b!"c"), (3, .group b!"d")]
    [(3, .group b!"e")] 4
    { time := none, level := 0, message := b!"m", attrs := [.mk b!"k" (.bool true)] }
    (some b!"{\"level\": \"\", \"msg\": \"\", \"a\": {\"b\": {\"c\": {\"d\": {\"k\": \"d\"}}}}}\r\n")
    (some b!"{\"level\": \"\", \"msg\": \"\", \"a\": {\"b\": {\"c\": {\"d\": {\"k\": \"e\"}}}}}\r\n")
    (by decide +kernel) (by decide +kernel)
  revert this
  decide

/-- C08 for sloggy without ReplaceAttr, for every history: each handler goes on
writing exactly the same, whatever is derived from whatever, for every record,
context and writer. Missing: ReplaceAttr, where it is false in general. -/
theorem C08_sloggy_without_replace_partial (F : Fam) (hr : F.options.replace = none)
    (ds es : List (Nat × Op)) (m m' : Store)
    (_ : Store.init.run F ds = some m) (h2 : m.run F es = some m')
    (i : Nat) (h : H) (hi : (m.values F)[i]? = some h) :
    ∃ h' : H, (m'.values F)[i]? = some h' ∧ ∀ ctx w r, h'.handle ctx w r = h.handle ctx w r := by
  have i0 : Loose F m (m.values F) := ⟨rfl, values_noReplace hr m⟩
  obtain ⟨fam', hf, inv⟩ := run_loose hr es i0 h2
  obtain ⟨t, ht⟩ := famRun_prefix es hf
  have hlt : i < (m.values F).length := (List.getElem?_eq_some_iff.1 hi).1
  have e := congrArg (fun l => l[i]?) inv.values
  simp only [List.getElem?_map, ← ht, List.getElem?_append_left hlt, hi, Option.map_some] at e
  cases hm : (m'.values F)[i]? with
  | none => rw [hm] at e; cases e
  | some h' =>
    rw [hm] at e
    simp only [Option.map_some, Option.some.injEq] at e
    refine ⟨h', rfl, fun ctx w r => ?_⟩
    rw [← bare_handle h' (values_noReplace hr m' h' (List.mem_of_getElem? hm)), e,
      bare_handle h (values_noReplace hr m h (List.mem_of_getElem? hi))]

/-- The same history without ReplaceAttr. -/
example : ∃ m m', Store.init.run { fam4 with options := {} }
      [(0, .group b!"a"), (1, .group b!"b"), (2, .group b!"c"), (3, .group b!"d")] = some m ∧
    m.run { fam4 with options := {} } [(3, .group b!"e")] = some m' ∧
    ((m.values { fam4 with options := {} })[4]?.map fun h => h.core.groups) = some [b!"a", b!"b", b!"c", b!"d"] ∧
    ((m'.values { fam4 with options := {} })[4]?.map fun h => h.core.groups) = some [b!"a", b!"b", b!"c", b!"e"] :=
  ⟨_, _, rfl, rfl, by decide +kernel, by decide +kernel⟩

/-- C08 without ReplaceAttr against immutable values: after any history, handler `i`
writes what the `i`-th handler of the same history with immutable handlers writes. -/
theorem C08_sloggy_refines_values_without_replace (F : Fam) (hr : F.options.replace = none)
    (ds : List (Nat × Op)) (m : Store) (h1 : Store.init.run F ds = some m) :
    ∃ fam, famRun [.plain (newHandler F.env F.options)] ds = some fam ∧
      fam.length = (m.values F).length ∧
      ∀ (i : Nat) (h h' : H), fam[i]? = some h → (m.values F)[i]? = some h' →
        ∀ ctx w r, h'.handle ctx w r = h.handle ctx w r := by
  have i0 : Loose F Store.init [.plain (newHandler F.env F.options)] :=
    ⟨rfl, fun h hh => by simp at hh; subst hh; exact hr⟩
  obtain ⟨fam, hf, inv⟩ := run_loose hr ds i0 h1
  refine ⟨fam, hf, ?_, fun i h h' hi hi' ctx w r => ?_⟩
  · have := congrArg List.length inv.values
    simpa using this.symm
  · have e := congrArg (fun l => l[i]?) inv.values
    simp only [List.getElem?_map, hi, hi', Option.map_some, Option.some.injEq] at e
    rw [← bare_handle h' (values_noReplace hr m h' (List.mem_of_getElem? hi')), e,
      bare_handle h (inv.none h (List.mem_of_getElem? hi))]

/-- C08 for sloggy with any ReplaceAttr, for histories in which no handler with open
groups is derived from twice: the handlers are exactly the immutable ones. -/
theorem C08_sloggy_heap_refines_values (F : Fam) (hF : F.Good) (ds : List (Nat × Op)) (m : Store)
    (hrun : Store.init.run F ds = some m)
    (ho : Once [.plain (newHandler F.env F.options)] [] ds) :
    famRun [.plain (newHandler F.env F.options)] ds = some (m.values F) := by
  obtain ⟨fam', used', h1, h2⟩ := run_inv hF ds (init_inv F) ho hrun
  rw [h1, h2.values]

/-- C08 under that guard, as stated. -/
theorem C08_sloggy_immutable_partial (F : Fam) (hF : F.Good) (ds es : List (Nat × Op)) (m m' : Store)
    (h1 : Store.init.run F ds = some m) (h2 : m.run F es = some m')
    (ho : Once [.plain (newHandler F.env F.options)] [] (ds ++ es))
    (i : Nat) (h : H) (hi : (m.values F)[i]? = some h) :
    (m'.values F)[i]? = some h := by
  have e1 := C08_sloggy_heap_refines_values F hF ds m h1 (once_append ds es ho)
  have e2 := C08_sloggy_heap_refines_values F hF (ds ++ es) m'
    (by rw [run_append, h1]; exact h2) ho
  rw [famRun_append, e1] at e2
  obtain ⟨t, ht⟩ := famRun_prefix es e2
  rw [← ht, List.getElem?_append_left (List.getElem?_eq_some_iff.1 hi).1]
  exact hi

/-- Two groups opened on the new handler, a group in the first, attributes in the
second. -/
example : Once [.plain (newHandler env { replace := some innermost })] []
    ([(0, .group b!"a"), (0, .group b!"b")] ++
      [(1, .group b!"c"), (2, .attrs [.mk b!"d" (.bool true)])]) := by
  refine ⟨by simp, fun f hf => ?_⟩
  cases hf
  refine ⟨?_, fun f hf => ?_⟩
  · intro _ h hh; cases hh; rfl
  cases hf
  refine ⟨by simp, fun f hf => ?_⟩
  cases hf
  exact ⟨by simp, fun f hf => trivial⟩

end Verif.Props.SloggyHeap
