import Verif.Tools.Trace

/-
C53: the trace handler.
-/

namespace Verif.Props.Trace

open Verif Verif.Slog Verif.Trace

/-! ### Specification -/

/-- The call makes a new handler. -/
def makes : Call → Bool
  | .withAttrs _ => true
  | .withGroup _ => true
  | _ => false

/-- The texts `a, b, …` with a separator between. -/
def joined (sep : Bytes) : List Bytes → Bytes
  | [] => []
  | [a] => a
  | a :: as => a ++ sep ++ joined sep as

/-- What a call shows. -/
def text : Call → Bytes
  | .enabled l => b!"Enabled(" ++ levelString l ++ b!")"
  | .handle r => b!"Handle(" ++ levelString r.level ++ b!" \"" ++ r.message ++ b!"\"" ++
      (if r.attrs = [] then [] else b!" {" ++ joined b!", " (r.attrs.map TAttr.string) ++ b!"}") ++ b!")"
  | .withAttrs as => b!"WithAttrs([" ++ joined b!" " (as.map TAttr.string) ++ b!"])"
  | .withGroup n => b!"WithGroup(" ++ n ++ b!")"

/-- Handler `i`, of those made by the history, took `d` With steps: the first took none, and the `k`-th With call of the
history, on handler `i`, makes handler `k` from it. The history is given latest call first. -/
inductive Steps : List (Nat × Call) → Nat → Nat → Prop
  | first : Steps [] 0 0
  | old {cs i d ic} : Steps cs i d → Steps (ic :: cs) i d
  | new {cs i d c} : makes c = true → Steps cs i d → Steps ((i, c) :: cs) ((cs.countP fun ic => makes ic.2) + 1) (d + 1)

/-- Every call is one of a handler that there is at the time. -/
def Calls : List (Nat × Call) → Prop
  | [] => True
  | ic :: cs => Calls cs ∧ ic.1 ≤ cs.countP fun ic => makes ic.2

/-- The lines, for a history with the latest call first. -/
inductive Lines (indent : Bytes) : List (Nat × Call) → List Bytes → Prop
  | nil : Lines indent [] []
  | cons {cs ls i c d} : Lines indent cs ls → Steps cs i d →
      Lines indent ((i, c) :: cs) (ls ++ [indent ++ List.replicate (2 * d) 0x20 ++ text c])

/-! ### Lemmas -/

theorem imageAttrs_eq (a : TAttr) (as : List TAttr) (sep : Bytes) :
    imageAttrs sep (a :: as) = sep ++ joined b!", " ((a :: as).map TAttr.string) := by
  induction as generalizing a sep with
  | nil => simp [imageAttrs, joined]
  | cons b as ih =>
    rw [imageAttrs, ih b b!", "]
    simp [joined, List.append_assoc]

theorem attrs_eq (as : List TAttr) : attrsImage as = b!"[" ++ joined b!" " (as.map TAttr.string) ++ b!"]" := by
  unfold attrsImage
  cases as with
  | nil => rfl
  | cons a as =>
    have : ∀ (a : TAttr) (as : List TAttr), (a.string ++ as.flatMap fun a => 0x20 :: a.string) = joined b!" " ((a :: as).map TAttr.string) := by
      intro a as
      induction as generalizing a with
      | nil => simp [joined]
      | cons b as ih =>
        have := ih b
        simp only [List.map_cons] at this
        simp [joined, ← this]
    exact congrArg (fun t => b!"[" ++ t ++ b!"]") (this a as)

/-- What one call prints. -/
def printed (h : Handler) : Call → Bytes
  | .enabled l => (h.enabled l).1
  | .handle r => (h.handle r).1
  | .withAttrs as => (h.withAttrs as).1
  | .withGroup n => (h.withGroup n).1

theorem printed_eq (h : Handler) (c : Call) : printed h c = h.indent ++ text c ++ [0x0A] := by
  cases c with
  | enabled l => simp [printed, Handler.enabled, Handler.show, text]
  | handle r =>
    simp only [printed, Handler.handle, Handler.show, text, recordImage]
    cases e : r.attrs with
    | nil => simp
    | cons a as =>
      rw [imageAttrs_eq]
      simp [List.append_assoc]
  | withAttrs as =>
    simp only [printed, Handler.withAttrs, Handler.show, text, attrs_eq]
    simp [List.append_assoc]
  | withGroup n => simp [printed, Handler.withGroup, Handler.show, text]

theorem step_eq (s : State) (i : Nat) (c : Call) (h : Handler) (hi : s.handlers[i]? = some h) :
    s.step i c = { handlers := s.handlers ++ (if makes c then [{ indent := h.indent ++ b!"  " }] else []), out := s.out ++ printed h c } := by
  unfold State.step
  rw [hi]
  cases c <;> simp [makes, printed, Handler.withAttrs, Handler.withGroup]

theorem run_append (s : State) (cs ds : List (Nat × Call)) : s.run (cs ++ ds) = (s.run cs).run ds := by
  induction cs generalizing s with
  | nil => rfl
  | cons c cs ih =>
    obtain ⟨i, c⟩ := c
    simp only [List.cons_append, State.run]
    exact ih _

/-- The state after a history: as many handlers as With calls and one; handler `i` has the indent of its steps; and the output
is that of the lines. -/
theorem run_spec (indent : Bytes) : ∀ cs : List (Nat × Call), Calls cs →
    let s := ({ handlers := [newHandler indent] } : State).run cs.reverse
    s.handlers.length = (cs.countP fun ic => makes ic.2) + 1 ∧
      (∀ i h, s.handlers[i]? = some h → ∃ d, Steps cs i d ∧ h.indent = indent ++ List.replicate (2 * d) 0x20) ∧
      ∃ ls, Lines indent cs ls ∧ s.out = ls.flatMap (· ++ [0x0A])
  | [], _ => by
    refine ⟨rfl, ?_, [], .nil, rfl⟩
    intro i h hi
    cases i with
    | zero =>
      simp only [List.reverse_nil, State.run, List.getElem?_cons_zero, Option.some.injEq] at hi
      subst hi
      exact ⟨0, .first, by simp [newHandler]⟩
    | succ i => simp [State.run] at hi
  | (i, c) :: cs, hc => by
    obtain ⟨h1, h2, ls, h3, h4⟩ := run_spec indent cs hc.1
    dsimp only
    rw [List.reverse_cons, run_append]
    generalize ({ handlers := [newHandler indent] } : State).run cs.reverse = s at *
    have hlt : i < s.handlers.length := by rw [h1]; have := hc.2; dsimp only at this; omega
    have hi : s.handlers[i]? = some s.handlers[i] := List.getElem?_eq_getElem hlt
    obtain ⟨d, hd, hind⟩ := h2 i _ hi
    simp only [State.run]
    rw [step_eq s i c _ hi]
    refine ⟨?_, ?_, ls ++ [indent ++ List.replicate (2 * d) 0x20 ++ text c], .cons h3 hd, ?_⟩
    · simp only [List.length_append, List.countP_cons, h1]
      cases makes c <;> simp
    · intro j h hj
      dsimp only at hj
      by_cases hlj : j < s.handlers.length
      · rw [List.getElem?_append_left hlj] at hj
        obtain ⟨d', hd', e⟩ := h2 j h hj
        exact ⟨d', .old hd', e⟩
      · rw [List.getElem?_append_right (by omega)] at hj
        cases hm : makes c with
        | false => rw [hm] at hj; simp at hj
        | true =>
          rw [hm] at hj
          have hj0 : j - s.handlers.length = 0 := by
            cases hk : j - s.handlers.length with
            | zero => rfl
            | succ k => rw [hk] at hj; simp at hj
          have hje : j = (cs.countP fun ic => makes ic.2) + 1 := by omega
          subst hje
          rw [hj0] at hj
          simp only [if_true, List.getElem?_cons_zero, Option.some.injEq] at hj
          subst hj
          refine ⟨d + 1, .new hm hd, ?_⟩
          dsimp only
          rw [hind, show 2 * (d + 1) = 2 * d + 2 from rfl, List.append_assoc, ← List.replicate_append_replicate]
          rfl
    · dsimp only
      rw [h4, printed_eq, hind, List.flatMap_append]
      simp

/-! ### C53 -/

/-- C53, for every history of calls on the handlers there are: what is printed are the texts of the calls in their order, each after
the indent of the first handler and two blanks for each With step that led to its handler, and each ending with a newline. -/
theorem C53_output (indent : Bytes) (cs : List (Nat × Call)) (hc : Calls cs.reverse) :
    ∃ ls, Lines indent cs.reverse ls ∧
      (({ handlers := [newHandler indent] } : State).run cs).out = ls.flatMap (· ++ [0x0A]) := by
  obtain ⟨_, _, h⟩ := run_spec indent cs.reverse hc
  rw [List.reverse_reverse] at h
  exact h

/-- The number of steps is one number, so that the lines are determined. -/
theorem C53_determined (indent : Bytes) (cs : List (Nat × Call)) :
    (∀ i d d', Steps cs i d → Steps cs i d' → d = d') ∧ ∀ ls ls', Lines indent cs ls → Lines indent cs ls' → ls = ls' := by
  have le : ∀ {cs i d}, Steps cs i d → i ≤ cs.countP fun ic => makes ic.2 := by
    intro cs i d h
    induction h with
    | first => simp
    | old _ ih => rw [List.countP_cons]; omega
    | new hm _ _ => rw [List.countP_cons]; simp [hm]
  have one : ∀ {cs i d}, Steps cs i d → ∀ d', Steps cs i d' → d = d' := by
    intro cs i d h
    induction h with
    | first => intro d' h'; cases h'; rfl
    | old hs ih =>
      intro d' h'
      cases h' with
      | old h' => exact ih d' h'
      | new _ _ => have := le hs; omega
    | new hm hs ih =>
      intro d' h'
      cases h' with
      | old h' => have := le h'; omega
      | new _ h' => rw [ih _ h']
  refine ⟨fun i d d' h h' => one h d' h', ?_⟩
  intro ls ls' h
  induction h generalizing ls' with
  | nil => intro h'; cases h'; rfl
  | cons _ hs ih =>
    intro h'
    cases h' with
    | cons hl' hs' => rw [ih _ hl', one hs _ hs']

/-- Every level is accepted, and `Handle` never returns an error. -/
theorem C53_accepts (h : Handler) (level : Int) (r : TRecord) : (h.enabled level).2 = true ∧ (h.handle r).2 = false := ⟨rfl, rfl⟩

/-- The number of newlines printed. -/
def newlines (b : Bytes) : Nat := b.count 0x0A

/-- C53 in full includes that there is one line per call. -/
def C53_one_line_statement : Prop :=
  ∀ (indent : Bytes) (cs : List (Nat × Call)), 0x0A ∉ indent → Calls cs.reverse →
    newlines (({ handlers := [newHandler indent] } : State).run cs).out = cs.length

/-- It is false: texts are printed as they are, so a message with a newline takes two lines. -/
theorem C53_fails : ¬ C53_one_line_statement := by
  intro h
  exact absurd (h [] [(0, .handle { level := 0, message := b!"a\nb", attrs := [] })] (by simp) ⟨trivial, by decide⟩) (by decide +kernel)

/-- It holds if no text shown contains a newline. -/
theorem C53_one_line_partial (indent : Bytes) (cs : List (Nat × Call)) (hi : 0x0A ∉ indent) (hc : Calls cs.reverse)
    (ht : ∀ ic ∈ cs, 0x0A ∉ text ic.2) :
    newlines (({ handlers := [newHandler indent] } : State).run cs).out = cs.length := by
  obtain ⟨ls, h1, h2⟩ := C53_output indent cs hc
  rw [h2]
  have ht' : ∀ ic ∈ cs.reverse, 0x0A ∉ text ic.2 := fun ic h => ht ic (List.mem_reverse.1 h)
  rw [← List.length_reverse]
  clear h2 hc ht
  generalize cs.reverse = cs at *
  induction h1 with
  | nil => rfl
  | @cons cs' ls i c d _ _ ih =>
    have ih := ih fun ic h => ht' ic (List.mem_cons_of_mem _ h)
    have hn : 0x0A ∉ text c := ht' (i, c) List.mem_cons_self
    unfold newlines at *
    rw [List.flatMap_append, List.count_append, ih]
    simp [List.count_eq_zero_of_not_mem hi, List.count_eq_zero_of_not_mem hn, List.count_replicate]

/-- A tree of handlers: two made from the first, one from the second of these. -/
def sample : List (Nat × Call) :=
  [(0, .enabled 0), (0, .withGroup b!"g"), (0, .withAttrs [⟨b!"a", b!"1"⟩, ⟨b!"b", b!"2"⟩]), (2, .withGroup b!"h"),
   (3, .handle { level := 4, message := b!"m", attrs := [⟨b!"k", b!"v"⟩, ⟨b!"l", b!"w"⟩] }), (1, .enabled (-4))]

example : Calls sample.reverse ∧ ∀ ic ∈ sample, 0x0A ∉ text ic.2 := by
  refine ⟨?_, by decide +kernel⟩
  simp only [sample, List.reverse_cons, List.reverse_nil, List.nil_append, List.cons_append, Calls]
  decide

example : (({ handlers := [newHandler b!"> "] } : State).run sample).out =
    b!"> Enabled(INFO)\n> WithGroup(g)\n> WithAttrs([a=1 b=2])\n>   WithGroup(h)\n>     Handle(WARN \"m\" {k=v, l=w})\n>   Enabled(DEBUG)\n" := by
  decide +kernel

end Verif.Props.Trace
