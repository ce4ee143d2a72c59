import Verif.Data.NameLine
import Verif.Tools.FunctionName
import Verif.Props.Setup

/-
C63: the server knows handlers by the names that their benchmarks print.
-/

set_option linter.unusedSimpArgs false

namespace Verif.Props.Names
open Go Verif.Warning Verif.Data Verif.Tools

variable {F : Type}

/-! ### Specification -/

/-- The innermost function of the stack that is a benchmark, or a method or function with such a name, is called
`Benchmark` and `x`; it is one of the first ten. -/
def Within (stack : List Bytes) (x : Bytes) : Prop :=
  ∃ inner package outer, stack = inner ++ (package ++ b!"." ++ b!"Benchmark" ++ x) :: outer ∧ inner.length < 10 ∧ (0x2E : UInt8) ∉ x ∧
    ∀ f ∈ inner, ∀ p y, f = p ++ y → (0x2E : UInt8) ∉ y → (p = [] ∨ ∃ q, p = q ++ b!".") → ¬ b!"Benchmark" <+: y

/-- Among lines, the last one that names the tag gives it this name. -/
def LastName (ls : List Bytes) (t n : Bytes) : Prop :=
  ∃ pre l post, ls = pre ++ l :: post ∧ Names l t n ∧ ∀ l' ∈ post, ∀ n', ¬ Names l' t n'

/-- A line with a result for the handler. -/
def Result (l t : Bytes) : Prop := ∃ test c r n rest, DataLine l t test c r n rest

/-- A tag that occurs in the lines. -/
def Occurs (ls : List Bytes) (t : Bytes) : Prop := ∃ l ∈ ls, Result l t ∨ ∃ n, Names l t n

/-- C63 as stated: the name printed last for a tag is the name of the tag, and if no other tag has the name, it is found
to be that of the tag. -/
def C63_statement (F : Type) : Prop := ∀ (E : Env) (fl : Floats F) (pick : List Bytes → List Bytes), (∀ l, (pick l).Perm l) →
  ∀ (text : Bytes) (b : Bench F), Bench.parse E fl {} text = (b, false) →
  ∀ (pre post : List Bytes) (stack : List Bytes) (x name : Bytes), Within stack x →
    scanLines text = pre ++ handlerLine stack name :: post → (∀ l ∈ post, ∀ n, ¬ Names l x n) →
    b.handlerName x = name ∧
    ((∀ y, Occurs (scanLines text) y → b.handlerName y = name → y = x) → (b.handlerLookup pick).2.get name = some x)

/-! ### The line -/

theorem lastPart_spec (p y : Bytes) (hy : (0x2E : UInt8) ∉ y) (hp : p = [] ∨ ∃ q, p = q ++ b!".") : lastPart (p ++ y) = y := by
  have hs : ∀ y : Bytes, (0x2E : UInt8) ∉ y → splitDot y = [y] := by
    intro y
    induction y with
    | nil => intro _; rfl
    | cons a y ih =>
      intro h
      have ha : a ≠ 0x2E := fun e => h (by simp [e])
      unfold splitDot
      rw [if_neg ha, ih (fun e => h (by simp [e]))]
  have hne : ∀ s : Bytes, splitDot s ≠ [] := by
    intro s
    cases s with
    | nil => simp [splitDot]
    | cons a s => unfold splitDot; split; simp; split <;> simp
  rcases hp with rfl | ⟨q, rfl⟩
  · unfold lastPart
    rw [List.nil_append, hs y hy]; rfl
  · have key : ∀ q : Bytes, (splitDot (q ++ 0x2E :: y)).getLast? = some y ∧ 2 ≤ (splitDot (q ++ 0x2E :: y)).length := by
      intro q
      induction q with
      | nil =>
        simp only [List.nil_append]
        unfold splitDot
        rw [if_pos rfl, hs y hy]
        simp
      | cons a q ih =>
        rw [List.cons_append]
        unfold splitDot
        split
        · refine ⟨?_, by simp; have := ih.2; omega⟩
          rw [List.getLast?_cons, ih.1]; rfl
        · cases e : splitDot (q ++ 0x2E :: y) with
          | nil => exact absurd e (hne _)
          | cons p ps =>
            rw [e] at ih
            simp only
            cases ps with
            | nil => simp at ih
            | cons p' ps =>
              refine ⟨?_, by simp⟩
              rw [List.getLast?_cons_cons] at ih ⊢
              exact ih.1
    unfold lastPart
    rw [show q ++ b!"." ++ y = q ++ 0x2E :: y by simp, (key q).1]; rfl

/-- Any name ends in a last part. -/
theorem lastPart_ends (f : Bytes) : ∃ p y, f = p ++ y ∧ (0x2E : UInt8) ∉ y ∧ (p = [] ∨ ∃ q, p = q ++ b!".") := by
  induction f with
  | nil => exact ⟨[], [], rfl, by simp, .inl rfl⟩
  | cons a f ih =>
    obtain ⟨p, y, rfl, hy, hp⟩ := ih
    rcases hp with rfl | ⟨q, rfl⟩
    · by_cases ha : a = 0x2E
      · exact ⟨[a], y, rfl, hy, .inr ⟨[], by rw [ha]; rfl⟩⟩
      · exact ⟨[], a :: y, rfl, by simp [hy, Ne.symm ha], .inl rfl⟩
    · exact ⟨a :: (q ++ b!"."), y, by simp, hy, .inr ⟨a :: q, by simp⟩⟩

theorem tag_of_within {stack : List Bytes} {x : Bytes} (h : Within stack x) : handlerTag stack = x := by
  obtain ⟨inner, package, outer, rfl, hlen, hx, hin⟩ := h
  have hloop : ∀ (inner rest : List Bytes), (∀ f ∈ inner, ∀ p y, f = p ++ y → (0x2E : UInt8) ∉ y → (p = [] ∨ ∃ q, p = q ++ b!".") →
      ¬ b!"Benchmark" <+: y) → functionLoop b!"Benchmark" (inner ++ (package ++ b!"." ++ b!"Benchmark" ++ x) :: rest) = b!"Benchmark" ++ x := by
    intro inner rest
    have hl : lastPart (package ++ b!"." ++ b!"Benchmark" ++ x) = b!"Benchmark" ++ x := by
      rw [List.append_assoc]
      exact lastPart_spec _ _ (by simp [hx]) (.inr ⟨package, rfl⟩)
    induction inner with
    | nil =>
      intro _
      simp only [List.nil_append, functionLoop]
      rw [hl, stripPrefix_append]; rfl
    | cons f inner ih =>
      intro hin
      obtain ⟨p, y, rfl, hy, hp⟩ := lastPart_ends f
      have := hin _ (by simp) p y rfl hy hp
      have hs : stripPrefix b!"Benchmark" y = none := by
        cases e : stripPrefix b!"Benchmark" y with
        | none => rfl
        | some t => exact absurd ⟨t, (stripPrefix_iff.1 e).symm⟩ this
      simp only [List.cons_append, functionLoop, lastPart_spec p y hy hp, hs, Option.isSome_none, Bool.false_eq_true, if_false]
      exact ih fun g hg => hin g (by simp [hg])
  have : currentFunctionName b!"Benchmark" (inner ++ (package ++ b!"." ++ b!"Benchmark" ++ x) :: outer) = b!"Benchmark" ++ x := by
    unfold currentFunctionName
    rw [List.take_append, List.take_of_length_le (by omega)]
    obtain ⟨k, hk⟩ : ∃ k, 10 - inner.length = k + 1 := ⟨9 - inner.length, by omega⟩
    rw [hk, List.take_succ_cons]
    have hl := hloop inner (outer.take k) hin
    split
    · rename_i e; simp at e
    · rename_i e; rw [hl]
  unfold handlerTag trimPrefix
  rw [this, stripPrefix_append]; rfl

/-- Lines as they are printed name the tag, if there is no white space in tag and name and the name has no `]`. -/
theorem names_line {stack : List Bytes} {x name : Bytes} (hw : Within stack x) (hx : Many isNS x) (hn : Many isNS name)
    (hb : (0x5D : UInt8) ∉ name) : Names (handlerLine stack name) x name := by
  unfold handlerLine
  rw [tag_of_within hw]
  have h1 : NameLine (b!"# Handler[" ++ x ++ b!"]=\"" ++ name ++ b!"\"") x name := by
    have := NameLine.mk (s1 := b!" ") (s2 := []) (s3 := []) (s4 := []) hx hn (by decide) (by simp) (by simp) (by simp)
    simpa using this
  refine ⟨h1, ?_⟩
  generalize hl : b!"# Handler[" ++ x ++ b!"]=\"" ++ name ++ b!"\"" = l
  intro t' n' h'
  cases h' with
  | @mk _ _ s1 s2 s3 s4 ht' hn' h1' h2' h3' h4' =>
    have e : 0x20 :: (b!"Handler[" ++ x ++ b!"]=\"" ++ name ++ b!"\"") =
        s1 ++ 0x48 :: (b!"andler[" ++ t' ++ b!"]" ++ s2 ++ b!"=" ++ s3 ++ b!"\"" ++ n' ++ b!"\"" ++ s4) := by
      simpa using hl
    have e := Setup.blanks_eq (u := [0x20]) (v := s1) (a := 0x48) (b := 0x48) (s := b!"andler[" ++ x ++ b!"]=\"" ++ name ++ b!"\"") (by decide) h1' (by decide) (by decide) (by simpa using e)
    have e : x ++ 0x5D :: (b!"=\"" ++ name ++ b!"\"") = t' ++ 0x5D :: (s2 ++ b!"=" ++ s3 ++ b!"\"" ++ n' ++ b!"\"" ++ s4) := by
      simpa using e
    apply Nat.le_of_not_lt
    intro hlt
    have h2 : x ++ [0x5D] <+: t' := by
      have p1 : x ++ [0x5D] <+: x ++ 0x5D :: (b!"=\"" ++ name ++ b!"\"") := ⟨b!"=\"" ++ name ++ b!"\"", by simp⟩
      have p2 : t' <+: x ++ 0x5D :: (b!"=\"" ++ name ++ b!"\"") := ⟨_, e.symm⟩
      exact List.prefix_of_prefix_length_le p1 p2 (by simp; omega)
    obtain ⟨v, rfl⟩ := h2
    have e : b!"=\"" ++ name ++ b!"\"" = v ++ 0x5D :: (s2 ++ b!"=" ++ s3 ++ b!"\"" ++ n' ++ b!"\"" ++ s4) := by
      have e2 : x ++ 0x5D :: (b!"=\"" ++ name ++ b!"\"") = x ++ 0x5D :: (v ++ 0x5D :: (s2 ++ b!"=" ++ s3 ++ b!"\"" ++ n' ++ b!"\"" ++ s4)) := by
        rw [e]; simp
      simpa using e2
    have hm : (0x5D : UInt8) ∈ b!"=\"" ++ name ++ b!"\"" := by rw [e]; simp
    simp [hb] at hm

/-! ### Reading -/

theorem lines_append (E : Env) (fl : Floats F) : ∀ (ls ls' : List Bytes) (b : Bench F),
    b.lines E fl (ls ++ ls') = if (b.lines E fl ls).2 then b.lines E fl ls else (b.lines E fl ls).1.lines E fl ls'
  | [], ls', b => by simp [Bench.lines]
  | l :: ls, ls', b => by
    rw [List.cons_append]
    obtain ⟨r, h⟩ : ∃ r, r = b.line E fl l := ⟨_, rfl⟩
    simp only [Bench.lines, ← h]
    match r with
    | none => simp
    | some b' => exact lines_append E fl ls ls' b'

/-- What a line does to the name of a tag. -/
theorem line_name {E : Env} {fl : Floats F} {b b' : Bench F} {l : Bytes} (hl : b.line E fl l = some b') (t : Bytes) :
    (∀ n, Names l t n → b'.handlerNames.get t = some n) ∧
    ((∀ n, ¬ Names l t n) → (b.handlerNames.get t ≠ none → b'.handlerNames.get t = b.handlerNames.get t) ∧
      (b.handlerNames.get t = none → (Result l t → b'.handlerNames.get t = some (handlerName E t)) ∧
        (¬ Result l t → b'.handlerNames.get t = none))) := by
  unfold Bench.line at hl
  cases hf : ptnHandlerDef.find l with
  | some m =>
    rw [hf] at hl
    obtain ⟨t', n', hn, rfl⟩ := names_of_find hf
    have hb : b' = { b with handlerNames := b.handlerNames.set t' n' } := by cases hl; rfl
    subst hb
    constructor
    · intro n h
      obtain ⟨rfl, rfl⟩ := names_unique h hn
      simp [Map.get_set]
    · intro hno
      have hne : t ≠ t' := fun e => hno n' (e ▸ hn)
      have hr : ¬ Result l t := by
        rintro ⟨_, _, _, _, _, hd⟩
        have := (BenchData.dataLine_not hd).1
        rw [this] at hf; cases hf
      simp [Map.get_set, hne, hr]
  | none =>
    rw [hf] at hl
    have hno : ∀ n, ¬ Names l t n := fun n h => by rw [find_names h] at hf; cases hf
    refine ⟨fun n h => absurd h (hno n), fun _ => ?_⟩
    simp only at hl
    cases hw : ptnWarnLine.find l with
    | some m =>
      rw [hw] at hl
      have hb := Option.some.inj hl
      have hr : ¬ Result l t := by
        rintro ⟨_, _, _, _, _, hd⟩
        have := (BenchData.dataLine_not hd).2
        rw [this] at hw; cases hw
      subst hb
      simp [hr]
    | none =>
      rw [hw] at hl
      simp only at hl
      cases hd : ptnDataLine.find l with
      | none =>
        rw [hd] at hl
        have hb := Option.some.inj hl
        have hr : ¬ Result l t := by
          rintro ⟨_, _, _, _, _, h⟩
          rw [find_data h] at hd; cases hd
        subst hb
        simp [hr]
      | some m =>
        rw [hd] at hl
        simp only at hl
        obtain ⟨h, test, c, r, n, rest, hdl, rfl⟩ := data_of_find hd
        cases hrd : readData fl l [(1, h), (2, test), (3, c), (4, r), (5, n)] with
        | none => rw [hrd] at hl; cases hl
        | some d =>
          rw [hrd] at hl
          have hb := Option.some.inj hl
          have hh : d.handler = h := by
            unfold readData at hrd
            simp only [Option.bind_eq_bind, Option.bind_eq_some_iff] at hrd
            obtain ⟨_, _, _, _, _, _, _, _, _, _, _, _, e⟩ := hrd
            cases e; rfl
          subst hb
          have hres : Result l t ↔ t = h := by
            constructor
            · rintro ⟨_, _, _, _, _, h'⟩
              exact (data_unique h' hdl).1
            · rintro rfl; exact ⟨_, _, _, _, _, hdl⟩
          simp only [Bench.store, hh, hres]
          by_cases e : t = h
          · subst e
            cases hg : b.handlerNames.get t with
            | none => simp [Map.get_set]
            | some v => simp [hg]
          · cases hg : b.handlerNames.get h with
            | none => simp [Map.get_set, e]
            | some v => simp [e]

theorem lines_unnamed {E : Env} {fl : Floats F} (t : Bytes) : ∀ (ls : List Bytes) (b b' : Bench F), b.lines E fl ls = (b', false) →
    (∀ l ∈ ls, ∀ n, ¬ Names l t n) →
      (b.handlerNames.get t ≠ none → b'.handlerNames.get t = b.handlerNames.get t) ∧
      (b.handlerNames.get t = none → ((∃ l ∈ ls, Result l t) → b'.handlerNames.get t = some (handlerName E t)) ∧
        ((∀ l ∈ ls, ¬ Result l t) → b'.handlerNames.get t = none))
  | [], b, b', h, _ => by
    cases h
    exact ⟨fun _ => rfl, fun h => ⟨fun ⟨_, hl, _⟩ => (by cases hl), fun _ => h⟩⟩
  | l :: ls, b, b', h, hno => by
    unfold Bench.lines at h
    cases hl : b.line E fl l with
    | none => rw [hl] at h; cases h
    | some b1 =>
      rw [hl] at h
      obtain ⟨i1, i2⟩ := lines_unnamed t ls b1 b' h (fun l hl => hno l (by simp [hl]))
      obtain ⟨j1, j2⟩ := (line_name hl t).2 (hno l (by simp))
      refine ⟨fun hs => ?_, fun hn => ⟨?_, ?_⟩⟩
      · rw [i1 (by rw [j1 hs]; exact hs), j1 hs]
      · rintro ⟨l', hl', hr⟩
        by_cases hr' : Result l t
        · have := (j2 hn).1 hr'
          rw [i1 (by rw [this]; simp), this]
        · have := (j2 hn).2 hr'
          rcases List.mem_cons.1 hl' with rfl | hl'
          · exact absurd hr hr'
          · exact (i2 this).1 ⟨l', hl', hr⟩
      · intro hr
        exact (i2 ((j2 hn).2 (hr l (by simp)))).2 fun l hl => hr l (by simp [hl])

theorem lines_named {E : Env} {fl : Floats F} {ls : List Bytes} {b b' : Bench F} (h : b.lines E fl ls = (b', false)) {t n : Bytes} (hn : LastName ls t n) : b'.handlerNames.get t = some n := by
  obtain ⟨pre, l, post, rfl, hl, hpost⟩ := hn
  rw [lines_append] at h
  cases hp : (b.lines E fl pre).2 with
  | true =>
    rw [hp, if_pos rfl] at h
    rw [h] at hp; cases hp
  | false =>
    rw [hp, if_neg (by simp)] at h
    unfold Bench.lines at h
    generalize (b.lines E fl pre).1 = b1 at h
    cases hb : b1.line E fl l with
    | none => rw [hb] at h; cases h
    | some b2 =>
      rw [hb] at h
      have h2 := (line_name hb t).1 n hl
      have := (lines_unnamed t post b2 b' h hpost).1 (by rw [h2]; simp)
      rw [this, h2]

theorem parse_lines {E : Env} {fl : Floats F} {text : Bytes} {b : Bench F} (h : Bench.parse E fl {} text = (b, false)) :
    Bench.lines E fl {} (scanLines text) = (b, false) := by
  unfold Bench.parse at h
  simp only [Prod.mk.injEq, Bool.or_eq_false_iff] at h
  exact Prod.ext h.1 h.2.1

/-- Either the tag is not named, or there is a last line to name it. -/
theorem lastName_total (t : Bytes) : ∀ ls : List Bytes, (∀ l ∈ ls, ∀ n, ¬ Names l t n) ∨ ∃ n, LastName ls t n
  | [] => .inl (by simp)
  | l :: ls => by
    rcases lastName_total t ls with h | ⟨n, pre, l', post, rfl, h1, h2⟩
    · by_cases hl : ∃ n, Names l t n
      · obtain ⟨n, hl⟩ := hl
        exact .inr ⟨n, [], l, ls, rfl, hl, h⟩
      · refine .inl fun l' hl' n hn => ?_
        rcases List.mem_cons.1 hl' with rfl | hl'
        · exact hl ⟨n, hn⟩
        · exact h l' hl' n hn
    · exact .inr ⟨n, l :: pre, l', post, rfl, h1, h2⟩

/-- The lines that name handlers, as used in C37 and C60. -/
theorem defines_iff (l : Bytes) : BenchData.Defines l ↔ ∃ t n, NameLine l t n := by
  unfold BenchData.Defines
  constructor
  · intro h
    obtain ⟨m, hm⟩ := Option.isSome_iff_exists.1 h
    exact nameLine_of_find hm
  · rintro ⟨t, n, h⟩
    obtain ⟨t, n, h⟩ := names_of_nameLine h
    rw [find_names h]; rfl

/-! ### C63 -/

/-- C63: after any output, a tag has the name that was given to it last; a handler that was not given a name has one made
of the tag. -/
theorem C63_names (E : Env) (fl : Floats F) (text : Bytes) (b : Bench F) (h : Bench.parse E fl {} text = (b, false)) (t : Bytes) :
    (∀ n, LastName (scanLines text) t n → b.handlerName t = n) ∧
    ((∀ l ∈ scanLines text, ∀ n, ¬ Names l t n) →
      ((∃ l ∈ scanLines text, Result l t) → b.handlerName t = handlerName E t) ∧ ((∀ l ∈ scanLines text, ¬ Result l t) → b.handlerName t = t)) := by
  have hl := parse_lines h
  refine ⟨fun n hn => ?_, fun hno => ⟨fun hr => ?_, fun hr => ?_⟩⟩
  · unfold Bench.handlerName
    rw [lines_named hl hn]; rfl
  · unfold Bench.handlerName
    rw [((lines_unnamed t _ _ _ hl hno).2 rfl).1 hr]; rfl
  · unfold Bench.handlerName
    rw [((lines_unnamed t _ _ _ hl hno).2 rfl).2 hr]; rfl

theorem occurs_of_name {E : Env} {fl : Floats F} {text : Bytes} {b : Bench F} (h : Bench.parse E fl {} text = (b, false)) {t n : Bytes}
    (hg : b.handlerNames.get t = some n) : Occurs (scanLines text) t := by
  apply Classical.byContradiction
  intro ho
  have := ((lines_unnamed t _ _ _ (parse_lines h) (fun l hl n hn => ho ⟨l, hl, .inr ⟨n, hn⟩⟩)).2 rfl).2
    fun l hl hr => ho ⟨l, hl, .inl hr⟩
  rw [this] at hg; cases hg

theorem lookup_none {E : Env} {fl : Floats F} : ∀ (ls : List Bytes) (b : Bench F), b.lookup = none → (b.lines E fl ls).1.lookup = none
  | [], b, h => h
  | l :: ls, b, h => by
    unfold Bench.lines
    cases hl : b.line E fl l with
    | none => exact h
    | some b' =>
      simp only
      refine lookup_none ls b' ?_
      unfold Bench.line at hl
      split at hl
      · cases hl; exact h
      · split at hl
        · cases hl; exact h
        · split at hl
          · split at hl
            · cases hl; exact h
            · cases hl
          · cases hl; exact h

/-- What holds of C63: everything, if there is no white space in tag and name, both are not empty, and there is no `]` in the
name. -/
theorem C63_partial (E : Env) (fl : Floats F) (pick : List Bytes → List Bytes) (hp : ∀ l, (pick l).Perm l) (text : Bytes) (b : Bench F)
    (h : Bench.parse E fl {} text = (b, false)) (pre post : List Bytes) (stack : List Bytes) (x name : Bytes) (hw : Within stack x)
    (ht : scanLines text = pre ++ handlerLine stack name :: post) (hpost : ∀ l ∈ post, ∀ n, ¬ Names l x n)
    (hx : Many isNS x) (hn : Many isNS name) (hb : (0x5D : UInt8) ∉ name) :
    b.handlerName x = name ∧
    ((∀ y, Occurs (scanLines text) y → b.handlerName y = name → y = x) → (b.handlerLookup pick).2.get name = some x) := by
  have hlast : LastName (scanLines text) x name := ⟨pre, _, post, ht, names_line hw hx hn hb, hpost⟩
  refine ⟨(C63_names E fl text b h x).1 name hlast, fun hu => ?_⟩
  refine Setup.C60_lookup ?_ hp (lines_named (parse_lines h) hlast) fun y hy => hu y (occurs_of_name h hy) ?_
  · have := lookup_none (E := E) (fl := fl) (scanLines text) {} rfl
    rw [parse_lines h] at this
    exact this
  · unfold Bench.handlerName
    rw [hy]; rfl

/-! ### What fails, and examples -/

/-- A call stack. -/
def someStack : List Bytes := [b!"github.com/madkins23/go-slog/bench/tests.Run", b!"github.com/madkins23/go-slog/bench.BenchmarkMadkinsFlash",
  b!"testing.(*B).runN", b!"testing.(*B).run1.func1", b!"runtime.goexit"]

/-- The handler. -/
theorem someStack_within : Within someStack b!"MadkinsFlash" := by
  refine ⟨[b!"github.com/madkins23/go-slog/bench/tests.Run"], b!"github.com/madkins23/go-slog/bench",
    [b!"testing.(*B).runN", b!"testing.(*B).run1.func1", b!"runtime.goexit"], rfl, by decide, by decide, ?_⟩
  intro f hf p y e hy hp hB
  have hl := lastPart_spec p y hy hp
  rw [← e, List.mem_singleton.1 hf] at hl
  rw [← hl] at hB
  revert hB
  decide +kernel

/-- The library. -/
def someEnv : Env := ⟨Letters.asciiLib, fun s => [s], fun _ => none⟩

/-- C63 is false for names with white space. -/
theorem C63_space : ¬ C63_statement BenchData.Term := by
  intro hall
  have := hall someEnv BenchData.terms id (fun l => .refl l) (handlerLine someStack b!"my flash") _ rfl [] [] someStack b!"MadkinsFlash" b!"my flash"
    someStack_within (by decide +kernel) (by simp)
  revert this
  have : (Bench.parse someEnv BenchData.terms {} (handlerLine someStack b!"my flash")).1.handlerName b!"MadkinsFlash" ≠ b!"my flash" := by decide +kernel
  exact fun h => this h.1

/-- C63 is false for names with `]="`. -/
theorem C63_bracket : ¬ C63_statement BenchData.Term := by
  intro hall
  have := hall someEnv BenchData.terms id (fun l => .refl l) (handlerLine someStack b!"a]=\"b") _ rfl [] [] someStack b!"MadkinsFlash" b!"a]=\"b"
    someStack_within (by decide +kernel) (by simp)
  revert this
  have : (Bench.parse someEnv BenchData.terms {} (handlerLine someStack b!"a]=\"b")).1.handlerName b!"MadkinsFlash" ≠ b!"a]=\"b" := by decide +kernel
  exact fun h => this h.1

/-- An output with a name and results. -/
def someOutput : Bytes := b!"goos: linux\n" ++ handlerLine someStack b!"madkins/flash" ++
  b!"\nBenchmarkMadkinsFlash/BenchmarkX-8 1 1 ns/op\nBenchmarkOther/BenchmarkX-8 1 1 ns/op\n"

/-- A case of `C63_partial`. -/
example : (Bench.parse someEnv BenchData.terms {} someOutput).1.handlerName b!"MadkinsFlash" = b!"madkins/flash" ∧
    (Bench.parse someEnv BenchData.terms {} someOutput).1.handlerName b!"Other" = b!"Other" := by
  have he : Bench.parse someEnv BenchData.terms {} someOutput = ((Bench.parse someEnv BenchData.terms {} someOutput).1, false) :=
    Prod.ext rfl (by decide +kernel)
  have hno : ∀ l ∈ [b!"BenchmarkMadkinsFlash/BenchmarkX-8 1 1 ns/op", b!"BenchmarkOther/BenchmarkX-8 1 1 ns/op"], ∀ n, ¬ Names l b!"MadkinsFlash" n := by
    intro l hl n hn
    have h := find_names hn
    have : ∀ l ∈ [b!"BenchmarkMadkinsFlash/BenchmarkX-8 1 1 ns/op", b!"BenchmarkOther/BenchmarkX-8 1 1 ns/op"], ptnHandlerDef.find l = none := by
      decide +kernel
    rw [this l hl] at h; cases h
  exact ⟨(C63_partial someEnv BenchData.terms id (fun l => .refl l) someOutput _ he [b!"goos: linux"] _ someStack b!"MadkinsFlash" b!"madkins/flash"
    someStack_within (by decide +kernel) hno ⟨by simp, by decide⟩ ⟨by simp, by decide⟩ (by decide)).1, by decide +kernel⟩

end Verif.Props.Names
