import Verif.Bench.Lines
import Verif.Gin.ParseLemmas

/-
Model of the data of the benchmark Logging: what is made of the embedded file at startup
(/repo/bench/tests/logging.go:29-56), and the lines of that file
(/repo/bench/tests/logging.txt).

Simplifications: errors are not logged; reading from memory does not fail.
-/

namespace Verif.Bench
open Go Slog Data

/-- `[\d:]`. -/
def isDC (b : UInt8) : Bool := isD b || b == 0x3A

/-- A class a number of times, then something else. -/
def rep (p : UInt8 → Bool) (r : Re) : Nat → Re
  | 0 => r
  | n + 1 => .cat (.one p) (rep p r n)

/-- `ptnTrimTimeLevel` (bench/tests/logging.go:26); group 0 is the whole match. -/
def ptnTrimTimeLevel : Re := .cap 0 (.cat (.star isS) (rep isDC
  (seq [plus isS, plus isW, plus isS, .cap 1 (.cat (.one isD) (.lazy isD))]) 8))

/-- Removing time and level (bench/tests/logging.go:44-48). -/
def trimTimeLevel (msg : Bytes) : Bytes :=
  match ptnTrimTimeLevel.find msg with
  | some m => Caps.text m 1 ++ msg.drop (Caps.text m 0).length
  | none => msg

/-- The loop of `init` (bench/tests/logging.go:32-55); `line` is what was collected of a
line, the first argument bounds the number of rounds. -/
def loadLoop (size : Nat) : Nat → Bytes → Bytes → List (List Attr) → Option (List (List Attr))
  | 0, _, _, _ => none
  | n + 1, input, line, data =>
    match readLine size input with
    | none => some data
    | some (chunk, true, rest) => loadLoop size n rest (line ++ chunk) data
    | some (chunk, false, rest) =>
      match Gin.parse (trimTimeLevel (line ++ chunk)) with
      | some args => loadLoop size n rest [] (data ++ [args])
      | none => loadLoop size n rest [] data

/-- `logDataMap` after `init` (bench/tests/logging.go:29-56). The buffer of
`bufio.NewReader` has 4096 bytes. `none`: rounds exhausted (never, see `load_eq`). -/
def load (text : Bytes) : Option (List (List Attr)) := loadLoop 4096 (text.length + 1) text [] []

/-- The lines of the embedded file (bench/tests/logging.txt:1-51). -/
def loggingLines : List Bytes :=
  [b!"07:55:40 INF 200 |    1.091422ms |             ::1 | GET      \"/test?tag=SimpleSource\"",
   b!"07:55:40 INF 200 |        5.24µs |             ::1 | GET      \"/style.css\"",
   b!"07:55:40 INF 200 |      35.553µs |             ::1 | GET      \"/home.svg\"",
   b!"07:55:40 INF 200 |    7.192036ms |             ::1 | GET      \"/chart.svg?tag=SimpleSource&item=Nanos\"",
   b!"07:55:40 INF 200 |    8.404823ms |             ::1 | GET      \"/chart.svg?tag=SimpleSource&item=MemBytes\"",
   b!"07:55:40 INF 200 |    9.148808ms |             ::1 | GET      \"/chart.svg?tag=SimpleSource&item=MemAllocs\"",
   b!"07:55:40 INF 200 |    9.767509ms |             ::1 | GET      \"/chart.svg?tag=SimpleSource&item=GbPerSec\"",
   b!"07:55:52 INF 200 |    2.512908ms |             ::1 | GET      \"/handler?tag=samberZap\"",
   b!"07:55:52 INF 200 |       4.875µs |             ::1 | GET      \"/style.css\"",
   b!"07:55:52 INF 200 |      30.783µs |             ::1 | GET      \"/home.svg\"",
   b!"07:55:52 INF 200 |    9.522199ms |             ::1 | GET      \"/chart.svg?tag=samberZap&item=MemAllocs\"",
   b!"07:55:52 INF 200 |    9.559082ms |             ::1 | GET      \"/chart.svg?tag=samberZap&item=MemBytes\"",
   b!"07:55:52 INF 200 |   12.737197ms |             ::1 | GET      \"/chart.svg?tag=samberZap&item=Nanos\"",
   b!"07:55:52 INF 200 |   12.360438ms |             ::1 | GET      \"/chart.svg?tag=samberZap&item=GbPerSec\"",
   b!"07:55:53 INF 200 |     385.679µs |             ::1 | GET      \"/test?tag=BigGroup\"",
   b!"07:55:53 INF 200 |        5.69µs |             ::1 | GET      \"/style.css\"",
   b!"07:55:53 INF 200 |      20.222µs |             ::1 | GET      \"/home.svg\"",
   b!"07:55:53 INF 200 |    7.390374ms |             ::1 | GET      \"/chart.svg?tag=BigGroup&item=Nanos\"",
   b!"07:55:53 INF 200 |    7.307819ms |             ::1 | GET      \"/chart.svg?tag=BigGroup&item=MemBytes\"",
   b!"07:55:53 INF 200 |    6.485709ms |             ::1 | GET      \"/chart.svg?tag=BigGroup&item=GbPerSec\"",
   b!"07:55:53 INF 200 |    9.998795ms |             ::1 | GET      \"/chart.svg?tag=BigGroup&item=MemAllocs\"",
   b!"07:55:55 INF 200 |     395.741µs |             ::1 | GET      \"/test?tag=WithAttrsAttributes\"",
   b!"07:55:55 INF 200 |       4.278µs |             ::1 | GET      \"/style.css\"",
   b!"07:55:55 INF 200 |      21.861µs |             ::1 | GET      \"/home.svg\"",
   b!"07:55:55 INF 200 |     5.10954ms |             ::1 | GET      \"/chart.svg?tag=WithAttrsAttributes&item=Nanos\"",
   b!"07:55:55 INF 200 |    5.651326ms |             ::1 | GET      \"/chart.svg?tag=WithAttrsAttributes&item=MemBytes\"",
   b!"07:55:55 INF 200 |    5.342417ms |             ::1 | GET      \"/chart.svg?tag=WithAttrsAttributes&item=GbPerSec\"",
   b!"07:55:55 INF 200 |    5.565283ms |             ::1 | GET      \"/chart.svg?tag=WithAttrsAttributes&item=MemAllocs\"",
   b!"07:55:57 INF 200 |     473.763µs |             ::1 | GET      \"/handler?tag=slogJSON\"",
   b!"07:55:57 INF 200 |       5.238µs |             ::1 | GET      \"/style.css\"",
   b!"07:55:57 INF 200 |      20.574µs |             ::1 | GET      \"/home.svg\"",
   b!"07:55:57 INF 200 |   11.287222ms |             ::1 | GET      \"/chart.svg?tag=slogJSON&item=Nanos\"",
   b!"07:55:57 INF 200 |   11.645729ms |             ::1 | GET      \"/chart.svg?tag=slogJSON&item=MemAllocs\"",
   b!"07:55:57 INF 200 |   10.784843ms |             ::1 | GET      \"/chart.svg?tag=slogJSON&item=GbPerSec\"",
   b!"07:55:57 INF 200 |   10.743304ms |             ::1 | GET      \"/chart.svg?tag=slogJSON&item=MemBytes\"",
   b!"07:55:59 INF 200 |    1.908524ms |             ::1 | GET      \"/test?tag=Disabled\"",
   b!"07:55:59 INF 200 |       8.394µs |             ::1 | GET      \"/style.css\"",
   b!"07:55:59 INF 200 |      19.174µs |             ::1 | GET      \"/home.svg\"",
   b!"07:55:59 INF 200 |    3.148083ms |             ::1 | GET      \"/chart.svg?tag=Disabled&item=Nanos\"",
   b!"07:55:59 INF 200 |    5.809804ms |             ::1 | GET      \"/chart.svg?tag=Disabled&item=MemBytes\"",
   b!"07:55:59 INF 200 |    5.301259ms |             ::1 | GET      \"/chart.svg?tag=Disabled&item=GbPerSec\"",
   b!"07:55:59 INF 200 |    5.938581ms |             ::1 | GET      \"/chart.svg?tag=Disabled&item=MemAllocs\"",
   b!"07:56:00 INF 200 |    1.050459ms |             ::1 | GET      \"/\"",
   b!"07:56:01 INF 200 |       6.049µs |             ::1 | GET      \"/style.css\"",
   b!"07:56:03 INF 200 |    1.194613ms |             ::1 | GET      \"/test?tag=WithGroupKeyValues\"",
   b!"07:56:03 INF 200 |      26.337µs |             ::1 | GET      \"/style.css\"",
   b!"07:56:03 INF 200 |      18.688µs |             ::1 | GET      \"/home.svg\"",
   b!"07:56:03 INF 200 |    6.454931ms |             ::1 | GET      \"/chart.svg?tag=WithGroupKeyValues&item=Nanos\"",
   b!"07:56:03 INF 200 |    6.330412ms |             ::1 | GET      \"/chart.svg?tag=WithGroupKeyValues&item=MemAllocs\"",
   b!"07:56:03 INF 200 |      6.5129ms |             ::1 | GET      \"/chart.svg?tag=WithGroupKeyValues&item=MemBytes\"",
   b!"07:56:03 INF 200 |    6.355996ms |             ::1 | GET      \"/chart.svg?tag=WithGroupKeyValues&item=GbPerSec\""]

/-- The embedded file (bench/tests/logging.go:19-20). -/
def loggingText : Bytes := (loggingLines.map (· ++ [0x0A])).flatten

/-! ### The lines read -/

/-- What a line adds to the data. -/
def entry (line : Bytes) : List (List Attr) := (Gin.parse (trimTimeLevel line)).toList

theorem load_line {size n : Nat} {input line chunk rest : Bytes} {data : List (List Attr)}
    (h : readLine size input = some (chunk, false, rest)) :
    loadLoop size (n + 1) input line data = loadLoop size n rest [] (data ++ entry (line ++ chunk)) := by
  rw [loadLoop, h]
  dsimp only
  unfold entry
  cases Gin.parse (trimTimeLevel (line ++ chunk)) with
  | some a => rfl
  | none => simp

theorem load_prefix {size n : Nat} {input line chunk rest : Bytes} {data : List (List Attr)}
    (h : readLine size input = some (chunk, true, rest)) :
    loadLoop size (n + 1) input line data = loadLoop size n rest (line ++ chunk) data := by
  rw [loadLoop, h]

theorem load_terminated {size : Nat} (hs : 2 ≤ size) (r : Bytes) (data : List (List Attr)) :
    ∀ (k : Nat) (l line : Bytes) (n : Nat), l.length ≤ k → (0x0A : UInt8) ∉ l → (l ++ 0x0A :: r).length < n →
      ∃ n', r.length < n' ∧ loadLoop size n (l ++ 0x0A :: r) line data =
        loadLoop size n' r [] (data ++ entry (line ++ dropCR l)) := by
  intro k
  induction k with
  | zero =>
    intro l line n hk hl hn
    have : l = [] := by simpa using hk
    subst this
    obtain ⟨n, rfl⟩ : ∃ n', n = n' + 1 := ⟨n - 1, by simp at hn; omega⟩
    refine ⟨n, by simp at hn; omega, ?_⟩
    apply load_line
    unfold readLine
    have : (0x0A : UInt8) ∈ ([] ++ 0x0A :: r).take size := by
      obtain ⟨s, rfl⟩ : ∃ s, size = s + 1 := ⟨size - 1, by omega⟩
      simp
    rw [if_neg (by simp), if_pos this]
    simp
  | succ k ih =>
    intro l line n hk hl hn
    obtain ⟨n, rfl⟩ : ∃ n', n = n' + 1 := ⟨n - 1, by simp at hn; omega⟩
    by_cases hlen : size ≤ l.length
    · have hr := readLine_long hs hl hlen (r := 0x0A :: r)
      by_cases hcr : (l.take size).getLast? = some 0x0D
      · rw [if_pos hcr] at hr
        rw [load_prefix hr]
        have hne : l.drop (size - 1) ≠ [] := by
          intro e
          have := congrArg List.length e
          simp at this; omega
        obtain ⟨n', h1, h2⟩ := ih (l.drop (size - 1)) (line ++ l.take (size - 1)) n
          (by simp; omega) (fun hm => hl (List.mem_of_mem_drop hm)) (by simp at hn ⊢; omega)
        refine ⟨n', h1, ?_⟩
        rw [h2, List.append_assoc, ← dropCR_append (.inl hne), List.take_append_drop]
      · rw [if_neg hcr] at hr
        rw [load_prefix hr]
        obtain ⟨n', h1, h2⟩ := ih (l.drop size) (line ++ l.take size) n
          (by simp; omega) (fun hm => hl (List.mem_of_mem_drop hm)) (by simp at hn ⊢; omega)
        refine ⟨n', h1, ?_⟩
        rw [h2, List.append_assoc, ← dropCR_append (.inr hcr), List.take_append_drop]
    · refine ⟨n, by simp at hn; omega, ?_⟩
      apply load_line
      unfold readLine
      have : (0x0A : UInt8) ∈ (l ++ 0x0A :: r).take size := by
        rw [List.take_append]
        obtain ⟨s, hs⟩ : ∃ s, size - l.length = s + 1 := ⟨size - l.length - 1, by omega⟩
        rw [hs]; simp
      rw [if_neg (by simp), if_pos this, (takeWhile_nl hl).1, (takeWhile_nl hl).2]
      rfl

open Classical in
theorem load_tail {size : Nat} (hs : 2 ≤ size) (data : List (List Attr)) :
    ∀ (k : Nat) (t line : Bytes) (n : Nat), t.length ≤ k → (0x0A : UInt8) ∉ t → t.length < n →
      loadLoop size n t line data = some (if Filled size t then data else data ++ entry (line ++ t)) := by
  intro k
  induction k with
  | zero =>
    intro t line n hk ht hn
    have : t = [] := by simpa using hk
    subst this
    obtain ⟨n, rfl⟩ : ∃ n', n = n' + 1 := ⟨n - 1, by omega⟩
    rw [if_pos .nil]
    simp [loadLoop, readLine]
  | succ k ih =>
    intro t line n hk ht hn
    obtain ⟨n, rfl⟩ : ∃ n', n = n' + 1 := ⟨n - 1, by omega⟩
    by_cases hlen : size ≤ t.length
    · have hr := readLine_long hs ht hlen (r := [])
      rw [List.append_nil] at hr
      by_cases hcr : (t.take size).getLast? = some 0x0D
      · rw [if_pos hcr, List.append_nil] at hr
        rw [load_prefix hr, ih _ _ _ (by simp; omega)
          (fun hm => ht (List.mem_of_mem_drop hm)) (by simp; omega), List.append_assoc,
          List.take_append_drop]
        simp only [filled_cr hlen hs hcr]
      · rw [if_neg hcr, List.append_nil] at hr
        rw [load_prefix hr, ih _ _ _ (by simp; omega)
          (fun hm => ht (List.mem_of_mem_drop hm)) (by simp; omega), List.append_assoc,
          List.take_append_drop]
        simp only [filled_full hlen hs hcr]
    · by_cases h0 : t = []
      · subst h0
        rw [if_pos .nil]
        simp [loadLoop, readLine]
      · rw [if_neg (filled_short h0 (by omega))]
        have : readLine size t = some (t, false, []) := by
          unfold readLine
          rw [if_neg h0, if_neg (fun hm => ht (List.mem_of_mem_take hm)), if_neg hlen]
        obtain ⟨n, rfl⟩ : ∃ n', n = n' + 1 := ⟨n - 1, by
          have := List.length_pos_iff.2 h0; omega⟩
        rw [load_line this]
        simp [loadLoop, readLine]

theorem loadLoop_eq {size : Nat} (hs : 2 ≤ size) {s : Bytes} {ls : List Bytes} {t : Bytes} (h : Cut s ls t) :
    ∀ (n : Nat) (data : List (List Attr)), s.length < n →
      loadLoop size n s [] data = some (data ++ ((linesRead size ls t).map entry).flatten) := by
  induction h with
  | tail ht =>
    intro n data hn
    rw [load_tail hs data _ _ [] n (Nat.le_refl _) ht hn]
    unfold linesRead
    split <;> simp
  | line hl _ ih =>
    intro n data hn
    obtain ⟨n', h1, h2⟩ := load_terminated hs _ data _ _ [] n (Nat.le_refl _) hl hn
    rw [h2, ih n' _ h1]
    simp [linesRead]

/-! ### Time and level -/

/-- `r` is what is left of a line without time and level. -/
def Stamped (l r : Bytes) : Prop :=
  ∃ a t b w c d rest, l = a ++ (t ++ (b ++ (w ++ (c ++ d :: rest)))) ∧ (∀ x ∈ a, isS x = true) ∧
    t.length = 8 ∧ (∀ x ∈ t, isDC x = true) ∧ Many isS b ∧ Many isW w ∧ Many isS c ∧ isD d = true ∧ r = d :: rest

theorem dc_s : ∀ x, isDC x = true → isS x = false := by
  set_option maxRecDepth 100000 in
  apply forall_byte; decide +kernel

theorem w_s : ∀ x, isW x = true → isS x = false := by
  set_option maxRecDepth 100000 in
  apply forall_byte; decide +kernel

theorem s_w : ∀ x, isS x = true → isW x = false := by
  set_option maxRecDepth 100000 in
  apply forall_byte; decide +kernel

theorem d_s : ∀ x, isD x = true → isS x = false := by
  set_option maxRecDepth 100000 in
  apply forall_byte; decide +kernel

theorem run_rep {p : UInt8 → Bool} {r : Re} {k : Bytes → Caps → Option Caps} {m : Caps} :
    ∀ {t : Bytes} {s : Bytes}, (∀ x ∈ t, p x = true) →
      (rep p r t.length).run k (t ++ s) m = r.run k s m
  | [], s, _ => rfl
  | a :: t, s, h => by
    rw [List.length_cons, rep, run_cat, List.cons_append, run_one _ (h a List.mem_cons_self)]
    exact run_rep fun x hx => h x (List.mem_cons_of_mem _ hx)

theorem lang_rep {p : UInt8 → Bool} {r : Re} : ∀ {n : Nat} {s u : Bytes}, Lang (rep p r n) s u →
    ∃ t s', s = t ++ s' ∧ t.length = n ∧ (∀ x ∈ t, p x = true) ∧ Lang r s' u
  | 0, s, u, h => ⟨[], s, rfl, rfl, fun _ h => by (cases h), h⟩
  | n + 1, s, u, h => by
    rw [rep] at h
    cases h with | cat h1 h2 =>
    cases h1 with | one ha =>
    obtain ⟨t, s', rfl, h3, h4, h5⟩ := lang_rep h2
    exact ⟨_ :: t, s', rfl, by rw [List.length_cons, h3], by
      intro x hx
      rcases List.mem_cons.1 hx with rfl | hx
      · exact ha
      · exact h4 x hx, h5⟩

theorem first_of {p q : UInt8 → Bool} (h : ∀ x, p x = true → q x = false) {w s : Bytes} (hw : Many p w) :
    ∀ a t', w ++ s = a :: t' → q a = false := by
  obtain ⟨hne, hw⟩ := hw
  intro a t' e
  cases w with
  | nil => exact absurd rfl hne
  | cons x w =>
    cases e
    exact h _ (hw _ List.mem_cons_self)

theorem trim_stamped {l r : Bytes} (h : Stamped l r) : trimTimeLevel l = r := by
  obtain ⟨a, t, b, w, c, d, rest, rfl, ha, h8, ht, hb, hw, hc, hd, rfl⟩ := h
  have hf : ptnTrimTimeLevel.find (a ++ (t ++ (b ++ (w ++ (c ++ d :: rest))))) =
      some [(1, [d]), (0, a ++ (t ++ (b ++ (w ++ (c ++ [d])))))] := by
    unfold ptnTrimTimeLevel Re.find
    rw [run_cap, run_cat]
    have hmt : Many isDC t := ⟨(by intro e; rw [e] at h8; cases h8), ht⟩
    refine run_star ha (first_of dc_s hmt) ?_
    rw [← h8, run_rep ht]
    simp only [seq]
    rw [run_cat]
    refine run_plus hb (first_of w_s hw) ?_
    rw [run_cat]
    refine run_plus hw (first_of s_w hc) ?_
    rw [run_cat]
    refine run_plus hc ?_ ?_
    · intro x t' e
      cases e
      exact d_s _ hd
    · rw [run_cap, run_cat, run_one _ hd]
      simp only [Re.run]
      have : ∀ (k : Bytes → Option Caps) (s : Bytes) (v : Caps), k s = some v → lazyRun isD k s = some v := by
        intro k s v hk
        cases s with
        | nil => exact hk
        | cons a s => rw [lazyRun, hk]
      apply this
      have e1 : (d :: rest).take ((d :: rest).length - rest.length) = [d] := by
        have := take_diff [d] rest
        exact this
      have e2 : (a ++ (t ++ (b ++ (w ++ (c ++ d :: rest))))).take
          ((a ++ (t ++ (b ++ (w ++ (c ++ d :: rest))))).length - rest.length) = a ++ (t ++ (b ++ (w ++ (c ++ [d])))) := by
        have := take_diff (a ++ (t ++ (b ++ (w ++ (c ++ [d]))))) rest
        simpa only [List.append_assoc, List.cons_append, List.nil_append] using this
      rw [e1, e2]
      rfl
  unfold trimTimeLevel
  rw [hf]
  have e0 : Caps.text [(1, [d]), (0, a ++ (t ++ (b ++ (w ++ (c ++ [d])))))] 0 =
      a ++ (t ++ (b ++ (w ++ (c ++ [d])))) := rfl
  have e1 : Caps.text [(1, [d]), (0, a ++ (t ++ (b ++ (w ++ (c ++ [d])))))] 1 = [d] := rfl
  dsimp only
  rw [e0, e1]
  have : a ++ (t ++ (b ++ (w ++ (c ++ d :: rest)))) = (a ++ (t ++ (b ++ (w ++ (c ++ [d]))))) ++ rest := by
    simp only [List.append_assoc, List.cons_append, List.nil_append]
  rw [this, List.drop_left]
  rfl

theorem trim_other {l : Bytes} (h : ¬ ∃ r, Stamped l r) : trimTimeLevel l = l := by
  have : ptnTrimTimeLevel.find l = none := by
    rw [Re.find_none]
    intro u hl
    apply h
    unfold ptnTrimTimeLevel at hl
    cases hl with | cap hl0 =>
    obtain ⟨a, s1, rfl, ha, hl1⟩ := lang_seq_star hl0
    obtain ⟨t, s2, rfl, h8, ht, hl2⟩ := lang_rep hl1
    simp only [seq] at hl2
    cases hl2 with | cat q1 hl3 =>
    obtain ⟨b, rfl, hb⟩ := lang_plus q1
    cases hl3 with | cat q2 hl4 =>
    obtain ⟨w, rfl, hw⟩ := lang_plus q2
    cases hl4 with | cat q3 hl5 =>
    obtain ⟨c, rfl, hc⟩ := lang_plus q3
    cases hl5 with | cap hl6 =>
    cases hl6 with | cat q4 _ =>
    cases q4 with | one hd =>
    exact ⟨_, a, t, b, w, c, _, _, rfl, ha, h8, ht, hb, hw, hc, hd, rfl⟩
  unfold trimTimeLevel
  rw [this]

end Verif.Bench
