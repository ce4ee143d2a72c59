import Verif.GoLib

/-
The regular expressions used in /repo/internal/data/warnings_parser.go and
/repo/internal/data/bench_parser.go.

Package regexp finds the match that a backtracking search would find first; the model is
that search. It works on bytes instead of runes: every class used either contains all
bytes that are not ASCII or none, and every literal is ASCII, so it makes no difference
for the text that is matched, well-formed UTF-8 or not. `Re.find` is for patterns that
are anchored at the start, `Re.findAny` for the others.
-/

namespace Verif.Data
open Go

/-- A regular expression of the kind used. -/
inductive Re
  | lit (s : Bytes)
  | one (p : UInt8 → Bool)
  | star (p : UInt8 → Bool)
  | lazy (p : UInt8 → Bool)
  | cat (a b : Re)
  | opt (a : Re)
  | cap (i : Nat) (a : Re)
  | eot
  | nw

/-- `\w`. -/
def isW (b : UInt8) : Bool := (0x30 ≤ b && b ≤ 0x39) || (0x41 ≤ b && b ≤ 0x5A) || (0x61 ≤ b && b ≤ 0x7A) || b == 0x5F

/-- No word goes on here: `\b` after a word character. -/
def wordStops : Bytes → Bool
  | [] => true
  | a :: _ => !isW a

/-- The texts of the groups matched so far. -/
abbrev Caps := Map Nat Bytes

/-- The rest of the text without a prefix. -/
def stripPrefix : Bytes → Bytes → Option Bytes
  | [], s => some s
  | _ :: _, [] => none
  | a :: p, b :: s => if a = b then stripPrefix p s else none

/-- `p*`: as many as possible first. -/
def starRun {R : Type} (p : UInt8 → Bool) (k : Bytes → Option R) : Bytes → Option R
  | [] => k []
  | a :: s =>
    if p a then
      match starRun p k s with
      | some r => some r
      | none => k (a :: s)
    else k (a :: s)

/-- `p*?`: as few as possible first. -/
def lazyRun {R : Type} (p : UInt8 → Bool) (k : Bytes → Option R) : Bytes → Option R
  | [] => k []
  | a :: s =>
    match k (a :: s) with
    | some r => some r
    | none => if p a then lazyRun p k s else none

/-- The search, with what is to be matched afterwards. -/
def Re.run : Re → (Bytes → Caps → Option Caps) → Bytes → Caps → Option Caps
  | .lit p, k, s, m =>
    match stripPrefix p s with
    | some t => k t m
    | none => none
  | .one p, k, s, m =>
    match s with
    | [] => none
    | a :: t => if p a then k t m else none
  | .star p, k, s, m => starRun p (fun t => k t m) s
  | .lazy p, k, s, m => lazyRun p (fun t => k t m) s
  | .cat a b, k, s, m => a.run (fun t m => b.run k t m) s m
  | .opt a, k, s, m =>
    match a.run k s m with
    | some r => some r
    | none => k s m
  | .cap i a, k, s, m => a.run (fun t m => k t (m.set i (s.take (s.length - t.length)))) s m
  | .eot, k, s, m => if s = [] then k s m else none
  | .nw, k, s, m => if wordStops s then k s m else none

/-- `FindSubmatch`, for a pattern anchored at the start: the groups that took part. -/
def Re.find (r : Re) (s : Bytes) : Option Caps := r.run (fun _ m => some m) s []

/-- `FindSubmatch` for other patterns: the first match is the one that starts first. -/
def Re.findAny (r : Re) : Bytes → Option Caps
  | [] => r.find []
  | a :: s =>
    match r.find (a :: s) with
    | some m => some m
    | none => Re.findAny r s

/-- The text of a group; a group that did not take part is empty (internal/data uses
`string(matches[i])`). -/
def Caps.text (m : Caps) (i : Nat) : Bytes := (Map.get m i).getD []

/-- `\s`. -/
def isS (b : UInt8) : Bool := b == 0x09 || b == 0x0A || b == 0x0C || b == 0x0D || b == 0x20
/-- `\S`. -/
def isNS (b : UInt8) : Bool := !isS b
/-- `\d`. -/
def isD (b : UInt8) : Bool := 0x30 ≤ b && b ≤ 0x39
/-- `.`. -/
def isDot (b : UInt8) : Bool := b != 0x0A

/-- A sequence. -/
def seq : List Re → Re
  | [] => .lit []
  | [r] => r
  | r :: rs => .cat r (seq rs)

/-- `ptnWarningsFor` (internal/data/warnings_parser.go:21). -/
def ptnWarningsFor : Re := seq [.star isS, .lit b!"Warnings", .one isS, .star isS, .lit b!"for", .one isS, .star isS,
  .cap 1 (.star isDot), .lit b!":", .star isS, .eot]
/-- `ptnLevel` (internal/data/warnings_parser.go:22). -/
def ptnLevel : Re := seq [.star isS, .cap 1 (.cat (.one isNS) (.star isNS)), .star isS, .eot]
/-- `ptnWarning` (internal/data/warnings_parser.go:23). -/
def ptnWarning : Re := seq [.star isS, .one isD, .star isD, .one isS, .star isS, .lit b!"[", .cap 1 (.star isDot),
  .lit b!"]", .star isS, .cap 2 (.lazy isDot), .star isS, .eot]
/-- `ptnInstance` (internal/data/warnings_parser.go:24). -/
def ptnInstance : Re := seq [.star isS, .cap 1 (.cat (.one isNS) (.star isNS)),
  .opt (seq [.lit b!":", .star isS, .cap 2 (.lazy isDot)]), .star isS, .eot]
/-- `ptnExtra` (internal/data/warnings_parser.go:25). -/
def ptnExtra : Re := seq [.star isS, .lit b!"+", .cap 1 (.lazy isDot), .star isS, .eot]
/-- `ptnLogLine` (internal/data/warnings_parser.go:26). -/
def ptnLogLine : Re := seq [.star isS, .lit b!"{"]
/-- `ptnNone` (internal/data/warnings_parser.go:27). -/
def ptnNone : Re := seq [.star isS, .lit b!"None", .star isS, .eot]
/-- `ptnByWarning` (internal/data/warnings_parser.go:28). -/
def ptnByWarning : Re := seq [.star isS, .lit b!"Handlers", .one isS, .star isS, .lit b!"by", .one isS, .star isS,
  .lit b!"warning:", .star isS, .eot]
/-- `ptnSummaryStart` (internal/data/warnings_parser.go:29). -/
def ptnSummaryStart : Re := seq [.lit b!":[", .star isS, .cap 1 (.cat (.one isNS) (.lazy isDot)), .star isS, .eot]
/-- `ptnSummaryLine` (internal/data/warnings_parser.go:30). -/
def ptnSummaryLine : Re := seq [.lit b!"::", .star isS, .cap 1 (.cat (.one isNS) (.lazy isDot)), .star isS, .eot]
/-- `ptnSummaryLink` (internal/data/warnings_parser.go:31). -/
def ptnSummaryLink : Re := seq [.lit b!":>", .star isS, .cap 1 (.cat (.one isNS) (.lazy isDot)), .star isS,
  .lit b!"-->", .star isS, .cap 2 (.cat (.one isNS) (.lazy isDot)), .star isS, .eot]
/-- `ptnSummaryEnd` (internal/data/warnings_parser.go:32). -/
def ptnSummaryEnd : Re := seq [.lit b!":]", .star isS, .eot]

/-! ### Facts -/

/-- The search finds something exactly if the text is in the language of the expression:
`Lang r s t` if `r` can match the part of `s` before `t`. -/
inductive Lang : Re → Bytes → Bytes → Prop
  | lit {p t : Bytes} : Lang (.lit p) (p ++ t) t
  | one {p : UInt8 → Bool} {a : UInt8} {t : Bytes} : p a = true → Lang (.one p) (a :: t) t
  | star0 {p : UInt8 → Bool} {s : Bytes} : Lang (.star p) s s
  | star1 {p : UInt8 → Bool} {a : UInt8} {s t : Bytes} : p a = true → Lang (.star p) s t → Lang (.star p) (a :: s) t
  | lazy0 {p : UInt8 → Bool} {s : Bytes} : Lang (.lazy p) s s
  | lazy1 {p : UInt8 → Bool} {a : UInt8} {s t : Bytes} : p a = true → Lang (.lazy p) s t → Lang (.lazy p) (a :: s) t
  | cat {a b : Re} {s t u : Bytes} : Lang a s t → Lang b t u → Lang (.cat a b) s u
  | opt0 {a : Re} {s : Bytes} : Lang (.opt a) s s
  | opt1 {a : Re} {s t : Bytes} : Lang a s t → Lang (.opt a) s t
  | cap {i : Nat} {a : Re} {s t : Bytes} : Lang a s t → Lang (.cap i a) s t
  | eot : Lang .eot [] []
  | nw {s : Bytes} : wordStops s = true → Lang .nw s s

theorem stripPrefix_iff {p s t : Bytes} : stripPrefix p s = some t ↔ s = p ++ t := by
  induction p generalizing s with
  | nil => simp [stripPrefix, eq_comm]
  | cons a p ih =>
    cases s with
    | nil => simp [stripPrefix]
    | cons b s =>
      unfold stripPrefix
      split
      · rename_i h; subst h; rw [ih]; simp
      · rename_i h; simp; intro e; exact absurd e.symm h

theorem stripPrefix_append (p t : Bytes) : stripPrefix p (p ++ t) = some t := stripPrefix_iff.2 rfl

theorem starRun_none {R : Type} {p : UInt8 → Bool} {k : Bytes → Option R} {s : Bytes} :
    starRun p k s = none ↔ ∀ t, Lang (.star p) s t → k t = none := by
  induction s with
  | nil =>
    unfold starRun
    exact ⟨fun h t ht => by cases ht; exact h, fun h => h _ .star0⟩
  | cons a s ih =>
    unfold starRun
    by_cases hp : p a = true
    · rw [if_pos hp]
      cases e : starRun p k s with
      | some r =>
        simp only [reduceCtorEq, false_iff]
        intro h
        have := ih.2 fun t ht => h t (.star1 hp ht)
        rw [this] at e; cases e
      | none =>
        constructor
        · intro h t ht
          cases ht with
          | star0 => exact h
          | star1 _ ht => exact ih.1 e t ht
        · intro h; exact h _ .star0
    · rw [if_neg hp]
      constructor
      · intro h t ht
        cases ht with
        | star0 => exact h
        | star1 h' _ => exact absurd h' hp
      · intro h; exact h _ .star0

theorem lazyRun_none {R : Type} {p : UInt8 → Bool} {k : Bytes → Option R} {s : Bytes} :
    lazyRun p k s = none ↔ ∀ t, Lang (.lazy p) s t → k t = none := by
  induction s with
  | nil =>
    unfold lazyRun
    exact ⟨fun h t ht => by cases ht; exact h, fun h => h _ .lazy0⟩
  | cons a s ih =>
    unfold lazyRun
    cases e : k (a :: s) with
    | some r =>
      simp only [reduceCtorEq, false_iff]
      intro h
      have := h _ .lazy0
      rw [this] at e; cases e
    | none =>
      simp only
      by_cases hp : p a = true
      · rw [if_pos hp, ih]
        constructor
        · intro h t ht
          cases ht with
          | lazy0 => exact e
          | lazy1 _ ht => exact h t ht
        · intro h t ht; exact h t (.lazy1 hp ht)
      · rw [if_neg hp]
        constructor
        · intro h t ht
          cases ht with
          | lazy0 => exact e
          | lazy1 h' _ => exact absurd h' hp
        · intro _; rfl

theorem Re.run_none : ∀ (r : Re) (k : Bytes → Caps → Option Caps) (s : Bytes) (m : Caps), (∀ t m m', k t m = none ↔ k t m' = none) →
    (r.run k s m = none ↔ ∀ t, Lang r s t → k t m = none)
  | .lit p, k, s, m, hk => by
    unfold Re.run
    cases e : stripPrefix p s with
    | none =>
      simp only [true_iff]
      intro t ht
      cases ht
      rw [stripPrefix_append] at e; cases e
    | some t =>
      simp only
      have := stripPrefix_iff.1 e
      subst this
      constructor
      · intro h t' ht
        generalize hs : p ++ t = s at ht
        cases ht
        have := List.append_cancel_left hs
        subst this; exact h
      · intro h; exact h _ .lit
  | .one p, k, s, m, hk => by
    unfold Re.run
    cases s with
    | nil => simp only [true_iff]; intro t ht; cases ht
    | cons a s =>
      simp only
      by_cases hp : p a = true
      · rw [if_pos hp]
        exact ⟨fun h t ht => by cases ht; exact h, fun h => h _ (.one hp)⟩
      · rw [if_neg hp]
        simp only [true_iff]
        intro t ht; cases ht; contradiction
  | .star p, k, s, m, hk => by unfold Re.run; exact starRun_none
  | .lazy p, k, s, m, hk => by unfold Re.run; exact lazyRun_none
  | .cat a b, k, s, m, hk => by
    unfold Re.run
    rw [Re.run_none a _ s m fun t m m' => by
      rw [Re.run_none b k t m hk, Re.run_none b k t m' hk]
      exact ⟨fun h u hu => (hk _ _ _).1 (h u hu), fun h u hu => (hk _ _ _).1 (h u hu)⟩]
    constructor
    · intro h t ht
      cases ht with
      | cat h1 h2 => exact (Re.run_none b k _ m hk).1 (h _ h1) _ h2
    · intro h t ht
      exact (Re.run_none b k _ m hk).2 fun u hu => h u (.cat ht hu)
  | .opt a, k, s, m, hk => by
    unfold Re.run
    have ih := Re.run_none a k s m hk
    cases e : a.run k s m with
    | some r =>
      simp only [reduceCtorEq, false_iff]
      intro h
      have := ih.2 fun t ht => h t (.opt1 ht)
      rw [this] at e; cases e
    | none =>
      constructor
      · intro h t ht
        cases ht with
        | opt0 => exact h
        | opt1 ht => exact ih.1 e t ht
      · intro h; exact h _ .opt0
  | .cap i a, k, s, m, hk => by
    unfold Re.run
    rw [Re.run_none a (fun t m => k t (m.set i (s.take (s.length - t.length)))) s m fun t m m' => hk t _ _]
    constructor
    · intro h t ht
      cases ht with
      | cap ht => exact (hk _ _ _).1 (h t ht)
    · intro h t ht
      exact (hk _ _ _).1 (h t (.cap ht))
  | .eot, k, s, m, hk => by
    unfold Re.run
    by_cases hs : s = []
    · subst hs
      rw [if_pos rfl]
      exact ⟨fun h t ht => by cases ht; exact h, fun h => h _ .eot⟩
    · rw [if_neg hs]
      simp only [true_iff]
      intro t ht
      cases ht
      exact absurd rfl hs
  | .nw, k, s, m, hk => by
    unfold Re.run
    by_cases hs : wordStops s = true
    · rw [if_pos hs]
      exact ⟨fun h t ht => by cases ht; exact h, fun h => h _ (.nw hs)⟩
    · rw [if_neg hs]
      simp only [true_iff]
      intro t ht
      cases ht
      contradiction

/-- A pattern matches exactly the texts with a prefix in its language. -/
theorem Re.find_none (r : Re) (s : Bytes) : r.find s = none ↔ ∀ t, ¬ Lang r s t := by
  unfold Re.find
  rw [Re.run_none r _ s [] fun _ _ _ => by simp]
  simp

/-! ### Tools -/

theorem run_cat (a b : Re) (k : Bytes → Caps → Option Caps) (s : Bytes) (m : Caps) :
    (Re.cat a b).run k s m = a.run (fun t m => b.run k t m) s m := rfl

theorem run_lit (p : Bytes) (k : Bytes → Caps → Option Caps) (t : Bytes) (m : Caps) :
    (Re.lit p).run k (p ++ t) m = k t m := by
  simp only [Re.run, stripPrefix_append]

theorem run_one {p : UInt8 → Bool} (k : Bytes → Caps → Option Caps) {a : UInt8} (h : p a = true) (t : Bytes) (m : Caps) :
    (Re.one p).run k (a :: t) m = k t m := by
  simp only [Re.run, if_pos h]

/-- A repetition takes all it can, if the rest then matches. -/
theorem run_star {p : UInt8 → Bool} {k : Bytes → Caps → Option Caps} {u t : Bytes} {m r : Caps} (hu : ∀ a ∈ u, p a = true)
    (ht : ∀ a t', t = a :: t' → p a = false) (h : k t m = some r) : (Re.star p).run k (u ++ t) m = some r := by
  unfold Re.run
  induction u with
  | nil =>
    cases t with
    | nil => exact h
    | cons a t =>
      show starRun p (fun t => k t m) (a :: t) = some r
      unfold starRun
      rw [if_neg (by rw [ht a t rfl]; decide)]
      exact h
  | cons a u ih =>
    show starRun p (fun t => k t m) (a :: (u ++ t)) = some r
    unfold starRun
    rw [if_pos (hu a (by simp)), ih fun b hb => hu b (by simp [hb])]

/-- A repetition takes what it may, if the rest then matches and matches nowhere later. -/
theorem run_star_last {p : UInt8 → Bool} {k : Bytes → Caps → Option Caps} {u t : Bytes} {m r : Caps} (hu : ∀ a ∈ u, p a = true)
    (ht : ∀ a t', t = a :: t' → ∀ t'', Lang (.star p) t' t'' → k t'' m = none) (h : k t m = some r) :
    (Re.star p).run k (u ++ t) m = some r := by
  unfold Re.run
  induction u with
  | nil =>
    cases t with
    | nil => exact h
    | cons a t =>
      show starRun p (fun t => k t m) (a :: t) = some r
      unfold starRun
      have : starRun p (fun t => k t m) t = none := starRun_none.2 fun t'' ht'' => ht a t rfl t'' ht''
      rw [this]
      split <;> exact h
  | cons a u ih =>
    show starRun p (fun t => k t m) (a :: (u ++ t)) = some r
    unfold starRun
    rw [if_pos (hu a (by simp)), ih fun b hb => hu b (by simp [hb])]

/-- A lazy repetition stops where the rest matches for the first time. -/
theorem run_lazy {p : UInt8 → Bool} {k : Bytes → Caps → Option Caps} {u t : Bytes} {m r : Caps} (hu : ∀ a ∈ u, p a = true)
    (hn : ∀ v w, u = v ++ w → w ≠ [] → k (w ++ t) m = none) (h : k t m = some r) :
    (Re.lazy p).run k (u ++ t) m = some r := by
  unfold Re.run
  induction u with
  | nil =>
    cases t with
    | nil => exact h
    | cons a t =>
      show lazyRun p (fun t => k t m) (a :: t) = some r
      unfold lazyRun
      rw [h]
  | cons a u ih =>
    show lazyRun p (fun t => k t m) (a :: (u ++ t)) = some r
    unfold lazyRun
    have : k (a :: (u ++ t)) m = none := hn [] (a :: u) rfl (by simp)
    rw [this]
    simp only
    rw [if_pos (hu a (by simp))]
    exact ih (fun b hb => hu b (by simp [hb])) fun v w e hw => hn (a :: v) w (by simp [e]) hw

theorem run_cap {i : Nat} {a : Re} {k : Bytes → Caps → Option Caps} {s : Bytes} {m : Caps} :
    (Re.cap i a).run k s m = a.run (fun t m => k t (m.set i (s.take (s.length - t.length)))) s m := rfl

theorem take_diff (u t : Bytes) : (u ++ t).take ((u ++ t).length - t.length) = u := by
  simp

/-- What a repetition leaves. -/
theorem lang_star {p : UInt8 → Bool} {s t : Bytes} (h : Lang (.star p) s t) : ∃ u, s = u ++ t ∧ ∀ a ∈ u, p a = true := by
  generalize hr : Re.star p = re at h
  induction h with
  | star0 => exact ⟨[], rfl, by simp⟩
  | @star1 p a s t hp _ ih =>
    cases hr
    obtain ⟨u, rfl, hu⟩ := ih rfl
    exact ⟨a :: u, rfl, by simpa using ⟨hp, hu⟩⟩
  | _ => cases hr

/-- The end: only white space is left. -/
theorem run_end {m : Caps} {u : Bytes} (hu : ∀ a ∈ u, isS a = true) :
    (Re.cat (.star isS) .eot).run (fun _ m => some m) u m = some m := by
  have : (Re.star isS).run (fun t m => Re.eot.run (fun _ m => some m) t m) (u ++ []) m = some m :=
    run_star hu (by simp) (by simp [Re.run])
  rw [List.append_nil] at this
  exact this

/-- White space and then something fails if something fails on what follows the white space. -/
theorem run_end_none {m : Caps} {u : Bytes} {a : UInt8} (ha : a ∈ u) (hs : isS a = false) :
    (Re.cat (.star isS) .eot).run (fun _ m => some m) u m = none := by
  rw [run_cat]
  refine starRun_none.2 fun t ht => ?_
  have : t ≠ [] := by
    intro e
    subst e
    generalize hr : Re.star isS = re at ht
    generalize he : ([] : Bytes) = t at ht
    induction ht with
    | star0 => subst he; cases ha
    | @star1 p b s t hp _ ih =>
      cases hr
      rcases List.mem_cons.1 ha with rfl | ha
      · rw [hs] at hp; cases hp
      · exact ih ha rfl he
    | _ => cases hr
  simp [Re.run, this]

/-- Leading white space does not matter when there is none. -/
theorem run_nospace {k : Bytes → Caps → Option Caps} {s : Bytes} {m : Caps} (h : ∀ a t, s = a :: t → isS a = false) :
    (Re.star isS).run k s m = k s m := by
  unfold Re.run
  cases s with
  | nil => rfl
  | cons a s =>
    unfold starRun
    rw [if_neg (by rw [h a s rfl]; decide)]

end Verif.Data
