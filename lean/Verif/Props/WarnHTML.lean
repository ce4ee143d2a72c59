import Verif.Server.WarnHTML
import Verif.Data.Takes
import Verif.Props.Summary
import Verif.Props.Setup
import Mathlib.Data.List.Forall2
import Mathlib.Tactic.IntervalCases

/-
C92: the extra text of a warning is shown as text.
-/

set_option linter.unusedSimpArgs false

namespace Verif.Props.WarnHTML
open Go Verif.Data Verif.Lines Verif.Server Verif.Props.Summary

/-! ### What a browser makes of markup -/

/-- A piece of a page: a character that is shown, the start of a character reference, or a tag. -/
inductive Piece
  | char (b : UInt8)
  | ref
  | tag (content : Bytes)
deriving DecidableEq

/-- A letter of ASCII. -/
def letter (a : UInt8) : Bool := (0x41 ≤ a && a ≤ 0x5A) || (0x61 ≤ a && a ≤ 0x7A)

/-- What behind a less-than sign makes it the start of a tag (WHATWG HTML 13.2.5.6): a letter, a
slash, an exclamation mark or a question mark. -/
def opens : Bytes → Bool
  | [] => false
  | a :: _ => letter a || a == 0x2F || a == 0x21 || a == 0x3F

/-- What behind an ampersand makes it the start of a reference (WHATWG HTML 13.2.5.72): a letter, a
digit or a number sign. -/
def refers : Bytes → Bool
  | [] => false
  | a :: _ => letter a || (0x30 ≤ a && a ≤ 0x39) || a == 0x23

/-- The pieces of markup; the first argument is what has been read of a tag. -/
def readFrom : Option Bytes → Bytes → List Piece
  | none, [] => []
  | some c, [] => [.tag c]
  | some c, a :: s => if a = 0x3E then .tag c :: readFrom none s else readFrom (some (c ++ [a])) s
  | none, a :: s =>
    if a = 0x3C ∧ opens s = true then readFrom (some []) s
    else if a = 0x26 ∧ refers s = true then .ref :: readFrom none s
    else .char a :: readFrom none s

/-- The pieces of markup. -/
def read (s : Bytes) : List Piece := readFrom none s

/-! ### What is to be shown -/

/-- A line that says where a test of package testing/slogtest has been called, with its parts: blanks, the
test, a colon, the message, blanks, and in parentheses a path, the file behind the last part of it and the line
in that, and anything. -/
structure Split (l w m1 m2 v x m3 m4 rest : Bytes) : Prop where
  whole : l = w ++ m1 ++ b!":" ++ m2 ++ v ++ b!"(" ++ x ++ b!"/" ++ m3 ++ b!":" ++ m4 ++ b!")" ++ rest
  blank1 : ∀ a ∈ w, isS a = true
  blank2 : ∀ a ∈ v, isS a = true
  test : m1 ≠ []
  message : m2 ≠ []
  file : ∃ y, m3 = b!"testing/" ++ y ++ b!".go"
  line : m4 ≠ []
  digits : ∀ a ∈ m4, isD a = true

/-- A line of a caller. -/
def Caller (l : Bytes) : Prop := ∃ w m1 m2 v x m3 m4 rest, Split l w m1 m2 v x m3 m4 rest

/-- The parts of a line of a caller, where it can be split in more than one way: as many blanks as can be are not part
of the test, then the test is the shortest, then the message, then the path is the longest, then the file. -/
def Parts (l m1 m2 m3 m4 : Bytes) : Prop := ∃ w v x rest, Split l w m1 m2 v x m3 m4 rest ∧
  ∀ w' n1 n2 v' x' n3 n4 rest', Split l w' n1 n2 v' x' n3 n4 rest' →
    w'.length < w.length ∨ w'.length = w.length ∧ (m1.length < n1.length ∨ n1.length = m1.length ∧
      (m2.length < n2.length ∨ n2.length = m2.length ∧ (x'.length < x.length ∨ x'.length = x.length ∧ n3.length ≤ m3.length)))

/-- Not such a line. -/
def NoCaller (l : Bytes) : Prop := ¬ Caller l

/-- How a line is to be shown: a paragraph with its characters, and if it is the line of a caller
with the test, a line break and the message as a link to the source. -/
inductive LineShown (l : Bytes) : List Piece → Prop
  | plain : NoCaller l → LineShown l (.tag b!"p" :: l.map .char ++ [.tag b!"/p"])
  | link {m1 m2 m3 m4 : Bytes} : Parts l m1 m2 m3 m4 → (0x22 : UInt8) ∉ m3 →
      LineShown l (.tag b!"p" :: m1.map .char ++ .tag b!"br/" ::
        .tag (b!"a href=\"https://cs.opensource.google/go/go/+/master:src/" ++ m3 ++ b!";l=" ++ m4 ++ b!"\"") ::
        m2.map .char ++ [.tag b!"/a", .tag b!"/p"])

/-- Lists of pieces with newlines between. -/
def glue : List (List Piece) → List Piece
  | [] => []
  | [p] => p
  | p :: ps => p ++ .char 0x0A :: glue ps

/-- The text is shown as these pieces, line by line. -/
def Displayed (text : Bytes) (ps : List Piece) : Prop :=
  ∃ ls pss, Joined ls text ∧ (∀ l ∈ ls, OneLine l) ∧ ls ≠ [] ∧ List.Forall₂ LineShown ls pss ∧ ps = glue pss

/-- Text in which nothing starts a tag or a reference. -/
def Safe (l : Bytes) : Prop :=
  ∀ u a v, l = u ++ a :: v → ¬ (a = 0x3C ∧ opens v = true) ∧ ¬ (a = 0x26 ∧ refers v = true)

/-- Text without any of the characters that html/template would have to escape. -/
def NoSpecial (l : Bytes) : Prop := ∀ a ∈ l, a ≠ 0x3C ∧ a ≠ 0x3E ∧ a ≠ 0x26 ∧ a ≠ 0x22

/-- A line that can be shown: text in which nothing starts a tag or a reference; and if it is the line of a caller,
that holds of the test and the message, and the file has no quotation mark or greater-than sign. -/
def Good (l : Bytes) : Prop :=
  (NoCaller l ∧ Safe l) ∨ ∃ m1 m2 m3 m4, Parts l m1 m2 m3 m4 ∧ Safe m1 ∧ Safe m2 ∧ (0x3E : UInt8) ∉ m3 ∧ (0x22 : UInt8) ∉ m3

/-- C92, in full: the extra text of every instance of a warning is shown as text. -/
def C92_statement : Prop := ∀ i : DInst, Displayed i.extra (read (extraHTML i))

/-! ### The pattern -/

theorem dots {l : Bytes} (h : OneLine l) : ∀ a ∈ l, isDot a = true := fun a ha => by simp [isDot, h a ha]

theorem four (A B C D : Bytes) :
    Caps.text (Map.set (Map.set (Map.set (Map.set ([] : Caps) 1 A) 2 B) 3 C) 4 D) 1 = A ∧
    Caps.text (Map.set (Map.set (Map.set (Map.set ([] : Caps) 1 A) 2 B) 3 C) 4 D) 2 = B ∧
    Caps.text (Map.set (Map.set (Map.set (Map.set ([] : Caps) 1 A) 2 B) 3 C) 4 D) 3 = C ∧
    Caps.text (Map.set (Map.set (Map.set (Map.set ([] : Caps) 1 A) 2 B) 3 C) 4 D) 4 = D := ⟨rfl, rfl, rfl, rfl⟩

/-- The pattern behind the file. -/
def endRe : Re := seq [.lit b!":", .cap 4 (.cat (.one isD) (.star isD)), .lit b!")"]
/-- The pattern from the file on. -/
def fileRe : Re := .cat (.cap 3 (seq [.lit b!"testing/", .star isDot, .lit b!".go"])) endRe
/-- The pattern from the path on. -/
def pathRe : Re := .cat (.star isDot) (.cat (.lit b!"/") fileRe)
/-- The pattern behind the message. -/
def tailRe : Re := .cat (.star isS) (.cat (.lit b!"(") pathRe)
/-- The pattern from the message on. -/
def messageRe : Re := .cat (.cap 2 (.cat (.one isDot) (.lazy isDot))) tailRe
/-- The pattern from the test on. -/
def testRe : Re := .cat (.cap 1 (.cat (.one isDot) (.lazy isDot))) (.cat (.lit b!":") messageRe)

theorem lang_lit {p t : Bytes} : Lang (.lit p) (p ++ t) t := .lit

theorem lang_some {p : UInt8 → Bool} : ∀ {u : Bytes} (t : Bytes), u ≠ [] → (∀ a ∈ u, p a = true) → Lang (.cat (.one p) (.lazy p)) (u ++ t) t
  | [], _, h, _ => absurd rfl h
  | a :: u, t, _, h => .cat (.one (h a (by simp))) (taken_lazy u t fun x hx => h x (by simp [hx]))

theorem lang_many {p : UInt8 → Bool} : ∀ {u : Bytes} (t : Bytes), u ≠ [] → (∀ a ∈ u, p a = true) → Lang (.cat (.one p) (.star p)) (u ++ t) t
  | [], _, h, _ => absurd rfl h
  | a :: u, t, _, h => .cat (.one (h a (by simp))) (taken_star u t fun x hx => h x (by simp [hx]))

theorem lang_end {m4 : Bytes} (h : m4 ≠ []) (hd : ∀ a ∈ m4, isD a = true) (rest : Bytes) : Lang endRe (b!":" ++ (m4 ++ (b!")" ++ rest))) rest :=
  .cat lang_lit (.cat (.cap (lang_many _ h hd)) lang_lit)

theorem lang_file {y m4 : Bytes} (hy : OneLine y) (h : m4 ≠ []) (hd : ∀ a ∈ m4, isD a = true) (rest : Bytes) :
    Lang fileRe (b!"testing/" ++ (y ++ (b!".go" ++ (b!":" ++ (m4 ++ (b!")" ++ rest)))))) rest :=
  .cat (.cap (.cat lang_lit (.cat (taken_star y _ (dots hy)) lang_lit))) (lang_end h hd rest)

theorem lang_path {x y m4 : Bytes} (hx : OneLine x) (hy : OneLine y) (h : m4 ≠ []) (hd : ∀ a ∈ m4, isD a = true) (rest : Bytes) :
    Lang pathRe (x ++ (b!"/" ++ (b!"testing/" ++ (y ++ (b!".go" ++ (b!":" ++ (m4 ++ (b!")" ++ rest)))))))) rest :=
  .cat (taken_star x _ (dots hx)) (.cat lang_lit (lang_file hy h hd rest))

theorem lang_tail {v x y m4 : Bytes} (hv : ∀ a ∈ v, isS a = true) (hx : OneLine x) (hy : OneLine y) (h : m4 ≠ []) (hd : ∀ a ∈ m4, isD a = true) (rest : Bytes) :
    Lang tailRe (v ++ (b!"(" ++ (x ++ (b!"/" ++ (b!"testing/" ++ (y ++ (b!".go" ++ (b!":" ++ (m4 ++ (b!")" ++ rest)))))))))) rest :=
  .cat (taken_star v _ hv) (.cat lang_lit (lang_path hx hy h hd rest))

theorem lang_message {m2 v x y m4 : Bytes} (h2 : m2 ≠ []) (h2' : OneLine m2) (hv : ∀ a ∈ v, isS a = true) (hx : OneLine x) (hy : OneLine y) (h : m4 ≠ [])
    (hd : ∀ a ∈ m4, isD a = true) (rest : Bytes) :
    Lang messageRe (m2 ++ (v ++ (b!"(" ++ (x ++ (b!"/" ++ (b!"testing/" ++ (y ++ (b!".go" ++ (b!":" ++ (m4 ++ (b!")" ++ rest))))))))))) rest :=
  .cat (.cap (lang_some _ h2 (dots h2'))) (lang_tail hv hx hy h hd rest)

theorem lang_test {m1 m2 v x y m4 : Bytes} (h1 : m1 ≠ []) (h1' : OneLine m1) (h2 : m2 ≠ []) (h2' : OneLine m2) (hv : ∀ a ∈ v, isS a = true) (hx : OneLine x)
    (hy : OneLine y) (h : m4 ≠ []) (hd : ∀ a ∈ m4, isD a = true) (rest : Bytes) :
    Lang testRe (m1 ++ (b!":" ++ (m2 ++ (v ++ (b!"(" ++ (x ++ (b!"/" ++ (b!"testing/" ++ (y ++ (b!".go" ++ (b!":" ++ (m4 ++ (b!")" ++ rest))))))))))))) rest :=
  .cat (.cap (lang_some _ h1 (dots h1'))) (.cat lang_lit (lang_message h2 h2' hv hx hy h hd rest))

/-- The lines in the parts, and the whole in the form in which the pattern takes it. -/
theorem Split.form {l w m1 m2 v x m3 m4 rest : Bytes} (h : Split l w m1 m2 v x m3 m4 rest) (hl : OneLine l) :
    ∃ y, m3 = b!"testing/" ++ y ++ b!".go" ∧ OneLine m1 ∧ OneLine m2 ∧ OneLine x ∧ OneLine y ∧
      l = w ++ (m1 ++ (b!":" ++ (m2 ++ (v ++ (b!"(" ++ (x ++ (b!"/" ++ (b!"testing/" ++ (y ++ (b!".go" ++ (b!":" ++ (m4 ++ (b!")" ++ rest))))))))))))) := by
  obtain ⟨y, hy⟩ := h.file
  have e := h.whole
  refine ⟨y, hy, fun a ha => hl a (by rw [e]; simp [ha]), fun a ha => hl a (by rw [e]; simp [ha]), fun a ha => hl a (by rw [e]; simp [ha]),
    fun a ha => hl a (by rw [e, hy]; simp [ha]), by rw [e, hy]; simp⟩

theorem blanks_forced {v v' : Bytes} {s t : Bytes} (hv : ∀ a ∈ v, isS a = true) (hv' : ∀ a ∈ v', isS a = true) (e : v ++ (b!"(" ++ s) = v' ++ (b!"(" ++ t)) : v = v' ∧ s = t := by
  induction v generalizing v' with
  | nil =>
    cases v' with
    | nil => exact ⟨rfl, by simpa using e⟩
    | cons a v' =>
      simp only [List.nil_append, List.cons_append, List.cons.injEq] at e
      have := hv' a (by simp)
      rw [← e.1] at this; exact absurd this (by decide)
  | cons b v ih =>
    cases v' with
    | nil =>
      simp only [List.nil_append, List.cons_append, List.cons.injEq] at e
      have := hv b (by simp)
      rw [e.1] at this; exact absurd this (by decide)
    | cons a v' =>
      simp only [List.cons_append, List.cons.injEq] at e
      obtain ⟨h1, h2⟩ := ih (fun x hx => hv x (by simp [hx])) (fun x hx => hv' x (by simp [hx])) e.2
      exact ⟨by rw [e.1, h1], h2⟩

theorem find_caller {l : Bytes} {c : Caps} (hl : OneLine l) (h : ptnCaller.find l = some c) : Parts l (c.text 1) (c.text 2) (c.text 3) (c.text 4) := by
  have h : (Re.cat (.star isS) testRe).run done l [] = some c := h
  obtain ⟨w, s1, e1, hw, h, b1⟩ := first_star h
  obtain ⟨m1, s2, e2, hm1, _, h, b2⟩ := first_lazy h
  obtain ⟨s3, e3, h⟩ := first_lit h
  obtain ⟨m2, s4, e4, hm2, _, h, b4⟩ := first_lazy h
  obtain ⟨v, s5, e5, hv, h, _⟩ := first_star h
  obtain ⟨s6, e6, h⟩ := first_lit h
  obtain ⟨x, s7, e7, _, h, b7⟩ := first_star h
  obtain ⟨s8, e8, h⟩ := first_lit h
  obtain ⟨y, s9, e9, _, h, b9⟩ := first_between h
  obtain ⟨t, n, ht, hn⟩ := run_takes _ _ _ _ _ h
  simp only [endRe, seq, Takes] at ht
  obtain ⟨s10, n10, ⟨e10, rfl⟩, s11, n11, ⟨n11', ⟨s11', n11'', ⟨d, e11, hd, rfl⟩, u, e11', hu, rfl⟩, rfl⟩, e12, rfl⟩ := ht
  cases hn
  have t4 : s10 = (d :: u) ++ s11 := by rw [e11, e11']; rfl
  rw [show s10.take (s10.length - s11.length) = d :: u by rw [t4]; exact taken_part _ _]
  obtain ⟨c1, c2, c3, c4⟩ := four m1 m2 (b!"testing/" ++ y ++ b!".go") (d :: u)
  rw [c1, c2, c3, c4]
  have hsplit : Split l w m1 m2 v x (b!"testing/" ++ y ++ b!".go") (d :: u) t := {
    whole := by rw [e1, e2, e3, e4, e5, e6, e7, e8, e9, e10, t4, e12]; simp
    blank1 := hw
    blank2 := hv
    test := hm1
    message := hm2
    file := ⟨y, rfl⟩
    line := by simp
    digits := by simpa using ⟨hd, hu⟩ }
  refine ⟨w, v, x, t, hsplit, ?_⟩
  intro w' n1 n2 v' x' n3 n4 rest' hs'
  obtain ⟨y', rfl, o1, o2, o3, o4, f0⟩ := hs'.form hl
  by_cases g1 : w'.length < w.length
  · exact .inl g1
  by_cases g1' : w.length < w'.length
  · exact absurd (lang_test hs'.test o1 hs'.message o2 hs'.blank2 o3 o4 hs'.line hs'.digits rest') (b1 w' _ f0 hs'.blank1 g1' _)
  have g : w'.length = w.length := by omega
  obtain ⟨rfl, f1⟩ := List.append_inj (e1.symm.trans f0) g.symm
  refine .inr ⟨rfl, ?_⟩
  by_cases g2 : m1.length < n1.length
  · exact .inl g2
  by_cases g2' : n1.length < m1.length
  · exact absurd (Lang.cat lang_lit (lang_message hs'.message o2 hs'.blank2 o3 o4 hs'.line hs'.digits rest')) (b2 n1 _ f1 hs'.test g2' _)
  have g : n1.length = m1.length := by omega
  obtain ⟨rfl, f2⟩ := List.append_inj (e2.symm.trans f1) g.symm
  refine .inr ⟨rfl, ?_⟩
  have f3 := List.append_cancel_left (e3.symm.trans f2)
  by_cases g3 : m2.length < n2.length
  · exact .inl g3
  by_cases g3' : n2.length < m2.length
  · exact absurd (lang_tail hs'.blank2 o3 o4 hs'.line hs'.digits rest') (b4 n2 _ f3 hs'.message g3' _)
  have g : n2.length = m2.length := by omega
  obtain ⟨rfl, f4⟩ := List.append_inj (e4.symm.trans f3) g.symm
  refine .inr ⟨rfl, ?_⟩
  rw [e5, e6] at f4
  obtain ⟨rfl, f5⟩ := blanks_forced hv hs'.blank2 f4
  by_cases g4 : x'.length < x.length
  · exact .inl g4
  by_cases g4' : x.length < x'.length
  · exact absurd (Lang.cat lang_lit (lang_file o4 hs'.line hs'.digits rest')) (b7 x' _ f5 (dots o3) g4' _)
  have g : x'.length = x.length := by omega
  obtain ⟨rfl, f6⟩ := List.append_inj (e7.symm.trans f5) g.symm
  refine .inr ⟨rfl, ?_⟩
  have f7 := List.append_cancel_left (e8.symm.trans f6)
  by_cases g5 : y.length < y'.length
  · exact absurd (lang_end hs'.line hs'.digits rest') (b9 y' _ (by rw [f7]; simp) (dots o4) g5 _)
  · simp; omega

theorem caller_find {l : Bytes} (h : OneLine l) (hc : Caller l) : ∃ c, ptnCaller.find l = some c := by
  obtain ⟨w, m1, m2, v, x, m3, m4, rest, hs⟩ := hc
  obtain ⟨y, rfl, o1, o2, o3, o4, e⟩ := hs.form h
  cases e' : ptnCaller.find l with
  | some c => exact ⟨c, rfl⟩
  | none =>
    have hn := (Re.find_none ptnCaller l).1 e' rest
    rw [e] at hn
    exact absurd (.cat (taken_star w _ hs.blank1) (lang_test hs.test o1 hs.message o2 hs.blank2 o3 o4 hs.line hs.digits rest)) hn

/-- The parts are those of a caller. -/
theorem Parts.caller {l m1 m2 m3 m4 : Bytes} (h : Parts l m1 m2 m3 m4) : Caller l := by
  obtain ⟨w, v, x, rest, h, _⟩ := h
  exact ⟨w, m1, m2, v, x, m3, m4, rest, h⟩

theorem digits_forced {u u' s t : Bytes} (hu : ∀ a ∈ u, isD a = true) (hu' : ∀ a ∈ u', isD a = true) (e : u ++ (b!")" ++ s) = u' ++ (b!")" ++ t)) : u = u' := by
  induction u generalizing u' with
  | nil =>
    cases u' with
    | nil => rfl
    | cons a u' =>
      simp only [List.nil_append, List.cons_append, List.cons.injEq] at e
      have := hu' a (by simp)
      rw [← e.1] at this; exact absurd this (by decide)
  | cons b u ih =>
    cases u' with
    | nil =>
      simp only [List.nil_append, List.cons_append, List.cons.injEq] at e
      have := hu b (by simp)
      rw [e.1] at this; exact absurd this (by decide)
    | cons a u' =>
      simp only [List.cons_append, List.cons.injEq] at e
      rw [e.1, ih (fun x hx => hu x (by simp [hx])) (fun x hx => hu' x (by simp [hx])) e.2]

/-- A line has its parts in one way only. -/
theorem parts_unique {l m1 m2 m3 m4 n1 n2 n3 n4 : Bytes} (h : Parts l m1 m2 m3 m4) (h' : Parts l n1 n2 n3 n4) :
    m1 = n1 ∧ m2 = n2 ∧ m3 = n3 ∧ m4 = n4 := by
  obtain ⟨w, v, x, rest, hs, hb⟩ := h
  obtain ⟨w', v', x', rest', hs', hb'⟩ := h'
  have b1 := hb _ _ _ _ _ _ _ _ hs'
  have b2 := hb' _ _ _ _ _ _ _ _ hs
  have f0 := hs.whole.symm.trans hs'.whole
  simp only [List.append_assoc] at f0
  obtain ⟨rfl, f1⟩ := List.append_inj f0 (by omega)
  obtain ⟨rfl, f2⟩ := List.append_inj f1 (by omega)
  have f3 := List.append_cancel_left f2
  obtain ⟨rfl, f4⟩ := List.append_inj f3 (by omega)
  obtain ⟨rfl, f5⟩ := blanks_forced hs.blank2 hs'.blank2 f4
  obtain ⟨rfl, f6⟩ := List.append_inj f5 (by omega)
  have f7 := List.append_cancel_left f6
  obtain ⟨rfl, f8⟩ := List.append_inj f7 (by omega)
  exact ⟨rfl, rfl, rfl, digits_forced hs.digits hs'.digits (List.append_cancel_left f8)⟩

/-- The pattern finds exactly the lines of callers. -/
theorem noCaller_iff {l : Bytes} (h : OneLine l) : NoCaller l ↔ ptnCaller.find l = none := by
  constructor
  · intro hn
    cases e : ptnCaller.find l with
    | none => rfl
    | some c => exact absurd (find_caller h e).caller hn
  · intro e hc
    obtain ⟨c, e'⟩ := caller_find h hc
    rw [e] at e'; cases e'

/-! ### Reading -/

theorem opens_lt (l r : Bytes) : opens (l ++ 0x3C :: r) = opens l := by
  cases l with
  | nil => rfl
  | cons a l => rfl

theorem refers_lt (l r : Bytes) : refers (l ++ 0x3C :: r) = refers l := by
  cases l with
  | nil => rfl
  | cons a l => rfl

theorem safe_tail {a : UInt8} {l : Bytes} (h : Safe (a :: l)) : Safe l := fun u b v e => h (a :: u) b v (by rw [e]; rfl)

theorem read_safe {l : Bytes} (h : Safe l) (r : Bytes) : readFrom none (l ++ 0x3C :: r) = l.map .char ++ readFrom none (0x3C :: r) := by
  induction l with
  | nil => rfl
  | cons a l ih =>
    obtain ⟨h1, h2⟩ := h [] a l rfl
    rw [List.cons_append, readFrom, opens_lt, refers_lt, if_neg h1, if_neg h2, ih (safe_tail h)]
    rfl

theorem read_tag {c s : Bytes} (h : (0x3E : UInt8) ∉ s) (r : Bytes) : readFrom (some c) (s ++ 0x3E :: r) = .tag (c ++ s) :: readFrom none r := by
  induction s generalizing c with
  | nil => rw [List.nil_append, readFrom, if_pos rfl, List.append_nil]
  | cons a s ih =>
    simp only [List.mem_cons, not_or] at h
    rw [List.cons_append, readFrom, if_neg (fun e => h.1 e.symm), ih h.2]
    simp

theorem read_in (c s : Bytes) : ∃ c' ps, readFrom (some c) s = .tag c' :: ps := by
  induction s generalizing c with
  | nil => exact ⟨c, [], by rw [readFrom]⟩
  | cons a s ih =>
    rw [readFrom]
    by_cases h : a = 0x3E
    · rw [if_pos h]; exact ⟨_, _, rfl⟩
    · rw [if_neg h]; exact ih _

theorem read_unsafe {l : Bytes} {r : Bytes} {ps : List Piece} (h : readFrom none (l ++ 0x3C :: r) = l.map .char ++ ps) : Safe l := by
  induction l with
  | nil => intro u a v e; simp at e
  | cons a l ih =>
    rw [List.cons_append, readFrom, opens_lt, refers_lt] at h
    by_cases h1 : a = 0x3C ∧ opens l = true
    · rw [if_pos h1] at h
      obtain ⟨c', ps', e⟩ := read_in [] (l ++ 0x3C :: r)
      rw [e] at h
      simp at h
    · rw [if_neg h1] at h
      by_cases h2 : a = 0x26 ∧ refers l = true
      · rw [if_pos h2] at h; simp at h
      · rw [if_neg h2] at h
        have h' := ih (by simpa using h)
        intro u b v e
        cases u with
        | nil => cases e; exact ⟨h1, h2⟩
        | cons x u => cases e; exact h' u b v rfl

theorem read_p (s : Bytes) : readFrom none (b!"<p>" ++ s) = .tag b!"p" :: readFrom none s := by
  have := read_tag (c := []) (s := b!"p") (by decide) s
  exact this

theorem read_plain {l : Bytes} (h : Safe l) (r : Bytes) :
    readFrom none (b!"<p>" ++ l ++ b!"</p>" ++ r) = .tag b!"p" :: l.map .char ++ .tag b!"/p" :: readFrom none r := by
  rw [List.append_assoc, List.append_assoc, read_p]
  have h1 := read_safe h (b!"/p>" ++ r)
  have h2 := read_tag (c := []) (s := b!"/p") (by decide) r
  have h3 : readFrom none (b!"</p>" ++ r) = readFrom (some []) (b!"/p>" ++ r) := rfl
  have h4 : readFrom none (l ++ (b!"</p>" ++ r)) = l.map .char ++ readFrom none (b!"</p>" ++ r) := h1
  have h5 : readFrom (some []) (b!"/p>" ++ r) = .tag b!"/p" :: readFrom none r := h2
  rw [h4, h3, h5]
  rfl

theorem NoSpecial.safe {l : Bytes} (h : NoSpecial l) : Safe l := by
  intro u a v e
  have := h a (by rw [e]; simp)
  exact ⟨fun x => this.1 x.1, fun x => this.2.2.1 x.1⟩

theorem read_link {m1 m2 m3 m4 : Bytes} (h1 : Safe m1) (h2 : Safe m2) (h3 : (0x3E : UInt8) ∉ m3) (h4 : (0x3E : UInt8) ∉ m4) (r : Bytes) :
    readFrom none (b!"<p>" ++ (m1 ++ b!"<br/><a href=\"" ++ srcRoot ++ b!"/" ++ m3 ++ b!";l=" ++ m4 ++ b!"\">" ++ m2 ++ b!"</a>") ++ b!"</p>" ++ r) =
      .tag b!"p" :: m1.map .char ++ .tag b!"br/" ::
        .tag (b!"a href=\"https://cs.opensource.google/go/go/+/master:src/" ++ m3 ++ b!";l=" ++ m4 ++ b!"\"") ::
        m2.map .char ++ .tag b!"/a" :: .tag b!"/p" :: readFrom none r := by
  have e : b!"<p>" ++ (m1 ++ b!"<br/><a href=\"" ++ srcRoot ++ b!"/" ++ m3 ++ b!";l=" ++ m4 ++ b!"\">" ++ m2 ++ b!"</a>") ++ b!"</p>" ++ r =
      b!"<p>" ++ (m1 ++ (0x3C :: (b!"br/" ++ 0x3E :: (0x3C :: ((b!"a href=\"https://cs.opensource.google/go/go/+/master:src/" ++ m3 ++ b!";l=" ++ m4 ++ b!"\"") ++ 0x3E ::
        (m2 ++ (0x3C :: (b!"/a" ++ 0x3E :: (0x3C :: (b!"/p" ++ 0x3E :: r)))))))))) := by
    simp [srcRoot]
  rw [e, read_p, read_safe h1]
  generalize hA : b!"a href=\"https://cs.opensource.google/go/go/+/master:src/" ++ m3 ++ b!";l=" ++ m4 ++ b!"\"" = A
  have hA3 : (0x3E : UInt8) ∉ A := by
    rw [← hA]
    simp only [List.mem_append, not_or]
    refine ⟨⟨⟨⟨by decide, h3⟩, by decide⟩, h4⟩, by decide⟩
  have hA0 : ∀ z : Bytes, opens (A ++ z) = true := by intro z; rw [← hA]; rfl
  have o1 : ∀ z : Bytes, readFrom none (0x3C :: (b!"br/" ++ z)) = readFrom (some []) (b!"br/" ++ z) := fun _ => rfl
  have o2 : ∀ z : Bytes, readFrom none (0x3C :: (A ++ z)) = readFrom (some []) (A ++ z) := fun z => by
    rw [readFrom, if_pos ⟨rfl, hA0 z⟩]
  have o3 : ∀ z : Bytes, readFrom none (0x3C :: (b!"/a" ++ z)) = readFrom (some []) (b!"/a" ++ z) := fun _ => rfl
  have o4 : ∀ z : Bytes, readFrom none (0x3C :: (b!"/p" ++ z)) = readFrom (some []) (b!"/p" ++ z) := fun _ => rfl
  rw [o1, read_tag (by decide), o2, read_tag hA3, read_safe h2, o3, read_tag (by decide), o4, read_tag (by decide)]
  simp

/-! ### Lines -/

theorem digits_gt {m : Bytes} (h : ∀ a ∈ m, isD a = true) : (0x3E : UInt8) ∉ m := fun hm => by
  have := h _ hm; revert this; decide

theorem read_line {l : Bytes} (h1 : OneLine l) (h : Good l) : ∃ ps, LineShown l ps ∧ ∀ r, readFrom none (lineHTML l ++ r) = ps ++ readFrom none r := by
  rcases h with ⟨hn, hs⟩ | ⟨m1, m2, m3, m4, hp, g1, g2, g3, g4⟩
  · refine ⟨_, .plain hn, fun r => ?_⟩
    rw [lineHTML, (noCaller_iff h1).1 hn]
    dsimp only
    rw [read_plain hs]
    simp
  · obtain ⟨c, e⟩ := caller_find h1 hp.caller
    obtain ⟨rfl, rfl, rfl, rfl⟩ := parts_unique hp (find_caller h1 e)
    have hd : ∀ a ∈ c.text 4, isD a = true := by obtain ⟨_, _, _, _, h, _⟩ := id hp; exact h.digits
    refine ⟨_, .link hp g4, fun r => ?_⟩
    rw [lineHTML, e]
    dsimp only
    rw [linkHTML, read_link g1 g2 g3 (digits_gt hd)]
    simp

theorem read_content (c s : Bytes) {c' : Bytes} {ps : List Piece} (h : readFrom (some c) s = .tag c' :: ps) : ∃ d, c' = c ++ d ∧ (0x3E : UInt8) ∉ d := by
  induction s generalizing c with
  | nil =>
    rw [readFrom] at h
    simp only [List.cons.injEq, Piece.tag.injEq] at h
    exact ⟨[], by simp [h.1], by simp⟩
  | cons a s ih =>
    rw [readFrom] at h
    by_cases ha : a = 0x3E
    · rw [if_pos ha] at h
      simp only [List.cons.injEq, Piece.tag.injEq] at h
      exact ⟨[], by simp [h.1], by simp⟩
    · rw [if_neg ha] at h
      obtain ⟨d, e, hd⟩ := ih _ h
      exact ⟨a :: d, by rw [e]; simp, by simp only [List.mem_cons, not_or]; exact ⟨fun x => ha x.symm, hd⟩⟩

theorem read_back {l : Bytes} (h1 : OneLine l) {ps qs : List Piece} (hl : LineShown l ps) {r : Bytes} (h : readFrom none (lineHTML l ++ r) = ps ++ qs) :
    Good l ∧ readFrom none r = qs := by
  cases hl with
  | plain hn =>
    have e := (noCaller_iff h1).1 hn
    rw [lineHTML, e] at h
    dsimp only at h
    have hs : Safe l := by
      rw [List.append_assoc, List.append_assoc, read_p] at h
      simp only [List.cons_append, List.append_assoc] at h
      exact read_unsafe (r := b!"/p>" ++ r) (List.cons.inj h).2
    rw [read_plain hs] at h
    exact ⟨.inl ⟨hn, hs⟩, by simpa using h⟩
  | @link m1 m2 m3 m4 hp hq =>
    obtain ⟨c, e⟩ := caller_find h1 hp.caller
    obtain ⟨rfl, rfl, rfl, rfl⟩ := parts_unique hp (find_caller h1 e)
    have hd : ∀ a ∈ c.text 4, isD a = true := by obtain ⟨_, _, _, _, h, _⟩ := id hp; exact h.digits
    rw [lineHTML, e] at h
    dsimp only at h
    rw [linkHTML] at h
    generalize c.text 1 = m1 at *
    generalize c.text 2 = m2 at *
    generalize c.text 3 = m3 at *
    generalize c.text 4 = m4 at *
    have e' : b!"<p>" ++ (m1 ++ b!"<br/><a href=\"" ++ srcRoot ++ b!"/" ++ m3 ++ b!";l=" ++ m4 ++ b!"\">" ++ m2 ++ b!"</a>") ++ b!"</p>" ++ r =
        b!"<p>" ++ (m1 ++ (0x3C :: (b!"br/" ++ 0x3E :: (0x3C :: ((b!"a href=\"https://cs.opensource.google/go/go/+/master:src/" ++ m3 ++ b!";l=" ++ m4 ++ b!"\"") ++ 0x3E ::
          (m2 ++ (0x3C :: (b!"/a" ++ 0x3E :: (0x3C :: (b!"/p" ++ 0x3E :: r)))))))))) := by
      simp [srcRoot]
    have h' := h
    rw [e', read_p] at h'
    simp only [List.cons_append, List.append_assoc] at h'
    have h' := (List.cons.inj h').2
    have s1 : Safe m1 := read_unsafe h'
    rw [read_safe s1] at h'
    have h' := List.append_cancel_left h'
    have o1 : ∀ z : Bytes, readFrom none (0x3C :: (b!"br/" ++ 0x3E :: z)) = .tag b!"br/" :: readFrom none z := fun z => read_tag (c := []) (s := b!"br/") (by decide) z
    have h' := (List.cons.inj ((o1 _).symm.trans h')).2
    have o2 : ∀ z : Bytes, readFrom none (0x3C :: (b!"a href=\"https://cs.opensource.google/go/go/+/master:src/" ++ z)) =
        readFrom (some []) (b!"a href=\"https://cs.opensource.google/go/go/+/master:src/" ++ z) := fun _ => rfl
    obtain ⟨d, ed, hd'⟩ := read_content _ _ ((o2 _).symm.trans h')
    have s3 : (0x3E : UInt8) ∉ m3 := fun hm => hd' (by
      rw [← (ed.trans (List.nil_append d))]
      simp [hm])
    have hA3 : (0x3E : UInt8) ∉ b!"a href=\"https://cs.opensource.google/go/go/+/master:src/" ++ m3 ++ b!";l=" ++ m4 ++ b!"\"" := by
      simp only [List.mem_append, not_or]
      exact ⟨⟨⟨⟨by decide, s3⟩, by decide⟩, digits_gt hd⟩, by decide⟩
    have o3 : ∀ z : Bytes, readFrom none (0x3C :: ((b!"a href=\"https://cs.opensource.google/go/go/+/master:src/" ++ m3 ++ b!";l=" ++ m4 ++ b!"\"") ++ 0x3E :: z)) =
        .tag (b!"a href=\"https://cs.opensource.google/go/go/+/master:src/" ++ m3 ++ b!";l=" ++ m4 ++ b!"\"") :: readFrom none z := fun z =>
      (show _ = readFrom (some []) _ from rfl).trans (read_tag (c := []) hA3 z)
    have s2 : Safe m2 := by
      have o3' := o3 (m2 ++ (0x3C :: (b!"/a" ++ 0x3E :: (0x3C :: (b!"/p" ++ 0x3E :: r)))))
      simp only [List.cons_append, List.append_assoc] at o3' h'
      exact read_unsafe (List.cons.inj (o3'.symm.trans h')).2
    rw [read_link s1 s2 s3 (digits_gt hd)] at h
    exact ⟨.inr ⟨m1, m2, m3, m4, hp, s1, s2, s3, hq⟩, by simpa using h⟩

theorem read_newline (r : Bytes) : readFrom none (0x0A :: r) = .char 0x0A :: readFrom none r := by
  rw [readFrom, if_neg (by simp), if_neg (by simp)]

theorem read_lines : ∀ {ls : List Bytes}, (∀ l ∈ ls, OneLine l) → (∀ l ∈ ls, Good l) → ls ≠ [] →
    ∃ pss, List.Forall₂ LineShown ls pss ∧ readFrom none (joinNL (ls.map lineHTML)) = glue pss ∧ pss ≠ []
  | [], _, _, h => absurd rfl h
  | [l], h1, h2, _ => by
    obtain ⟨ps, hp, hr⟩ := read_line (h1 l (by simp)) (h2 l (by simp))
    refine ⟨[ps], .cons hp .nil, ?_, by simp⟩
    have := hr []
    rw [List.append_nil] at this
    simpa [joinNL, glue, readFrom] using this
  | l :: l' :: ls, h1, h2, _ => by
    obtain ⟨ps, hp, hr⟩ := read_line (h1 l (by simp)) (h2 l (by simp))
    obtain ⟨pss, hps, hrs, hne⟩ := read_lines (ls := l' :: ls) (fun x hx => h1 x (by simp [List.mem_cons.1 hx])) (fun x hx => h2 x (by simp [List.mem_cons.1 hx])) (by simp)
    obtain ⟨q, qs, rfl⟩ := List.exists_cons_of_ne_nil hne
    refine ⟨ps :: q :: qs, .cons hp hps, ?_, by simp⟩
    simp only [List.map_cons, joinNL, glue] at hrs ⊢
    rw [hr, read_newline, hrs]

theorem lines_back : ∀ {ls : List Bytes} {pss : List (List Piece)}, (∀ l ∈ ls, OneLine l) →
    List.Forall₂ LineShown ls pss → readFrom none (joinNL (ls.map lineHTML)) = glue pss → ∀ l ∈ ls, Good l
  | [], _, _, _, _ => by simp
  | [l], _, h1, .cons hp .nil, hr => by
    intro x hx
    cases List.mem_singleton.1 hx
    refine (read_back (h1 _ (by simp)) hp (r := []) (qs := []) ?_).1
    rw [List.append_nil, List.append_nil]
    exact hr
  | l :: l' :: ls, _, h1, .cons (l₂ := pss) hp hps, hr => by
    cases pss with
    | nil => cases hps
    | cons q qs =>
      simp only [List.map_cons, joinNL, glue] at hr
      obtain ⟨hg, hr'⟩ := read_back (h1 l (by simp)) hp hr
      rw [read_newline] at hr'
      intro x hx
      rcases List.mem_cons.1 hx with rfl | hx
      · exact hg
      · exact lines_back (fun y hy => h1 y (by simp [List.mem_cons.1 hy])) hps (List.cons.inj hr').2 x hx

theorem joined_unique {ls ls' : List Bytes} {s : Bytes} (h : ∀ l ∈ ls, OneLine l) (h' : ∀ l ∈ ls', OneLine l) (e : Joined ls s) (e' : Joined ls' s)
    (hn : ls ≠ []) (hn' : ls' ≠ []) : ls = ls' := by
  rw [← joined_splitNL ls s h e hn, ← joined_splitNL ls' s h' e' hn']

/-- C92, exactly: the text is shown as text if and only if that can be done with every line. -/
theorem C92_exact_partial (i : DInst) (ls : List Bytes) (hj : Joined ls i.extra) (h1 : ∀ l ∈ ls, OneLine l) (hne : ls ≠ []) :
    Displayed i.extra (read (extraHTML i)) ↔ ∀ l ∈ ls, Good l := by
  constructor
  · rintro ⟨ls', pss, hj', h1', hne', hp, hr⟩
    cases joined_unique h1 h1' hj hj' hne hne'
    refine lines_back h1 hp ?_
    rw [← hr, read, extraHTML, joined_splitNL ls _ h1 hj hne]
  · intro hg
    obtain ⟨pss, hp, hr, _⟩ := read_lines h1 hg hne
    refine ⟨ls, pss, hj, h1, hne, hp, ?_⟩
    rw [← hr, read, extraHTML, joined_splitNL ls _ h1 hj hne]

/-- A line without any special characters can be shown. -/
theorem NoSpecial.good {l : Bytes} (h1 : OneLine l) (hn : NoSpecial l) : Good l := by
  cases e : ptnCaller.find l with
  | none => exact .inl ⟨(noCaller_iff h1).2 e, hn.safe⟩
  | some c =>
    have hp := find_caller h1 e
    obtain ⟨w, v, x, rest, h, _⟩ := id hp
    have g1 : NoSpecial (c.text 1) := fun a ha => hn a (by rw [h.whole]; simp [ha])
    have g2 : NoSpecial (c.text 2) := fun a ha => hn a (by rw [h.whole]; simp [ha])
    have g3 : NoSpecial (c.text 3) := fun a ha => hn a (by rw [h.whole]; simp [ha])
    exact .inr ⟨_, _, _, _, hp, g1.safe, g2.safe, fun hm => (g3 _ hm).2.1 rfl, fun hm => (g3 _ hm).2.2.2 rfl⟩

/-- C92, for texts without any of the characters `<`, `>`, `&` and `"`. -/
theorem C92_shown_partial (i : DInst) (hn : NoSpecial i.extra) : Displayed i.extra (read (extraHTML i)) := by
  obtain ⟨h1, hj, hne⟩ := splitNL_spec i.extra
  have sub : ∀ (ls : List Bytes) (s : Bytes), Joined ls s → ∀ l ∈ ls, ∀ a ∈ l, a ∈ s := by
    intro ls
    induction ls with
    | nil => simp
    | cons x xs ih =>
      intro s hj l hl a ha
      cases xs with
      | nil =>
        rw [show s = x from hj]
        cases List.mem_singleton.1 hl
        exact ha
      | cons y ys =>
        obtain ⟨t, rfl, ht⟩ := hj
        rcases List.mem_cons.1 hl with rfl | hl
        · simp [ha]
        · simp [ih t ht l hl a ha]
  exact (C92_exact_partial i _ hj h1 hne).2 fun l hl => NoSpecial.good (h1 l hl) fun a ha => hn a (sub _ _ hj l hl a ha)

/-! ### Where it fails -/

theorem joined_one (l : Bytes) : Joined [l] l := rfl

theorem oneLine_of {l : Bytes} (h : l.all (fun b => b != 0x0A) = true) : OneLine l := fun b hb => by
  simpa using List.all_eq_true.1 h b hb

theorem not_displayed {i : DInst} (h1 : OneLine i.extra) (hf : ptnCaller.find i.extra = none) (hs : ¬ Safe i.extra) :
    ¬ Displayed i.extra (read (extraHTML i)) := fun h => by
  have h0 : ∀ l ∈ [i.extra], OneLine l := fun l hl => by cases List.mem_singleton.1 hl; exact h1
  rcases (C92_exact_partial i [i.extra] rfl h0 (by simp)).1 h _ (List.mem_singleton.2 rfl) with h2 | ⟨_, _, _, _, hp, _⟩
  · exact hs h2.2
  · exact (noCaller_iff h1).2 hf hp.caller

/-- C92 is false: what looks like a tag becomes one. -/
theorem C92_fails : ¬ C92_statement := fun h =>
  not_displayed (i := { extra := b!"got <nil>" }) (oneLine_of (by decide +kernel)) (by decide +kernel)
    (fun hs => (hs b!"got " 0x3C b!"nil>" rfl).1 ⟨rfl, rfl⟩) (h { extra := b!"got <nil>" })

/-- A report with markup in the text of an instance. -/
def report : Bytes := b!"Warnings for a:\n Required\n  1 [Duplicates] Duplicate field(s) found\n   TestCase: <script>x()</script>\n"

/-- From the report to the page: the server parses the report, and the browser reads a script. -/
theorem C92_report_fails : ∃ w x i, parseWarningData Setup.someEnv b!"Verify" [] {} report = some (w, false) ∧
    w.look b!"a" b!"Required" b!"Duplicates" = some x ∧ x.instances = [i] ∧ i.extra = b!"<script>x()</script>" ∧
    read (extraHTML i) = [.tag b!"p", .tag b!"script"] ++ b!"x()".map Piece.char ++ [.tag b!"/script", .tag b!"/p"] ∧
    ¬ Displayed i.extra (read (extraHTML i)) := by
  have h1 : (parseWarningData Setup.someEnv b!"Verify" [] {} report).map (fun r => r.2) = some false := by decide +kernel
  have h2 : (parseWarningData Setup.someEnv b!"Verify" [] {} report).map (fun r => (r.1.look b!"a" b!"Required" b!"Duplicates").map
    fun x => x.instances.map DInst.extra) = some (some [b!"<script>x()</script>"]) := by decide +kernel
  cases e : parseWarningData Setup.someEnv b!"Verify" [] {} report with
  | none => rw [e] at h1; cases h1
  | some r =>
    rw [e] at h1 h2
    simp only [Option.map_some, Option.some.injEq] at h1 h2
    cases e' : r.1.look b!"a" b!"Required" b!"Duplicates" with
    | none => rw [e'] at h2; cases h2
    | some x =>
      rw [e'] at h2
      simp only [Option.map_some, Option.some.injEq] at h2
      obtain ⟨i, is, hx, h3, h4⟩ := List.map_eq_cons_iff.1 h2
      cases is with
      | cons j js => simp at h4
      | nil =>
        refine ⟨r.1, x, i, by rw [← h1], e', hx, h3, ?_, ?_⟩
        · rw [extraHTML, h3]; decide +kernel
        · refine not_displayed ?_ ?_ ?_
          · rw [h3]; exact oneLine_of (by decide +kernel)
          · rw [h3]; decide +kernel
          · rw [h3]; intro hs; exact (hs [] 0x3C _ rfl).1 ⟨rfl, rfl⟩

/-- A quotation mark in the file of a caller ends the address of the link, and the rest becomes another
attribute. -/
theorem C92_attribute_fails : Piece.tag b!"a href=\"https://cs.opensource.google/go/go/+/master:src/testing/\" onclick=\"x.go;l=61\"" ∈
    read (extraHTML { extra := b!"test: message (/go/src/testing/\" onclick=\"x.go:61)" }) := by decide +kernel

/-- What stands behind the place of a caller is not shown at all. -/
theorem C92_rest_fails : extraHTML { extra := b!"test: message (/go/src/testing/slogtest/slogtest.go:61) and more" } =
    extraHTML { extra := b!"test: message (/go/src/testing/slogtest/slogtest.go:61)" } := by decide +kernel

/-! ### Cases -/

/-- A text of two lines, the second the line of a caller. -/
def someText : DInst := { extra := b!"2 < 3 & more\n test: message (/snap/go/10535/src/testing/slogtest/slogtest.go:61)" }

/-- It is shown as text. -/
example : Displayed someText.extra (read (extraHTML someText)) := by
  refine (C92_exact_partial someText [b!"2 < 3 & more", b!" test: message (/snap/go/10535/src/testing/slogtest/slogtest.go:61)"]
    ⟨_, rfl, rfl⟩ ?_ (by simp)).2 ?_
  · intro l hl
    simp only [List.mem_cons, List.not_mem_nil, or_false] at hl
    rcases hl with rfl | rfl <;> exact oneLine_of (by decide +kernel)
  · intro l hl
    simp only [List.mem_cons, List.not_mem_nil, or_false] at hl
    rcases hl with rfl | rfl
    · refine .inl ⟨(noCaller_iff (oneLine_of (by decide +kernel))).2 (by decide +kernel), ?_⟩
      have key : ∀ n < b!"2 < 3 & more".length, ∀ a, b!"2 < 3 & more"[n]? = some a →
          ¬ (a = 0x3C ∧ opens (b!"2 < 3 & more".drop (n + 1)) = true) ∧ ¬ (a = 0x26 ∧ refers (b!"2 < 3 & more".drop (n + 1)) = true) := by
        intro n hn a ha
        have hn' : n < 12 := hn
        interval_cases n <;> (cases ha; decide)
      intro u a v e
      have := key u.length (by rw [e]; simp) a (by rw [e]; simp)
      rwa [show b!"2 < 3 & more".drop (u.length + 1) = v by rw [e]; simp] at this
    · exact NoSpecial.good (oneLine_of (by decide +kernel)) (by unfold NoSpecial; decide +kernel)

/-- The pieces of it. -/
example : read (extraHTML someText) = [.tag b!"p"] ++ b!"2 < 3 & more".map Piece.char ++ [.tag b!"/p", .char 0x0A, .tag b!"p"] ++
    b!"test".map Piece.char ++ [.tag b!"br/", .tag b!"a href=\"https://cs.opensource.google/go/go/+/master:src/testing/slogtest/slogtest.go;l=61\""] ++
    b!" message".map Piece.char ++ [.tag b!"/a", .tag b!"/p"] := by decide +kernel

end Verif.Props.WarnHTML
