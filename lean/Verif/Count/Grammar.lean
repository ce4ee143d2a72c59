import Verif.Count.Total
import Verif.Spec.JsonParse

/-
What the field counter does on JSON texts.
-/

set_option linter.unusedSimpArgs false

namespace Verif.Count
open Go Json

/-! ### Specification -/

/-- What is assumed of package unicode, on ASCII only. -/
structure Latin (U : Uni) : Prop where
  digit : ∀ a : UInt8, a < 0x80 → (U.isDigit a.toNat = true ↔ 0x30 ≤ a ∧ a ≤ 0x39)
  letter : ∀ a : UInt8, a < 0x80 →
    (U.isLetter a.toNat = true ↔ (0x41 ≤ a ∧ a ≤ 0x5A) ∨ (0x61 ≤ a ∧ a ≤ 0x7A))
  lower : ∀ s, s = b!"true" ∨ s = b!"false" ∨ s = b!"null" → U.toLower s = s

/-- What is done to the counts: one more for a key, or the key `fields` forgotten. -/
inductive Act
  | one (k : Bytes)
  | forget

/-- Its effect. -/
def Act.apply (m : Map Bytes Nat) : Act → Map Bytes Nat
  | .one k => m.set k ((m.get k).getD 0 + 1)
  | .forget => m.del b!"fields"

/-- A list of them. -/
def run (m : Map Bytes Nat) (as : List Act) : Map Bytes Nat := as.foldl Act.apply m

mutual
/-- The counting done inside a value that is not directly a member `fields`. -/
def valActs : Cst → List Act
  | .obj ms => objActs false ms
  | .arr es => elemActs es
  | _ => []
/-- Inside the elements of an array. -/
def elemActs : List Cst → List Act
  | [] => []
  | v :: vs => valActs v ++ elemActs vs
/-- Inside the members of an object, whose own keys count or not. A member `fields` that
is an object is not counted itself, but its members are, at any depth. -/
def objActs (count : Bool) : List (Bytes × Cst) → List Act
  | [] => []
  | (k, v) :: ms => (if count then [Act.one k] else []) ++ memberActs k v ++ objActs count ms
/-- Inside the value of a member. -/
def memberActs (k : Bytes) : Cst → List Act
  | .obj ms => if k = b!"fields" then .forget :: objActs true ms else objActs false ms
  | .arr es => elemActs es
  | _ => []
end

theorem run_append (m : Map Bytes Nat) (as bs : List Act) : run m (as ++ bs) = run (run m as) bs := by
  simp [run]

/-! ### Loops -/

/-- The counter is at this input with these counts. -/
def At (c : Ctr) (s : Bytes) (m : Map Bytes Nat) : Prop := c.rest = s ∧ c.counts = m

/-- With enough rounds the loop ends like this. -/
def LoopTo {σ : Type} (fn : Nat → σ → Nat → Ctr → Option (σ × Ctr × Sig)) (st : σ) (c : Ctr) (st' : σ) (s : Bytes)
    (m : Map Bytes Nat) : Prop :=
  ∃ c', At c' s m ∧ ∃ F, ∀ n f, F ≤ n → F ≤ f → readLoop n (fn f) st c = some (st', c', .ok)

/-- Whatever the variables are in the end. -/
def Loop {σ : Type} (fn : Nat → σ → Nat → Ctr → Option (σ × Ctr × Sig)) (st : σ) (c : Ctr) (s : Bytes)
    (m : Map Bytes Nat) : Prop := ∃ st', LoopTo fn st c st' s m

/-- With enough rounds the parser succeeds like this. -/
def Runs (p : Nat → Parser) (c : Ctr) (s : Bytes) (m : Map Bytes Nat) : Prop :=
  ∃ c', At c' s m ∧ ∃ F, ∀ f, F ≤ f → p f c = some (c', .ok)

theorem loopTo_ok {σ : Type} {fn : Nat → σ → Nat → Ctr → Option (σ × Ctr × Sig)} {st st1 st' : σ} {c c1 c2 : Ctr}
    {r : Nat} {s : Bytes} {m : Map Bytes Nat} (hr : readRune c = (c1, some r))
    (hb : ∃ F, ∀ f, F ≤ f → fn f st r c1 = some (st1, c2, .ok)) (h : LoopTo fn st1 c2 st' s m) :
    LoopTo fn st c st' s m := by
  obtain ⟨F1, hb⟩ := hb
  obtain ⟨c', hat, F2, h⟩ := h
  refine ⟨c', hat, F1 + F2 + 1, fun n f hn hf => ?_⟩
  obtain ⟨k, rfl⟩ : ∃ k, n = k + 1 := ⟨n - 1, by omega⟩
  rw [readLoop, hr]
  simp only
  rw [hb f (by omega)]
  exact h k f (by omega) (by omega)

theorem loopTo_fin {σ : Type} {fn : Nat → σ → Nat → Ctr → Option (σ × Ctr × Sig)} {st st' : σ} {c c1 c2 : Ctr}
    {r : Nat} {s : Bytes} {m : Map Bytes Nat} (hr : readRune c = (c1, some r))
    (hb : ∃ F, ∀ f, F ≤ f → fn f st r c1 = some (st', c2, .finished)) (h : At c2 s m) :
    LoopTo fn st c st' s m := by
  obtain ⟨F1, hb⟩ := hb
  refine ⟨c2, h, F1 + 1, fun n f hn hf => ?_⟩
  obtain ⟨k, rfl⟩ : ∃ k, n = k + 1 := ⟨n - 1, by omega⟩
  rw [readLoop, hr]
  simp only
  rw [hb f (by omega)]

theorem loopTo_eof {σ : Type} {fn : Nat → σ → Nat → Ctr → Option (σ × Ctr × Sig)} {st : σ} {c : Ctr}
    {m : Map Bytes Nat} (h : At c [] m) : LoopTo fn st c st [] m := by
  cases hr : readRune c with
  | mk c1 o =>
    cases o with
    | some r => exact absurd h.1 (read_ne_nil hr)
    | none =>
      obtain ⟨_, h2, _, h4⟩ := readRune_none hr
      refine ⟨c1, ⟨h2.trans h.1, h4.trans h.2⟩, 1, fun n f hn _ => ?_⟩
      obtain ⟨k, rfl⟩ : ∃ k, n = k + 1 := ⟨n - 1, by omega⟩
      rw [readLoop, hr]

theorem loop_ok {σ : Type} {fn : Nat → σ → Nat → Ctr → Option (σ × Ctr × Sig)} {st st1 : σ} {c c1 c2 : Ctr}
    {r : Nat} {s : Bytes} {m : Map Bytes Nat} (hr : readRune c = (c1, some r))
    (hb : ∃ F, ∀ f, F ≤ f → fn f st r c1 = some (st1, c2, .ok)) (h : Loop fn st1 c2 s m) :
    Loop fn st c s m := by
  obtain ⟨st', h⟩ := h
  exact ⟨st', loopTo_ok hr hb h⟩

theorem loop_fin {σ : Type} {fn : Nat → σ → Nat → Ctr → Option (σ × Ctr × Sig)} {st st' : σ} {c c1 c2 : Ctr}
    {r : Nat} {s : Bytes} {m : Map Bytes Nat} (hr : readRune c = (c1, some r))
    (hb : ∃ F, ∀ f, F ≤ f → fn f st r c1 = some (st', c2, .finished)) (h : At c2 s m) :
    Loop fn st c s m := ⟨st', loopTo_fin hr hb h⟩

/-- Reading an ASCII byte. -/
theorem read_ascii {c : Ctr} {a : UInt8} {s : Bytes} {m : Map Bytes Nat} (h : At c (a :: s) m) (ha : a < 0x80) :
    ∃ c1, readRune c = (c1, some (if a = 0x0A then 0x20 else a.toNat)) ∧ At c1 s m := by
  have hd : decodeRune c.rest = some (a.toNat, 1) := by rw [h.1]; simp [decodeRune, ha]
  cases hr : readRune c with
  | mk c1 o =>
    cases o with
    | none =>
      have := (readRune_none hr).1
      rw [h.1] at this
      cases this
    | some r =>
      obtain ⟨⟨r0, w, h1, h2, h3⟩, _, _, _, h4⟩ := readRune_some hr
      rw [hd] at h1
      cases h1
      refine ⟨c1, ?_, ?_, h4.trans h.2⟩
      · have : a = 0x0A ↔ a.toNat = 0x0A := by rw [← UInt8.toNat_inj]; rfl
        simp only [this]
        rw [← h3]
      · rw [h2, h.1]; rfl

/-- Reading an ASCII byte other than a newline. -/
theorem read_plain {c : Ctr} {a : UInt8} {s : Bytes} {m : Map Bytes Nat} (h : At c (a :: s) m) (ha : a < 0x80)
    (hn : a ≠ 0x0A) : ∃ c1, readRune c = (c1, some a.toNat) ∧ At c1 s m := by
  have := read_ascii h ha
  rwa [if_neg hn] at this

/-- Loops that skip white space. -/
def Skips {σ : Type} (fn : Nat → σ → Nat → Ctr → Option (σ × Ctr × Sig)) : Prop :=
  ∀ f st r c, isSpace r = true → fn f st r c = some (st, c, .ok)

theorem skip_ws {σ : Type} {fn : Nat → σ → Nat → Ctr → Option (σ × Ctr × Sig)} (hs : Skips fn) {w s s' : Bytes}
    (hw : Ws w) {st : σ} {m m' : Map Bytes Nat} (h : ∀ c', At c' s m → Loop fn st c' s' m') :
    ∀ {c : Ctr}, At c (w ++ s) m → Loop fn st c s' m' := by
  induction w with
  | nil => exact fun hc => h _ hc
  | cons a w ih =>
    intro c hc
    have ha : isWs a = true := hw a (by simp)
    have hw' : Ws w := fun b hb => hw b (by simp [hb])
    have ha' : a < 0x80 ∧ isSpace (if a = 0x0A then 0x20 else a.toNat) = true := by
      simp only [isWs, Bool.or_eq_true, beq_iff_eq] at ha
      rcases ha with ((rfl | rfl) | rfl) | rfl <;> decide
    obtain ⟨c1, hr, hc1⟩ := read_ascii hc ha'.1
    exact loop_ok hr ⟨0, fun f _ => hs f st _ c1 ha'.2⟩ (ih hw' hc1)

/-! ### Strings -/

theorem enc2 {a b : Nat} (ha : 0xC2 ≤ a ∧ a ≤ 0xDF) (hb : 0x80 ≤ b ∧ b ≤ 0xBF) :
    0x80 ≤ a % 32 * 64 + b % 64 ∧ a % 32 * 64 + b % 64 < 0x800 ∧
    0xC0 + (a % 32 * 64 + b % 64) / 64 = a ∧ 0x80 + (a % 32 * 64 + b % 64) % 64 = b := by
  omega

theorem enc3 {a b c : Nat} (ha : 0xE0 ≤ a ∧ a ≤ 0xEF) (hb : 0x80 ≤ b ∧ b ≤ 0xBF) (hc : 0x80 ≤ c ∧ c ≤ 0xBF)
    (h0 : a = 0xE0 → 0xA0 ≤ b) (r : Nat) (hr : r = (a % 16 * 64 + b % 64) * 64 + c % 64) :
    0x800 ≤ r ∧ r < 0x10000 ∧ 0xE0 + r / 4096 = a ∧ 0x80 + r / 64 % 64 = b ∧ 0x80 + r % 64 = c := by
  obtain ⟨x, rfl⟩ : ∃ x, a = 0xE0 + x := ⟨a - 0xE0, by omega⟩
  obtain ⟨y, rfl⟩ : ∃ y, b = 0x80 + y := ⟨b - 0x80, by omega⟩
  obtain ⟨z, rfl⟩ : ∃ z, c = 0x80 + z := ⟨c - 0x80, by omega⟩
  have e : r = x * 4096 + y * 64 + z := by omega
  clear hr
  subst e
  refine ⟨by omega, by omega, by omega, by omega, by omega⟩

theorem enc4 {a b c d : Nat} (ha : 0xF0 ≤ a ∧ a ≤ 0xF4) (hb : 0x80 ≤ b ∧ b ≤ 0xBF) (hc : 0x80 ≤ c ∧ c ≤ 0xBF)
    (hd : 0x80 ≤ d ∧ d ≤ 0xBF) (h0 : a = 0xF0 → 0x90 ≤ b) (r : Nat)
    (hr : r = ((a % 8 * 64 + b % 64) * 64 + c % 64) * 64 + d % 64) :
    0x10000 ≤ r ∧ 0xF0 + r / 262144 = a ∧ 0x80 + r / 4096 % 64 = b ∧ 0x80 + r / 64 % 64 = c ∧ 0x80 + r % 64 = d := by
  obtain ⟨x, rfl⟩ : ∃ x, a = 0xF0 + x := ⟨a - 0xF0, by omega⟩
  obtain ⟨y, rfl⟩ : ∃ y, b = 0x80 + y := ⟨b - 0x80, by omega⟩
  obtain ⟨z, rfl⟩ : ∃ z, c = 0x80 + z := ⟨c - 0x80, by omega⟩
  obtain ⟨u, rfl⟩ : ∃ u, d = 0x80 + u := ⟨d - 0x80, by omega⟩
  have e : r = x * 262144 + y * 4096 + z * 64 + u := by omega
  clear hr
  subst e
  refine ⟨by omega, by omega, by omega, by omega, by omega⟩

/-- A well-formed character is read as a rune that encodes to it. -/
theorem decode_char {ch : Bytes} (h : Utf8.Char1 ch) (s : Bytes) :
    ∃ r, decodeRune (ch ++ s) = some (r, ch.length) ∧ Utf8.encode r = ch ∧
      (0x80 ≤ r ∨ ∃ a, ch = [a] ∧ a < 0x80 ∧ r = a.toNat) := by
  cases h with
  | @one a ha =>
    refine ⟨a.toNat, by simp [decodeRune, ha], ?_, .inr ⟨a, rfl, ha, rfl⟩⟩
    have : a.toNat < 0x80 := by simpa [UInt8.lt_iff_toNat_lt] using ha
    simp [Utf8.encode, this]
  | @two a b h1 h2 =>
    have hn : ¬ a < 0x80 := by
      simp [Utf8.lead2, UInt8.lt_iff_toNat_lt, UInt8.le_iff_toNat_le] at *; omega
    refine ⟨a.toNat % 32 * 64 + b.toNat % 64, by simp [decodeRune, hn, h1, h2], ?_⟩
    unfold Utf8.lead2 at h1
    unfold Utf8.cont at h2
    simp only [Bool.and_eq_true, decide_eq_true_eq, UInt8.le_iff_toNat_le] at h1 h2
    obtain ⟨g1, g2, g3, g4⟩ := enc2 h1 h2
    refine ⟨?_, .inl g1⟩
    unfold Utf8.encode
    rw [if_neg (by omega), if_pos g2, g3, g4]
    simp
  | @three a b c h1 h2 =>
    have hn : ¬ a < 0x80 := by
      simp [Utf8.lead3, UInt8.lt_iff_toNat_lt, UInt8.le_iff_toNat_le] at *; omega
    have h2' : Utf8.lead2 a = false := by
      simp [Utf8.lead3, Utf8.lead2, UInt8.lt_iff_toNat_lt, UInt8.le_iff_toNat_le] at *; omega
    refine ⟨(a.toNat % 16 * 64 + b.toNat % 64) * 64 + c.toNat % 64, by simp [decodeRune, hn, h2', h1, h2], ?_⟩
    unfold Utf8.lead3 Utf8.cont at h1
    unfold Utf8.cont at h2
    simp only [Bool.and_eq_true, decide_eq_true_eq, Bool.or_eq_true, bne_iff_ne,
            UInt8.le_iff_toNat_le, ← UInt8.toNat_inj, ne_eq] at h1 h2
    obtain ⟨g1, g2, g3, g4, g5⟩ := enc3 h1.1.1.1 h1.1.1.2 h2 (fun e => h1.1.2.resolve_left (fun h => h e)) _ rfl
    refine ⟨?_, .inl (by omega)⟩
    unfold Utf8.encode
    rw [if_neg (by omega), if_neg (by omega), if_pos g2, g3, g4, g5]
    simp
  | @four a b c d h1 h2 h3 =>
    have hn : ¬ a < 0x80 := by
      simp [Utf8.lead4, UInt8.lt_iff_toNat_lt, UInt8.le_iff_toNat_le] at *; omega
    have h2' : Utf8.lead2 a = false := by
      simp [Utf8.lead4, Utf8.lead2, UInt8.lt_iff_toNat_lt, UInt8.le_iff_toNat_le] at *; omega
    have h3' : Utf8.lead3 a b = false := by
      have : ¬ a ≤ 0xEF := by
        simp [Utf8.lead4, UInt8.lt_iff_toNat_lt, UInt8.le_iff_toNat_le] at *; omega
      simp [Utf8.lead3, this]
    refine ⟨((a.toNat % 8 * 64 + b.toNat % 64) * 64 + c.toNat % 64) * 64 + d.toNat % 64, by simp [decodeRune, hn, h2', h3', h1, h2, h3], ?_⟩
    unfold Utf8.lead4 Utf8.cont at h1
    unfold Utf8.cont at h2 h3
    simp only [Bool.and_eq_true, decide_eq_true_eq, Bool.or_eq_true, bne_iff_ne,
            UInt8.le_iff_toNat_le, ← UInt8.toNat_inj, ne_eq] at h1 h2 h3
    obtain ⟨g1, g3, g4, g5, g6⟩ := enc4 h1.1.1.1 h1.1.1.2 h2 h3 (fun e => h1.1.2.resolve_left (fun h => h e)) _ rfl
    refine ⟨?_, .inl (by omega)⟩
    unfold Utf8.encode
    rw [if_neg (by omega), if_neg (by omega), if_neg (by omega), g3, g4, g5, g6]
    simp

/-- Reading a well-formed character. -/
theorem read_char {c : Ctr} {ch s : Bytes} {m : Map Bytes Nat} (h : At c (ch ++ s) m) (hc : Utf8.Char1 ch)
    (hp : ∀ a ∈ ch, 0x20 ≤ a) :
    ∃ c1 r, readRune c = (c1, some r) ∧ At c1 s m ∧ Utf8.encode r = ch ∧ (0x80 ≤ r ∨ ∃ a, ch = [a] ∧ a < 0x80 ∧ r = a.toNat) := by
  obtain ⟨r, hd, he, hr'⟩ := decode_char hc s
  rw [← h.1] at hd
  cases hr : readRune c with
  | mk c1 o =>
    cases o with
    | none =>
      have := (readRune_none hr).1
      rw [this] at hd
      cases hd
    | some r1 =>
      obtain ⟨⟨r0, w, h1, h2, h3⟩, _, _, _, h4⟩ := readRune_some hr
      rw [hd] at h1
      cases h1
      have hne : r ≠ 0x0A := by
        rcases hr' with h' | ⟨a, rfl, ha, rfl⟩
        · omega
        · have := hp a (by simp)
          simp [UInt8.le_iff_toNat_le] at this
          omega
      rw [if_neg hne] at h3
      subst h3
      refine ⟨c1, r1, rfl, ⟨?_, h4.trans h.2⟩, he, hr'⟩
      rw [h2, h.1]; simp

theorem str_plain {a : UInt8} {t x s acc : Bytes} {m : Map Bytes Nat} {c : Ctr} (h1 : a < 0x80) (h2 : 0x20 ≤ a)
    (h3 : a ≠ 0x22) (h4 : a ≠ 0x5C) (hc : At c (a :: t) m)
    (hk : ∀ c', At c' t m → LoopTo (fun _ => stringBody) (acc ++ [a]) c' x s m) :
    LoopTo (fun _ => stringBody) acc c x s m := by
  obtain ⟨c1, hr, hc1⟩ := read_plain hc h1 (by
    simp only [UInt8.le_iff_toNat_le, ← UInt8.toNat_inj, ne_eq] at *; simp at *; omega)
  refine loopTo_ok hr ⟨0, fun f _ => ?_⟩ (hk c1 hc1)
  have e1 : a.toNat ≠ 0x22 := fun e => h3 (UInt8.toNat_inj.1 e)
  have e2 : a.toNat ≠ 0x5C := fun e => h4 (UInt8.toNat_inj.1 e)
  have e3 : a.toNat < 0x80 := by simpa [UInt8.lt_iff_toNat_lt] using h1
  simp [stringBody, e1, e2, Utf8.encode, e3]

theorem str_esc {e : UInt8} {t x s acc : Bytes} {m : Map Bytes Nat} {c : Ctr} (h1 : e < 0x80) (h2 : e ≠ 0x0A)
    (hc : At c (0x5C :: e :: t) m)
    (hk : ∀ c', At c' t m → LoopTo (fun _ => stringBody) (acc ++ [0x5C, e]) c' x s m) :
    LoopTo (fun _ => stringBody) acc c x s m := by
  obtain ⟨c1, hr, hc1⟩ := read_plain hc (by decide) (by decide)
  obtain ⟨c2, hr2, hc2⟩ := read_plain hc1 h1 h2
  refine loopTo_ok hr ⟨0, fun f _ => ?_⟩ (hk c2 hc2)
  have e3 : e.toNat < 0x80 := by simpa [UInt8.lt_iff_toNat_lt] using h1
  simp [stringBody, hr2, Utf8.encode, e3]

set_option maxRecDepth 100000 in
theorem hex_plain (a : UInt8) : (hexVal a).isSome = true → a < 0x80 ∧ 0x20 ≤ a ∧ a ≠ 0x22 ∧ a ≠ 0x5C := by
  revert a; apply forall_byte; decide +kernel

set_option maxRecDepth 100000 in
theorem simple_plain (a : UInt8) : (simpleEscape a).isSome = true → a < 0x80 ∧ a ≠ 0x0A := by
  revert a; apply forall_byte; decide +kernel

theorem hex4_plain {a b c d : UInt8} {n : Nat} (h : hex4 a b c d = some n) :
    (hexVal a).isSome = true ∧ (hexVal b).isSome = true ∧ (hexVal c).isSome = true ∧ (hexVal d).isSome = true := by
  unfold hex4 at h
  split at h
  · simp_all
  · cases h

/-- The body of a string is read as written. -/
theorem string_loop {b v : Bytes} (h : Body b v) (s : Bytes) (m : Map Bytes Nat) : ∀ (acc : Bytes) (c : Ctr),
    At c (b ++ 0x22 :: s) m → LoopTo (fun _ => stringBody) acc c (acc ++ b) s m := by
  induction h with
  | nil =>
    intro acc c hc
    obtain ⟨c1, hr, hc1⟩ := read_plain hc (by decide) (by decide)
    refine loopTo_fin hr ⟨0, fun f _ => ?_⟩ hc1
    simp [stringBody]
  | @esc e x b v he _ ih =>
    intro acc c hc
    obtain ⟨h1, h2⟩ := simple_plain e (by rw [he]; rfl)
    refine str_esc h1 h2 hc fun c' hc' => ?_
    have := ih (acc ++ [0x5C, e]) c' hc'
    simpa using this
  | @uni h1 h2 h3 h4 n b v hx _ ih =>
    intro acc c hc
    obtain ⟨g1, g2, g3, g4⟩ := hex4_plain hx
    obtain ⟨a1, a2, a3, a4⟩ := hex_plain _ g1
    obtain ⟨b1, b2, b3, b4⟩ := hex_plain _ g2
    obtain ⟨c1, c2, c3, c4⟩ := hex_plain _ g3
    obtain ⟨d1, d2, d3, d4⟩ := hex_plain _ g4
    refine str_esc (by decide) (by decide) hc fun c' hc' => ?_
    refine str_plain a1 a2 a3 a4 hc' fun c' hc' => ?_
    refine str_plain b1 b2 b3 b4 hc' fun c' hc' => ?_
    refine str_plain c1 c2 c3 c4 hc' fun c' hc' => ?_
    refine str_plain d1 d2 d3 d4 hc' fun c' hc' => ?_
    have := ih (acc ++ [0x5C, 0x75] ++ [h1] ++ [h2] ++ [h3] ++ [h4]) c' hc'
    simpa using this
  | @chr ch b v hch hp _ ih =>
    intro acc c hc
    rw [List.append_assoc] at hc
    obtain ⟨c1, r, hr, hc1, he, hr'⟩ := read_char hc hch (fun a ha => (hp a ha).1)
    have hne : r ≠ 0x5C ∧ r ≠ 0x22 := by
      rcases hr' with h' | ⟨a, rfl, ha, rfl⟩
      · omega
      · obtain ⟨_, h2, h3⟩ := hp a (by simp)
        exact ⟨fun e => h3 (UInt8.toNat_inj.1 e), fun e => h2 (UInt8.toNat_inj.1 e)⟩
    have := ih (acc ++ ch) c1 hc1
    rw [List.append_assoc] at this
    refine loopTo_ok hr ⟨0, fun f _ => ?_⟩ this
    simp [stringBody, hne.1, hne.2, he]

/-- `parseString` on a string. -/
theorem string_runs {b : Bytes} (h : BodyOk b) {s : Bytes} {m : Map Bytes Nat} {c : Ctr}
    (hc : At c (b ++ 0x22 :: s) m) :
    ∃ c', At c' s m ∧ ∃ F, ∀ f, F ≤ f → parseString f c = some (b, c', .ok) := by
  obtain ⟨v, hv⟩ := Option.isSome_iff_exists.1 h
  obtain ⟨c', hat, F, hF⟩ := string_loop (body_of_decodeBody hv) s m [] c hc
  exact ⟨c', hat, F, fun f hf => hF f f hf hf⟩

/-! ### Numbers and keywords -/

/-- What may follow a value inside a JSON text. -/
def Delim : Bytes → Prop
  | [] => True
  | a :: _ => isWs a = true ∨ a = 0x2C ∨ a = 0x5D ∨ a = 0x7D

theorem Ws.delim {w s : Bytes} (hw : Ws w) (hs : Delim s) : Delim (w ++ s) := by
  match w, hw with
  | [], _ => exact hs
  | a :: w, hw => exact .inl (hw a (by simp))

set_option maxRecDepth 100000 in
theorem delim_byte (a : UInt8) : (isWs a = true ∨ a = 0x2C ∨ a = 0x5D ∨ a = 0x7D) →
    a < 0x80 ∧ ¬ (0x30 ≤ a ∧ a ≤ 0x39) ∧ ¬ ((0x41 ≤ a ∧ a ≤ 0x5A) ∨ (0x61 ≤ a ∧ a ≤ 0x7A)) ∧
    a ≠ 0x2E ∧ a ≠ 0x65 ∧ a ≠ 0x45 ∧ a ≠ 0x2D ∧ a ≠ 0x2B := by
  revert a; apply forall_byte; decide +kernel

set_option maxRecDepth 100000 in
theorem delim_rune (a : UInt8) : (isWs a = true ∨ a = 0x2C ∨ a = 0x5D ∨ a = 0x7D) →
    ∃ b : UInt8, (if a = 0x0A then 0x20 else a.toNat) = b.toNat ∧ (isWs b = true ∨ b = 0x2C ∨ b = 0x5D ∨ b = 0x7D) := by
  intro h
  by_cases e : a = 0x0A
  · exact ⟨0x20, by rw [if_pos e]; rfl, by decide⟩
  · exact ⟨a, if_neg e, h⟩

/-- The number loop. -/
abbrev numF (U : Uni) : Nat → Num → Nat → Ctr → Option (Num × Ctr × Sig) := fun _ => numberBody U

theorem num_end {U : Uni} (hU : Latin U) (st : Num) {r : Bytes} (hr : Delim r) {m : Map Bytes Nat} {c : Ctr}
    (hc : At c r m) : Loop (numF U) st c r m := by
  match r, hr with
  | [], _ => exact ⟨st, loopTo_eof hc⟩
  | a :: r, hr =>
    obtain ⟨h1, _⟩ := delim_byte a hr
    obtain ⟨c1, hrd, _⟩ := read_ascii hc h1
    obtain ⟨c2, e, g1, _, g2⟩ := unread_read hrd
    obtain ⟨b, hb, hb'⟩ := delim_rune a hr
    obtain ⟨d1, d2, _, d3, d4, d5, d6, d7⟩ := delim_byte b hb'
    rw [hb] at hrd
    refine ⟨st, loopTo_fin hrd ⟨0, fun f _ => ?_⟩ ⟨g1.trans hc.1, g2.trans hc.2⟩⟩
    have n1 : ¬ U.isDigit b.toNat = true := fun h => d2 ((hU.digit b d1).1 h)
    have n2 : ∀ x : UInt8, b ≠ x → b.toNat ≠ x.toNat := fun x hx e => hx (UInt8.toNat_inj.1 e)
    have m1 := n2 _ d3
    have m2 := n2 _ d4
    have m3 := n2 _ d5
    have m4 := n2 _ d6
    have m5 := n2 _ d7
    simp at m1 m2 m3 m4 m5
    simp [numF, numberBody, n1, m1, m2, m3, m4, m5, e]

theorem num_digit {U : Uni} (hU : Latin U) (st : Num) {a : UInt8} (ha : isDigit a = true) {s r : Bytes}
    {m : Map Bytes Nat} (hk : ∀ c', At c' s m → Loop (numF U) st c' r m) {c : Ctr} (hc : At c (a :: s) m) :
    Loop (numF U) st c r m := by
  have hd : 0x30 ≤ a ∧ a ≤ 0x39 := by simpa [isDigit] using ha
  have h1 : a < 0x80 := by
    simp only [UInt8.le_iff_toNat_le, UInt8.lt_iff_toNat_lt] at *; simp at *; omega
  have h2 : a ≠ 0x0A := by
    simp only [UInt8.le_iff_toNat_le, ne_eq, ← UInt8.toNat_inj] at *; simp at *; omega
  obtain ⟨c1, hr, hc1⟩ := read_plain hc h1 h2
  refine loop_ok hr ⟨0, fun f _ => ?_⟩ (hk c1 hc1)
  simp [numF, numberBody, (hU.digit a h1).2 hd]

theorem num_digits {U : Uni} (hU : Latin U) (st : Num) {ds : Bytes} (hd : ds.all isDigit = true) {s r : Bytes}
    {m : Map Bytes Nat} (hk : ∀ c', At c' s m → Loop (numF U) st c' r m) : ∀ {c : Ctr}, At c (ds ++ s) m →
    Loop (numF U) st c r m := by
  induction ds with
  | nil => intro c hc; exact hk c hc
  | cons a ds ih =>
    intro c hc
    simp only [List.all_cons, Bool.and_eq_true] at hd
    exact num_digit hU st hd.1 (fun c' hc' => ih hd.2 hc') hc

theorem num_exp {U : Uni} (hU : Latin U) (st : Num) (h1 : st.exponent = false) (h2 : st.sign = false) {t : Bytes}
    (ht : isExp t = true) {r : Bytes} (hr : Delim r) {m : Map Bytes Nat} {c : Ctr} (hc : At c (t ++ r) m) :
    Loop (numF U) st c r m := by
  match t, ht with
  | [], _ => exact num_end hU st hr hc
  | e :: s, ht =>
    simp only [isExp, Bool.and_eq_true, Bool.or_eq_true, beq_iff_eq] at ht
    obtain ⟨he, ht⟩ := ht
    have e1 : e < 0x80 ∧ e ≠ 0x0A ∧ ¬ U.isDigit e.toNat = true ∧ e.toNat ≠ 0x2E ∧ (e.toNat = 0x65 ∨ e.toNat = 0x45) := by
      rcases he with rfl | rfl
      · exact ⟨by decide, by decide, fun h => absurd ((hU.digit _ (by decide)).1 h) (by decide), by decide, by decide⟩
      · exact ⟨by decide, by decide, fun h => absurd ((hU.digit _ (by decide)).1 h) (by decide), by decide, by decide⟩
    obtain ⟨c1, hrd, hc1⟩ := read_plain hc e1.1 e1.2.1
    refine loop_ok hrd (st1 := { st with exponent := true }) ⟨0, fun f _ => ?_⟩ ?_ (c2 := c1)
    · simp [numF, numberBody, e1, h1]
    · match s, ht with
      | x :: s, ht =>
        simp only at ht
        by_cases hx : x = 0x2B ∨ x = 0x2D
        · rw [if_pos hx] at ht
          simp only [Bool.and_eq_true] at ht
          have x1 : x < 0x80 ∧ x ≠ 0x0A ∧ ¬ U.isDigit x.toNat = true ∧ x.toNat ≠ 0x2E ∧
              ¬ (x.toNat = 0x65 ∨ x.toNat = 0x45) ∧ (x.toNat = 0x2D ∨ x.toNat = 0x2B) := by
            rcases hx with rfl | rfl
            · exact ⟨by decide, by decide, fun h => absurd ((hU.digit _ (by decide)).1 h) (by decide), by decide, by decide, by decide⟩
            · exact ⟨by decide, by decide, fun h => absurd ((hU.digit _ (by decide)).1 h) (by decide), by decide, by decide, by decide⟩
          obtain ⟨c2, hrd2, hc2⟩ := read_plain hc1 x1.1 x1.2.1
          refine loop_ok hrd2 (st1 := { st with exponent := true, sign := true }) ⟨0, fun f _ => ?_⟩ ?_ (c2 := c2)
          · have := x1.2.2.2.2.1
            simp [numF, numberBody, x1.2.2.1, x1.2.2.2.1, this, x1.2.2.2.2.2, h2]
          · exact num_digits hU _ ht.2 (fun c' hc' => num_end hU _ hr hc') hc2
        · rw [if_neg hx] at ht
          simp only [Bool.and_eq_true] at ht
          exact num_digit hU _ ht.1 (fun c' hc' => num_digits hU _ ht.2 (fun c' hc' => num_end hU _ hr hc') hc') hc1

theorem digits_split (s : Bytes) : ∃ ds, ds.all isDigit = true ∧ s = ds ++ s.dropWhile isDigit :=
  ⟨s.takeWhile isDigit, by simp [List.all_eq_true], (List.takeWhile_append_dropWhile).symm⟩

theorem num_frac {U : Uni} (hU : Latin U) (st : Num) (h0 : st = {}) {t : Bytes}
    (ht : isFrac t = true) {r : Bytes} (hr : Delim r) {m : Map Bytes Nat} {c : Ctr} (hc : At c (t ++ r) m) :
    Loop (numF U) st c r m := by
  subst h0
  unfold isFrac at ht
  split at ht
  · rename_i s
    match s, ht with
    | d :: s, ht =>
      simp only [Bool.and_eq_true] at ht
      obtain ⟨c1, hrd, hc1⟩ := read_plain hc (by decide) (by decide)
      have hn : ¬ U.isDigit (0x2E : UInt8).toNat = true := fun h => absurd ((hU.digit _ (by decide)).1 h) (by decide)
      refine loop_ok hrd (st1 := { decimal := true }) ⟨0, fun f _ => ?_⟩ ?_ (c2 := c1)
      · unfold numF numberBody
        rw [if_neg hn]
        rfl
      · obtain ⟨ds, hds, hs⟩ := digits_split s
        refine num_digit hU _ ht.1 (fun c' hc' => ?_) hc1
        have hc' : At c' (s ++ r) m := hc'
        rw [hs, List.append_assoc] at hc'
        exact num_digits hU _ hds (fun c' hc' => num_exp hU _ rfl rfl ht.2 hr hc') hc'
  · exact num_exp hU _ rfl rfl ht hr hc

/-- The rest of a number after its first character. -/
theorem number_rest {U : Uni} (hU : Latin U) {t : Bytes} (ht : isNumber t = true) {r : Bytes} (hr : Delim r)
    {m : Map Bytes Nat} : ∃ a t', t = a :: t' ∧ (isDigit a = true ∨ a = 0x2D) ∧
      ∀ c, At c (t' ++ r) m → Loop (numF U) {} c r m := by
  have unsigned : ∀ t : Bytes, isUNumber t = true → ∃ a t', t = a :: t' ∧ isDigit a = true ∧
      ∀ c, At c (t' ++ r) m → Loop (numF U) {} c r m := by
    intro t ht
    match t, ht with
    | d :: s, ht =>
      simp only [isUNumber] at ht
      split at ht
      · rename_i h0
        refine ⟨d, s, rfl, ?_, fun c hc => num_frac hU _ rfl ht hr hc⟩
        have : d = 0x30 := by simpa using h0
        rw [this]; decide
      · simp only [Bool.and_eq_true] at ht
        refine ⟨d, s, rfl, ht.1, fun c hc => ?_⟩
        obtain ⟨ds, hds, hs⟩ := digits_split s
        rw [hs, List.append_assoc] at hc
        exact num_digits hU _ hds (fun c' hc' => num_frac hU _ rfl ht.2 hr hc') hc
  unfold isNumber at ht
  split at ht
  · rename_i s
    refine ⟨0x2D, s, rfl, .inr rfl, fun c hc => ?_⟩
    obtain ⟨a, t', rfl, ha, hk⟩ := unsigned s ht
    exact num_digit hU _ ha hk hc
  · obtain ⟨a, t', h1, h2, h3⟩ := unsigned t ht
    exact ⟨a, t', h1, .inl h2, h3⟩

/-- The function literal of `parseKeyword`. -/
abbrev kwF (U : Uni) : Nat → Bytes → Nat → Ctr → Option (Bytes × Ctr × Sig) := fun _ kw r c =>
    if U.isLetter r then some (kw ++ Utf8.encode r, c, .ok)
    else match unreadRune c with
      | (c, .ok) => some (kw, c, .finished)
      | (c, e) => some (kw, c, wrap false e)

theorem kw_end {U : Uni} (hU : Latin U) (kw : Bytes) {r : Bytes} (hr : Delim r) {m : Map Bytes Nat} {c : Ctr}
    (hc : At c r m) : LoopTo (kwF U) kw c kw r m := by
  match r, hr with
  | [], _ => exact loopTo_eof hc
  | a :: r, hr =>
    obtain ⟨h1, _⟩ := delim_byte a hr
    obtain ⟨c1, hrd, _⟩ := read_ascii hc h1
    obtain ⟨c2, e, g1, _, g2⟩ := unread_read hrd
    obtain ⟨b, hb, hb'⟩ := delim_rune a hr
    obtain ⟨d1, _, d2, _⟩ := delim_byte b hb'
    rw [hb] at hrd
    refine loopTo_fin hrd ⟨0, fun f _ => ?_⟩ ⟨g1.trans hc.1, g2.trans hc.2⟩
    have n1 : ¬ U.isLetter b.toNat = true := fun h => d2 ((hU.letter b d1).1 h)
    simp [kwF, n1, e]

theorem kw_letters {U : Uni} (hU : Latin U) {ls : Bytes} (hl : ∀ a ∈ ls, 0x61 ≤ a ∧ a ≤ 0x7A) {r : Bytes} (hr : Delim r)
    {m : Map Bytes Nat} : ∀ (kw : Bytes) {c : Ctr}, At c (ls ++ r) m → LoopTo (kwF U) kw c (kw ++ ls) r m := by
  induction ls with
  | nil => intro kw c hc; rw [List.append_nil]; exact kw_end hU kw hr hc
  | cons a ls ih =>
    intro kw c hc
    have ha := hl a (by simp)
    have h1 : a < 0x80 := by
      simp only [UInt8.le_iff_toNat_le, UInt8.lt_iff_toNat_lt] at *; simp at *; omega
    have h2 : a ≠ 0x0A := by
      simp only [UInt8.le_iff_toNat_le, ne_eq, ← UInt8.toNat_inj] at *; simp at *; omega
    obtain ⟨c1, hrd, hc1⟩ := read_plain hc h1 h2
    have := ih (fun b hb => hl b (by simp [hb])) (kw ++ [a]) hc1
    rw [List.append_assoc, List.singleton_append] at this
    refine loopTo_ok hrd ⟨0, fun f _ => ?_⟩ this
    have e3 : a.toNat < 0x80 := by simpa [UInt8.lt_iff_toNat_lt] using h1
    simp [kwF, (hU.letter a h1).2 (.inr ha), Utf8.encode, e3]

end Verif.Count
