import Verif.Count.Grammar

/-
What the field counter does on JSON texts: the parsers of values.
-/

set_option linter.unusedSimpArgs false

namespace Verif.Count
open Go Json

/-- The loop of `parseValue`. -/
abbrev valueF (U : Uni) : Nat → Unit → Nat → Ctr → Option (Unit × Ctr × Sig) :=
  fun f => valueBody U f (parseObject U f) (parseArray U f)
/-- The loop of `parseField`. -/
abbrev fieldF (U : Uni) (k : Bytes) : Nat → Bool → Nat → Ctr → Option (Bool × Ctr × Sig) :=
  fun f => fieldBody (parseObject U f) (parseArray U f) (parseValue U f) k
/-- The loop of `parseArray`. -/
abbrev arrayF (U : Uni) : Nat → Bool → Nat → Ctr → Option (Bool × Ctr × Sig) := fun f => arrayBody (parseValue U f)
/-- The loop of `parseObject`. -/
abbrev objF (U : Uni) (b : Bool) : Nat → Bool → Nat → Ctr → Option (Bool × Ctr × Sig) :=
  fun f => objectBody f (parseField U f) b

theorem runs_value {U : Uni} {c : Ctr} {s : Bytes} {m : Map Bytes Nat} (h : Loop (valueF U) () c s m) :
    Runs (parseValue U) c s m := by
  obtain ⟨_, c', hat, F, hF⟩ := h
  refine ⟨c', hat, F + 1, fun f hf => ?_⟩
  obtain ⟨k, rfl⟩ : ∃ k, f = k + 1 := ⟨f - 1, by omega⟩
  rw [parseValue, hF (k + 1) k (by omega) (by omega)]; rfl

theorem runs_field {U : Uni} {k : Bytes} {c : Ctr} {s : Bytes} {m : Map Bytes Nat} (h : Loop (fieldF U k) true c s m) :
    Runs (fun f => parseField U f k) c s m := by
  obtain ⟨_, c', hat, F, hF⟩ := h
  refine ⟨c', hat, F + 1, fun f hf => ?_⟩
  obtain ⟨n, rfl⟩ : ∃ n, f = n + 1 := ⟨f - 1, by omega⟩
  simp only
  rw [parseField, hF (n + 1) n (by omega) (by omega)]; rfl

theorem runs_array {U : Uni} {c : Ctr} {s : Bytes} {m : Map Bytes Nat} (h : Loop (arrayF U) false c s m) :
    Runs (parseArray U) c s m := by
  obtain ⟨_, c', hat, F, hF⟩ := h
  refine ⟨c', hat, F + 1, fun f hf => ?_⟩
  obtain ⟨n, rfl⟩ : ∃ n, f = n + 1 := ⟨f - 1, by omega⟩
  rw [parseArray, hF (n + 1) n (by omega) (by omega)]; rfl

theorem runs_object {U : Uni} {b : Bool} {c : Ctr} {s : Bytes} {m : Map Bytes Nat} (h : Loop (objF U b) false c s m) :
    Runs (fun f => parseObject U f b) c s m := by
  obtain ⟨_, c', hat, F, hF⟩ := h
  refine ⟨c', hat, F + 1, fun f hf => ?_⟩
  obtain ⟨n, rfl⟩ : ∃ n, f = n + 1 := ⟨f - 1, by omega⟩
  simp only
  rw [parseObject, hF (n + 1) n (by omega) (by omega)]; rfl

theorem skips_value (U : Uni) : Skips (valueF U) := by
  intro f st r c h; simp [valueF, valueBody, h]
theorem skips_field (U : Uni) (k : Bytes) : Skips (fieldF U k) := by
  intro f st r c h; simp [fieldF, fieldBody, h]
theorem skips_array (U : Uni) : Skips (arrayF U) := by
  intro f st r c h; simp [arrayF, arrayBody, h]
theorem skips_obj (U : Uni) (b : Bool) : Skips (objF U b) := by
  intro f st r c h; simp [objF, objectBody, h]

/-- How a value starts. -/
theorem val_first {b : Bytes} {v : Cst} (h : Val b v) :
    ∃ a t, b = a :: t ∧ a < 0x80 ∧ a ≠ 0x0A ∧ isSpace a.toNat = false ∧ a ≠ 0x2C ∧ a ≠ 0x3A ∧ a ≠ 0x5D := by
  cases h with
  | num hn =>
    obtain ⟨a, t', rfl, ha, _⟩ := number_rest (U := ⟨fun n => decide (0x30 ≤ n ∧ n ≤ 0x39),
      fun n => decide ((0x41 ≤ n ∧ n ≤ 0x5A) ∨ (0x61 ≤ n ∧ n ≤ 0x7A)), id⟩)
      ⟨fun a _ => by simp [UInt8.le_iff_toNat_le], fun a _ => by simp [UInt8.le_iff_toNat_le], fun s _ => rfl⟩
      hn (r := []) trivial (m := [])
    refine ⟨a, t', rfl, ?_⟩
    rcases ha with ha | rfl
    · have hd : 0x30 ≤ a ∧ a ≤ 0x39 := by simpa [isDigit] using ha
      have : 0x30 ≤ a.toNat ∧ a.toNat ≤ 0x39 := by simpa [UInt8.le_iff_toNat_le] using hd
      refine ⟨?_, ?_, ?_, ?_, ?_, ?_⟩
      · simp only [UInt8.lt_iff_toNat_lt]; simp; omega
      · simp only [ne_eq, ← UInt8.toNat_inj]; simp; omega
      · simp [isSpace]; omega
      · simp only [ne_eq, ← UInt8.toNat_inj]; simp; omega
      · simp only [ne_eq, ← UInt8.toNat_inj]; simp; omega
      · simp only [ne_eq, ← UInt8.toNat_inj]; simp; omega
    · decide
  | _ => exact ⟨_, _, rfl, by decide⟩

theorem toNat_ne {a : UInt8} {n : UInt8} (h : a ≠ n) : a.toNat ≠ n.toNat := fun e => h (UInt8.toNat_inj.1 e)

/-! ### The loops of a value -/

/-- The loop of `parseValue` when it sees a `[`. -/
theorem value_bracket {U : Uni} (hU : Latin U) {s r : Bytes} {m m' : Map Bytes Nat}
    (h : ∀ c', At c' s m → Runs (parseArray U) c' r m') {c : Ctr} (hc : At c (0x5B :: s) m) :
    Loop (valueF U) () c r m' := by
  obtain ⟨c1, hr, hc1⟩ := read_plain hc (by decide) (by decide)
  obtain ⟨c2, hat, F, hF⟩ := h c1 hc1
  refine loop_fin hr ⟨F, fun f hf => ?_⟩ hat (st' := ())
  have hd : ¬ U.isDigit (0x5B : UInt8).toNat = true := fun h => absurd ((hU.digit _ (by decide)).1 h) (by decide)
  unfold valueF valueBody
  rw [if_neg (by decide), if_neg (by decide), if_neg (by decide), if_neg (by simpa using hd), if_pos (by decide), hF f hf]
  rfl

theorem value_brace {U : Uni} (hU : Latin U) {s r : Bytes} {m m' : Map Bytes Nat}
    (h : ∀ c', At c' s m → Runs (fun f => parseObject U f false) c' r m') {c : Ctr} (hc : At c (0x7B :: s) m) :
    Loop (valueF U) () c r m' := by
  obtain ⟨c1, hr, hc1⟩ := read_plain hc (by decide) (by decide)
  obtain ⟨c2, hat, F, hF⟩ := h c1 hc1
  refine loop_fin hr ⟨F, fun f hf => ?_⟩ hat (st' := ())
  have hd : ¬ U.isDigit (0x7B : UInt8).toNat = true := fun h => absurd ((hU.digit _ (by decide)).1 h) (by decide)
  unfold valueF valueBody
  rw [if_neg (by decide), if_neg (by decide), if_neg (by decide), if_neg (by simpa using hd), if_neg (by decide),
    if_pos (by decide), show parseObject U f false c1 = _ from hF f hf]
  rfl

theorem value_string {U : Uni} {b : Bytes} (hb : BodyOk b) {r : Bytes} {m : Map Bytes Nat} {c : Ctr}
    (hc : At c (0x22 :: (b ++ 0x22 :: r)) m) : Loop (valueF U) () c r m := by
  obtain ⟨c1, hr, hc1⟩ := read_plain hc (by decide) (by decide)
  obtain ⟨c2, hat, F, hF⟩ := string_runs hb hc1
  refine loop_fin hr ⟨F, fun f hf => ?_⟩ hat (st' := ())
  unfold valueF valueBody
  rw [if_neg (by decide), if_neg (by decide), if_pos (by decide), hF f hf]
  rfl

theorem value_number {U : Uni} (hU : Latin U) {t : Bytes} (ht : isNumber t = true) {r : Bytes} (hr : Delim r)
    {m : Map Bytes Nat} {c : Ctr} (hc : At c (t ++ r) m) : Loop (valueF U) () c r m := by
  obtain ⟨a, t', rfl, ha, hk⟩ := number_rest hU ht hr (m := m)
  have e : a < 0x80 ∧ a ≠ 0x0A ∧ isSpace a.toNat = false ∧ runeKeyword a.toNat = false ∧ a.toNat ≠ 0x22 ∧
      (U.isDigit a.toNat || a.toNat == 0x2D) = true := by
    rcases ha with ha | rfl
    · have hd : 0x30 ≤ a ∧ a ≤ 0x39 := by simpa [isDigit] using ha
      have : 0x30 ≤ a.toNat ∧ a.toNat ≤ 0x39 := by simpa [UInt8.le_iff_toNat_le] using hd
      have h1 : a < 0x80 := by simp only [UInt8.lt_iff_toNat_lt]; simp; omega
      refine ⟨h1, ?_, ?_, ?_, ?_, ?_⟩
      · simp only [ne_eq, ← UInt8.toNat_inj]; simp; omega
      · simp [isSpace]; omega
      · simp [runeKeyword]; omega
      · omega
      · rw [(hU.digit a h1).2 hd]; rfl
    · exact ⟨by decide, by decide, by decide, by decide, by decide, by simp⟩
  obtain ⟨e1, e2, e3, e4, e5, e6⟩ := e
  obtain ⟨c1, hrd, hc1⟩ := read_plain hc e1 e2
  obtain ⟨st', c2, hat, F, hF⟩ := hk c1 hc1
  refine loop_fin hrd ⟨F, fun f hf => ?_⟩ hat (st' := ())
  unfold valueF valueBody
  rw [if_neg (by rw [e3]; decide), if_neg (by rw [e4]; decide), if_neg e5, if_pos e6, parseNumber, hF f f hf hf]
  rfl

theorem value_keyword {U : Uni} (hU : Latin U) {a : UInt8} {ls : Bytes} (ha : a.toNat = 0x74 ∨ a.toNat = 0x66 ∨ a.toNat = 0x6E)
    (hl : ∀ b ∈ ls, 0x61 ≤ b ∧ b ≤ 0x7A) (hg : a :: ls = b!"true" ∨ a :: ls = b!"false" ∨ a :: ls = b!"null")
    {r : Bytes} (hr : Delim r) {m : Map Bytes Nat} {c : Ctr} (hc : At c (a :: (ls ++ r)) m) :
    Loop (valueF U) () c r m := by
  have e : a < 0x80 ∧ a ≠ 0x0A ∧ isSpace a.toNat = false ∧ runeKeyword a.toNat = true ∧ Utf8.encode a.toNat = [a] := by
    have : a = 0x74 ∨ a = 0x66 ∨ a = 0x6E := by
      rcases ha with h | h | h
      · exact .inl (UInt8.toNat_inj.1 h)
      · exact .inr (.inl (UInt8.toNat_inj.1 h))
      · exact .inr (.inr (UInt8.toNat_inj.1 h))
    rcases this with rfl | rfl | rfl <;> decide
  obtain ⟨e1, e2, e3, e4, e5⟩ := e
  obtain ⟨c1, hrd, hc1⟩ := read_plain hc e1 e2
  obtain ⟨c2, hat, F, hF⟩ := kw_letters hU hl hr (Utf8.encode a.toNat) hc1
  refine loop_fin hrd ⟨F, fun f hf => ?_⟩ hat (st' := ())
  unfold valueF valueBody
  rw [if_neg (by rw [e3]; decide), if_pos e4,
    show parseKeyword U f a.toNat c1 = some (Utf8.encode a.toNat ++ ls, c2, .ok) from hF f f hf hf, e5]
  have : goodKeyword (U.toLower ([a] ++ ls)) = true := by
    rw [List.singleton_append, hU.lower _ hg]
    rcases hg with h | h | h <;> rw [h] <;> decide
  simp only [this]
  rfl

/-- The loop of `parseField` when it sees a value that is no container. -/
theorem field_plain {U : Uni} {k : Bytes} {a : UInt8} {s r : Bytes} {m m' : Map Bytes Nat}
    (h1 : a < 0x80) (h2 : a ≠ 0x0A) (h3 : isSpace a.toNat = false) (h4 : a ≠ 0x3A) (h5 : a ≠ 0x7B) (h6 : a ≠ 0x5B)
    (h : ∀ c', At c' (a :: s) m → Runs (parseValue U) c' r m') {c : Ctr} (hc : At c (a :: s) m) :
    Loop (fieldF U k) false c r m' := by
  obtain ⟨c1, hr, _⟩ := read_plain hc h1 h2
  obtain ⟨c2, e, g1, _, g2⟩ := unread_read hr
  obtain ⟨c3, hat, F, hF⟩ := h c2 ⟨g1.trans hc.1, g2.trans hc.2⟩
  refine loop_fin hr ⟨F, fun f hf => ?_⟩ hat (st' := false)
  unfold fieldF fieldBody
  rw [if_neg (by rw [h3]; decide), if_neg (show a.toNat ≠ 0x3A from toNat_ne h4), if_neg (by decide),
    if_neg (show a.toNat ≠ 0x7B from toNat_ne h5), if_neg (show a.toNat ≠ 0x5B from toNat_ne h6), e]
  simp only
  rw [hF f hf]
  rfl

theorem field_bracket {U : Uni} {k : Bytes} {s r : Bytes} {m m' : Map Bytes Nat}
    (h : ∀ c', At c' s m → Runs (parseArray U) c' r m') {c : Ctr} (hc : At c (0x5B :: s) m) :
    Loop (fieldF U k) false c r m' := by
  obtain ⟨c1, hr, hc1⟩ := read_plain hc (by decide) (by decide)
  obtain ⟨c2, hat, F, hF⟩ := h c1 hc1
  refine loop_fin hr ⟨F, fun f hf => ?_⟩ hat (st' := false)
  unfold fieldF fieldBody
  rw [if_neg (by decide), if_neg (by decide), if_neg (by decide), if_neg (by decide), if_pos (by decide), hF f hf]
  rfl

theorem field_brace {U : Uni} {k : Bytes} {s r : Bytes} {m : Map Bytes Nat} {as : Bool → List Act}
    (h : ∀ b c' m, At c' s m → Runs (fun f => parseObject U f b) c' r (run m (as b))) {c : Ctr} (hc : At c (0x7B :: s) m) :
    Loop (fieldF U k) false c r (run m (if k = b!"fields" then .forget :: as true else as false)) := by
  obtain ⟨c1, hr, hc1⟩ := read_plain hc (by decide) (by decide)
  by_cases hk : k = b!"fields"
  · rw [if_pos hk]
    obtain ⟨c2, hat, F, hF⟩ := h true { c1 with counts := c1.counts.del k } (m.del k) ⟨hc1.1, by rw [← hc1.2]⟩
    rw [hk] at hat
    refine loop_fin hr ⟨F, fun f hf => ?_⟩ hat (st' := false)
    unfold fieldF fieldBody
    rw [if_neg (by decide), if_neg (by decide), if_neg (by decide), if_pos (by decide), if_pos hk,
      show parseObject U f true _ = _ from hF f hf]
    rfl
  · rw [if_neg hk]
    obtain ⟨c2, hat, F, hF⟩ := h false c1 m hc1
    refine loop_fin hr ⟨F, fun f hf => ?_⟩ hat (st' := false)
    unfold fieldF fieldBody
    rw [if_neg (by decide), if_neg (by decide), if_neg (by decide), if_pos (by decide), if_neg hk,
      show parseObject U f false _ = _ from hF f hf]
    rfl

/-- The end of an object. -/
theorem obj_close {U : Uni} {b st : Bool} {r : Bytes} {m : Map Bytes Nat} {c : Ctr} (hc : At c (0x7D :: r) m) :
    Loop (objF U b) st c r m := by
  obtain ⟨c1, hr, hc1⟩ := read_plain hc (by decide) (by decide)
  refine loop_fin hr ⟨0, fun f hf => ?_⟩ hc1 (st' := st)
  unfold objF objectBody
  rw [if_neg (by decide), if_neg (by decide), if_neg (by decide), if_pos (by decide)]

theorem obj_comma {U : Uni} {b : Bool} {s r : Bytes} {m m' : Map Bytes Nat}
    (h : ∀ c', At c' s m → Loop (objF U b) false c' r m') {c : Ctr} (hc : At c (0x2C :: s) m) :
    Loop (objF U b) true c r m' := by
  obtain ⟨c1, hr, hc1⟩ := read_plain hc (by decide) (by decide)
  refine loop_ok hr ⟨0, fun f hf => ?_⟩ (h c1 hc1)
  unfold objF objectBody
  rw [if_neg (by decide), if_pos (by decide), if_pos (by decide)]

theorem arr_close {U : Uni} {st : Bool} {r : Bytes} {m : Map Bytes Nat} {c : Ctr} (hc : At c (0x5D :: r) m) :
    Loop (arrayF U) st c r m := by
  obtain ⟨c1, hr, hc1⟩ := read_plain hc (by decide) (by decide)
  refine loop_fin hr ⟨0, fun f hf => ?_⟩ hc1 (st' := st)
  unfold arrayF arrayBody
  rw [if_neg (by decide), if_neg (by decide), if_pos (by decide)]

theorem arr_comma {U : Uni} {s r : Bytes} {m m' : Map Bytes Nat}
    (h : ∀ c', At c' s m → Loop (arrayF U) false c' r m') {c : Ctr} (hc : At c (0x2C :: s) m) :
    Loop (arrayF U) true c r m' := by
  obtain ⟨c1, hr, hc1⟩ := read_plain hc (by decide) (by decide)
  refine loop_ok hr ⟨0, fun f hf => ?_⟩ (h c1 hc1)
  unfold arrayF arrayBody
  rw [if_neg (by decide), if_pos (by decide), if_pos (by decide)]

/-- An element of an array. -/
theorem arr_elem {U : Uni} {b : Bytes} {v : Cst} (hv : Val b v) {s r : Bytes} {m m1 m' : Map Bytes Nat}
    (h : ∀ c', At c' (b ++ s) m → Runs (parseValue U) c' s m1) (hk : ∀ c', At c' s m1 → Loop (arrayF U) true c' r m')
    {c : Ctr} (hc : At c (b ++ s) m) : Loop (arrayF U) false c r m' := by
  obtain ⟨a, t, rfl, h1, h2, h3, h4, _, h5⟩ := val_first hv
  obtain ⟨c1, hr, _⟩ := read_plain hc h1 h2
  obtain ⟨c2, e, g1, _, g2⟩ := unread_read hr
  obtain ⟨c3, hat, F, hF⟩ := h c2 ⟨g1.trans hc.1, g2.trans hc.2⟩
  refine loop_ok hr ⟨F, fun f hf => ?_⟩ (hk c3 hat)
  unfold arrayF arrayBody
  rw [if_neg (by rw [h3]; decide), if_neg (show a.toNat ≠ 0x2C from toNat_ne h4),
    if_neg (show a.toNat ≠ 0x5D from toNat_ne h5), if_neg (by decide), e]
  simp only
  rw [hF f hf]
  rfl

/-- The colon after a key. -/
theorem field_colon {U : Uni} {k w2 w3 s r : Bytes} (h2 : Ws w2) (h3 : Ws w3) {m m' : Map Bytes Nat}
    (h : ∀ c', At c' s m → Loop (fieldF U k) false c' r m') {c : Ctr} (hc : At c (w2 ++ 0x3A :: (w3 ++ s)) m) :
    Loop (fieldF U k) true c r m' := by
  refine skip_ws (skips_field U k) h2 (fun c' hc' => ?_) hc
  obtain ⟨c1, hr, hc1⟩ := read_plain hc' (by decide) (by decide)
  refine loop_ok hr ⟨0, fun f hf => ?_⟩ (skip_ws (skips_field U k) h3 h hc1)
  unfold fieldF fieldBody
  rw [if_neg (by decide), if_pos (by decide), if_pos (by decide)]

/-- A member of an object. -/
theorem obj_member {U : Uni} {cnt : Bool} {k s s' r : Bytes} (hk : BodyOk k) {m m1 m' : Map Bytes Nat}
    (hf : ∀ c', At c' s (if cnt then Act.apply m (.one k) else m) → Loop (fieldF U k) true c' s' m1)
    (h : ∀ c', At c' s' m1 → Loop (objF U cnt) true c' r m') {c : Ctr} (hc : At c (0x22 :: (k ++ 0x22 :: s)) m) :
    Loop (objF U cnt) false c r m' := by
  obtain ⟨c1, hr, hc1⟩ := read_plain hc (by decide) (by decide)
  obtain ⟨c2, hat2, F2, hF2⟩ := string_runs hk hc1
  have hat3 : At (if cnt then { c2 with counts := c2.counts.set k ((c2.counts.get k).getD 0 + 1) } else c2) s
      (if cnt then Act.apply m (.one k) else m) := by
    obtain ⟨g1, g2⟩ := hat2
    cases cnt
    · exact ⟨g1, g2⟩
    · exact ⟨g1, by simp [Act.apply, g2]⟩
  obtain ⟨c3, hat, F, hF⟩ := runs_field (hf _ hat3)
  refine loop_ok hr ⟨F2 + F, fun f hf => ?_⟩ (h c3 hat)
  unfold objF objectBody
  rw [if_neg (by decide), if_neg (by decide), if_pos (by decide), if_neg (by decide), hF2 f (by omega)]
  simp only
  rw [show parseField U f k _ = _ from hF f (by omega)]
  rfl

/-! ### All values -/

/-- What is shown for a value. -/
structure ValOK (U : Uni) (b : Bytes) (v : Cst) : Prop where
  value : ∀ r c m, Delim r → At c (b ++ r) m → Loop (valueF U) () c r (run m (valActs v))
  field : ∀ k r c m, Delim r → At c (b ++ r) m → Loop (fieldF U k) false c r (run m (memberActs k v))

theorem valOK_plain {U : Uni} {b : Bytes} {v : Cst} (hv : Val b v) (h : ∀ t, b ≠ 0x7B :: t ∧ b ≠ 0x5B :: t)
    (he : valActs v = []) (he' : ∀ k, memberActs k v = [])
    (hl : ∀ r c m, Delim r → At c (b ++ r) m → Loop (valueF U) () c r m) : ValOK U b v where
  value := fun r c m hr hc => by rw [he]; exact hl r c m hr hc
  field := fun k r c m hr hc => by
    rw [he']
    obtain ⟨a, t, rfl, h1, h2, h3, _, h4, _⟩ := val_first hv
    refine field_plain h1 h2 h3 h4 (fun e => (h t).1 (by rw [e])) (fun e => (h t).2 (by rw [e])) (fun c' hc' => ?_) hc
    exact runs_value (hl r c' m hr hc')

theorem number_not_container {t : Bytes} (h : isNumber t = true) (s : Bytes) : t ≠ 0x7B :: s ∧ t ≠ 0x5B :: s := by
  constructor
  · rintro rfl
    simp [isNumber, isUNumber, isDigit] at h
  · rintro rfl
    simp [isNumber, isUNumber, isDigit] at h

mutual
theorem val_ok {U : Uni} (hU : Latin U) {b : Bytes} {v : Cst} (h : Val b v) : ValOK U b v := by
  match h with
  | .null =>
    exact valOK_plain .null (fun t => by simp) rfl (fun _ => rfl) fun r c m hr hc =>
      value_keyword hU (.inr (.inr rfl)) (by decide) (.inr (.inr rfl)) hr hc
  | .tru =>
    exact valOK_plain .tru (fun t => by simp) rfl (fun _ => rfl) fun r c m hr hc =>
      value_keyword hU (.inl rfl) (by decide) (.inl rfl) hr hc
  | .fls =>
    exact valOK_plain .fls (fun t => by simp) rfl (fun _ => rfl) fun r c m hr hc =>
      value_keyword hU (.inr (.inl rfl)) (by decide) (.inr (.inl rfl)) hr hc
  | .num hn =>
    exact valOK_plain (.num hn) (number_not_container hn) rfl (fun _ => rfl) fun r c m hr hc => value_number hU hn hr hc
  | .str hb =>
    refine valOK_plain (.str hb) (fun t => by simp) rfl (fun _ => rfl) fun r c m hr hc => value_string hb (b := _) ?_
    simpa using hc
  | @Val.arr0 w hw =>
    have key : ∀ r c' m, At c' (w ++ 0x5D :: r) m → Runs (parseArray U) c' r m := fun r c' m hc' =>
      runs_array (skip_ws (skips_array U) hw (fun c2 hc2 => arr_close hc2) hc')
    exact ⟨fun r c m _ hc => value_bracket hU (fun c' hc' => key r c' m hc') (by simpa using hc),
      fun k r c m _ hc => field_bracket (fun c' hc' => key r c' m hc') (by simpa using hc)⟩
  | @Val.arr b es he =>
    have key : ∀ r c' m, At c' (b ++ 0x5D :: r) m → Runs (parseArray U) c' r (run m (elemActs es)) := fun r c' m hc' =>
      runs_array (elems_ok hU he r c' m hc')
    exact ⟨fun r c m _ hc => value_bracket hU (fun c' hc' => key r c' m hc') (by simpa using hc),
      fun k r c m _ hc => field_bracket (fun c' hc' => key r c' m hc') (by simpa using hc)⟩
  | @Val.obj0 w hw =>
    have key : ∀ r n c' m, At c' (w ++ 0x7D :: r) m → Runs (fun f => parseObject U f n) c' r (run m (objActs n [])) :=
      fun r n c' m hc' => runs_object (skip_ws (skips_obj U n) hw (fun c2 hc2 => by
        rw [objActs]; exact obj_close hc2) hc')
    refine ⟨fun r c m _ hc => ?_, fun k r c m _ hc => ?_⟩
    · rw [valActs]
      exact value_brace hU (fun c' hc' => key r false c' m hc') (by simpa using hc)
    · rw [memberActs]
      exact field_brace (as := fun n => objActs n []) (fun n c' m hc' => key r n c' m hc') (by simpa using hc)
  | @Val.obj b ms hm =>
    have key : ∀ r n c' m, At c' (b ++ 0x7D :: r) m → Runs (fun f => parseObject U f n) c' r (run m (objActs n ms)) :=
      fun r n c' m hc' => runs_object (members_ok hU hm n r c' m hc')
    refine ⟨fun r c m _ hc => ?_, fun k r c m _ hc => ?_⟩
    · rw [valActs]
      exact value_brace hU (fun c' hc' => key r false c' m hc') (by simpa using hc)
    · rw [memberActs]
      exact field_brace (as := fun n => objActs n ms) (fun n c' m hc' => key r n c' m hc') (by simpa using hc)
theorem elems_ok {U : Uni} (hU : Latin U) {b : Bytes} {es : List Cst} (h : Elems b es) (r : Bytes) (c : Ctr)
    (m : Map Bytes Nat) (hc : At c (b ++ 0x5D :: r) m) : Loop (arrayF U) false c r (run m (elemActs es)) := by
  match h with
  | @Elems.one w1 b w2 v h1 hv h2 =>
    rw [List.append_assoc, List.append_assoc] at hc
    refine skip_ws (skips_array U) h1 (fun c1 hc1 => ?_) hc
    refine arr_elem hv (m1 := run m (valActs v)) (fun c2 hc2 => ?_) (fun c2 hc2 => ?_) hc1
    · exact runs_value ((val_ok hU hv).value _ _ _ (Ws.delim h2 (by simp [Delim])) hc2)
    · simp only [elemActs, List.append_nil]
      exact skip_ws (skips_array U) h2 (fun c3 hc3 => arr_close hc3) hc2
  | @Elems.cons w1 b w2 v q es h1 hv h2 he =>
    rw [List.append_assoc, List.append_assoc, List.append_assoc, List.cons_append] at hc
    refine skip_ws (skips_array U) h1 (fun c1 hc1 => ?_) hc
    refine arr_elem hv (m1 := run m (valActs v)) (fun c2 hc2 => ?_) (fun c2 hc2 => ?_) hc1
    · exact runs_value ((val_ok hU hv).value _ _ _ (Ws.delim h2 (by simp [Delim])) hc2)
    · rw [elemActs, run_append]
      refine skip_ws (skips_array U) h2 (fun c3 hc3 => ?_) hc2
      exact arr_comma (fun c4 hc4 => elems_ok hU he r c4 _ hc4) hc3
theorem members_ok {U : Uni} (hU : Latin U) {b : Bytes} {ms : List (Bytes × Cst)} (h : Members b ms) (n : Bool)
    (r : Bytes) (c : Ctr) (m : Map Bytes Nat) (hc : At c (b ++ 0x7D :: r) m) :
    Loop (objF U n) false c r (run m (objActs n ms)) := by
  match h with
  | @Members.one w1 k w2 w3 b w4 v h1 hk h2 h3 hv h4 =>
    simp only [List.append_assoc, List.cons_append] at hc
    refine skip_ws (skips_obj U n) h1 (fun c1 hc1 => ?_) hc
    refine obj_member hk (s' := w4 ++ 0x7D :: r) (m1 := run (if n then Act.apply m (.one k) else m) (memberActs k v)) (fun c2 hc2 => ?_) (fun c2 hc2 => ?_) hc1
    · refine field_colon h2 h3 (fun c3 hc3 => ?_) hc2
      exact (val_ok hU hv).field k _ _ _ (Ws.delim h4 (by simp [Delim])) hc3
    · have e : run m (objActs n [(k, v)]) = run (if n then Act.apply m (.one k) else m) (memberActs k v) := by
        simp only [objActs, List.append_nil, run_append]
        cases n <;> rfl
      rw [e]
      exact skip_ws (skips_obj U n) h4 (fun c3 hc3 => obj_close hc3) hc2
  | @Members.cons w1 k w2 w3 b w4 v q ms h1 hk h2 h3 hv h4 hm =>
    simp only [List.append_assoc, List.cons_append] at hc
    refine skip_ws (skips_obj U n) h1 (fun c1 hc1 => ?_) hc
    refine obj_member hk (s' := w4 ++ 0x2C :: (q ++ 0x7D :: r)) (m1 := run (if n then Act.apply m (.one k) else m) (memberActs k v)) (fun c2 hc2 => ?_) (fun c2 hc2 => ?_) hc1
    · refine field_colon h2 h3 (fun c3 hc3 => ?_) hc2
      exact (val_ok hU hv).field k _ _ _ (Ws.delim h4 (by simp [Delim])) hc3
    · have e : run m (objActs n ((k, v) :: ms)) = run (run (if n then Act.apply m (.one k) else m) (memberActs k v)) (objActs n ms) := by
        simp only [objActs, run_append]
        cases n <;> rfl
      rw [e]
      refine skip_ws (skips_obj U n) h4 (fun c3 hc3 => ?_) hc2
      exact obj_comma (fun c4 hc4 => members_ok hU hm n r c4 _ hc4) hc3
end

/-- `Parse` on white space, an object and anything. -/
theorem parse_object {U : Uni} (hU : Latin U) {w b : Bytes} {ms : List (Bytes × Cst)} (hw : Ws w) (hv : Val b (.obj ms))
    (r : Bytes) : ∃ c, parse U (w ++ (b ++ r)) = some (c, .ok) ∧ c.rest = r ∧ c.counts = run [] (objActs true ms) := by
  have inner : ∃ b', b = 0x7B :: b' ∧ ∀ c' m, At c' (b' ++ r) m → Runs (fun f => parseObject U f true) c' r (run m (objActs true ms)) := by
    cases hv with
    | @obj0 w hw =>
      refine ⟨_, rfl, fun c' m hc' => runs_object ?_⟩
      rw [List.append_assoc] at hc'
      exact skip_ws (skips_obj U true) hw (fun c2 hc2 => by rw [objActs]; exact obj_close hc2) hc'
    | @obj b ms hm =>
      refine ⟨_, rfl, fun c' m hc' => runs_object ?_⟩
      rw [List.append_assoc] at hc'
      exact members_ok hU hm true r c' m hc'
  obtain ⟨b', rfl, hin⟩ := inner
  have hs : Skips (fun f => parseBody (parseObject U f)) := by
    intro f st r c h; simp [parseBody, h]
  have hloop : Loop (fun f => parseBody (parseObject U f)) () (new (w ++ (0x7B :: b' ++ r))) r (run [] (objActs true ms)) := by
    refine skip_ws hs hw (fun c1 hc1 => ?_) (s := 0x7B :: (b' ++ r)) (m := []) ⟨rfl, rfl⟩
    obtain ⟨c2, hr, hc2⟩ := read_plain hc1 (by decide) (by decide)
    obtain ⟨c3, hat, F, hF⟩ := hin c2 [] hc2
    refine loop_fin hr ⟨F, fun f hf => ?_⟩ hat (st' := ())
    unfold parseBody
    rw [if_neg (by decide), if_pos (by decide), show parseObject U f true _ = _ from hF f hf]
    rfl
  obtain ⟨_, c', hat, F, hF⟩ := hloop
  have total := parseWith_ends U (2 * (w ++ (0x7B :: b' ++ r)).length + 4) (new (w ++ (0x7B :: b' ++ r))) (by
    show 2 * (w ++ (0x7B :: b' ++ r)).length + 2 ≤ _; omega)
  obtain ⟨c2, s, n, he, _⟩ := total
  have big := parseWith_mono U (Nat.le_add_right _ F) _ _ he
  have : parseWith U (2 * (w ++ (0x7B :: b' ++ r)).length + 4 + F) (new (w ++ (0x7B :: b' ++ r))) = some (c', .ok) := by
    unfold parseWith
    rw [hF _ _ (by omega) (by omega)]
    rfl
  rw [this] at big
  cases big
  exact ⟨c', he, hat.1, hat.2⟩

end Verif.Count
