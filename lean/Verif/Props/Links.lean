import Verif.Server.Pages
import Verif.Props.BenchData
import Verif.Score.Keeper

/-
C81: links lead to what they name. C82: texts.
-/

namespace Verif.Props.Links

open Verif Verif.Go Verif.Server Verif.Data

/-! ### Specification -/

/-- There is a percent sign with two hexadecimal digits. -/
def Escaped (t : Bytes) : Prop := ∃ u a b v, t = u ++ 0x25 :: a :: b :: v ∧ (unhex a).isSome ∧ (unhex b).isSome

/-- Text that is safe between two slashes of a link: no slash, question mark or number sign, and no escape. -/
structure Plain (t : Bytes) : Prop where
  slash : (0x2F : UInt8) ∉ t
  query : (0x3F : UInt8) ∉ t
  fragment : (0x23 : UInt8) ∉ t
  escape : ¬ Escaped t

/-- The link to the page of a test (cmd/server/pages/home.gohtml:37, 47). -/
def testLink (t : Bytes) : Bytes := b!"/go-slog/test/" ++ normalize t ++ b!".html"
/-- The link to the page of a handler (cmd/server/pages/home.gohtml:27, scores.gohtml:46, ...). -/
def handlerLink (t : Bytes) : Bytes := b!"/go-slog/handler/" ++ normalize t ++ b!".html"
/-- The link to the page of a keeper (cmd/server/pages/home.gohtml:57). -/
def keeperLink (t : Bytes) : Bytes := b!"/go-slog/scores/" ++ normalize t ++ b!"/summary.html"
/-- The link to the page of a text (cmd/server/pages/home.gohtml:72). -/
def textLink (t : Bytes) : Bytes := b!"text/" ++ normalize t ++ b!"/display.html"
/-- The link to a bar chart (cmd/server/pages/test.gohtml:62-67, handler.gohtml:84-89). -/
def chartLink (t item : Bytes) : Bytes := b!"/go-slog/chart/" ++ normalize t ++ b!"/" ++ item ++ b!".svg"

/-- What is sent when a link is followed on the page with the path `base`. -/
def goes (base link : Bytes) : Option (Target × List (Bytes × Bytes)) := (follow base link).bind route

/-! ### Text between slashes -/

theorem split_ne (s : Bytes) : splitSlash s ≠ [] := by
  cases s with
  | nil => simp [splitSlash]
  | cons a s =>
    rw [splitSlash]
    split
    · simp
    · split <;> simp

theorem split_plain {s : Bytes} (h : (0x2F : UInt8) ∉ s) : splitSlash s = [s] := by
  induction s with
  | nil => rfl
  | cons a s ih =>
    rw [splitSlash, if_neg (fun e => h (by simp [e])), ih (fun hc => h (by simp [hc]))]

theorem split_slash {a : Bytes} (h : (0x2F : UInt8) ∉ a) (b : Bytes) : splitSlash (a ++ 0x2F :: b) = a :: splitSlash b := by
  induction a with
  | nil => simp [splitSlash]
  | cons x a ih =>
    rw [List.cons_append, splitSlash, if_neg (fun e => h (by simp [e])), ih (fun hc => h (by simp [hc]))]

theorem join_split (s : Bytes) : joinWith b!"/" (splitSlash s) = s := by
  induction s with
  | nil => rfl
  | cons a s ih =>
    rw [splitSlash]
    split
    · rename_i e
      obtain ⟨p, ps, hp⟩ := List.exists_cons_of_ne_nil (split_ne s)
      rw [hp] at ih ⊢
      rw [joinWith, ih, e]
      · rfl
      · simp
    · split
      · rename_i e; exact absurd e (split_ne s)
      · rename_i p ps hp
        rw [hp] at ih
        cases ps with
        | nil => rw [joinWith] at ih ⊢; rw [ih]
        | cons q qs =>
          rw [joinWith] at ih ⊢
          · rw [← ih]; simp
          · simp
          · simp

theorem mem_split {s p : Bytes} (h : p ∈ splitSlash s) : (0x2F : UInt8) ∉ p := by
  induction s generalizing p with
  | nil => simp [splitSlash] at h; simp [h]
  | cons a s ih =>
    rw [splitSlash] at h
    split at h
    · rcases List.mem_cons.1 h with rfl | h
      · simp
      · exact ih h
    · rename_i ha
      split at h
      · rename_i e; exact absurd e (split_ne s)
      · rename_i q qs hq
        rcases List.mem_cons.1 h with rfl | h
        · have := ih (p := q) (by rw [hq]; simp)
          simp only [List.mem_cons, not_or]
          exact ⟨fun e => ha e.symm, this⟩
        · exact ih (by rw [hq]; simp [h])

/-! ### Escapes -/

/-- What is left of text after it is put into a link and taken out again. -/
def once : Bytes → Bytes
  | [] => []
  | c :: s =>
    if c = 0x25 then
      match s with
      | a :: b :: r =>
        match unhex a, unhex b with
        | some x, some y => (x <<< 4 ||| y) :: once r
        | _, _ => c :: once (a :: b :: r)
      | s => c :: once s
    else c :: once s

theorem keeps_ne : ∀ c : UInt8, urlKeeps c = true → c ≠ 0x25 := by
  set_option maxRecDepth 100000 in
  apply forall_byte; decide +kernel

theorem hex_keeps : ∀ c : UInt8, (unhex c).isSome = true → urlKeeps c = true ∧ c ≠ 0x2F ∧ c ≠ 0x3F ∧ c ≠ 0x23 ∧ c ≠ 0x25 := by
  set_option maxRecDepth 100000 in
  apply forall_byte; decide +kernel

theorem hex_digit : ∀ c : UInt8, unhex (hexDigit (c >>> 4)) = some (c >>> 4) ∧ unhex (hexDigit (c &&& 15)) = some (c &&& 15) ∧
    ((c >>> 4) <<< 4 ||| (c &&& 15)) = c := by
  set_option maxRecDepth 100000 in
  apply forall_byte; decide +kernel

theorem hexDigit_ne : ∀ c : UInt8, ∀ x ∈ ([hexDigit (c >>> 4), hexDigit (c &&& 15), 0x25] : Bytes), x ≠ 0x2F ∧ x ≠ 0x3F ∧ x ≠ 0x23 := by
  set_option maxRecDepth 100000 in
  apply forall_byte; decide +kernel

theorem special_keeps {c : UInt8} (h : c = 0x2F ∨ c = 0x3F ∨ c = 0x23) : urlKeeps c = true ∧ unhex c = none := by
  rcases h with rfl | rfl | rfl <;> decide

theorem decode_plain {c : UInt8} (hc : c ≠ 0x25) (s : Bytes) : pctDecode (c :: s) = (pctDecode s).map (c :: ·) := by
  match s with
  | [] => simp [pctDecode, hc]
  | [a] => rw [pctDecode, if_neg hc]; simp
  | a :: b :: r => rw [pctDecode, if_neg hc]

theorem once_plain {c : UInt8} (hc : c ≠ 0x25) (s : Bytes) : once (c :: s) = c :: once s := by
  match s with
  | [] => simp [once, hc]
  | [a] => rw [once, if_neg hc]; simp
  | a :: b :: r => rw [once, if_neg hc]

theorem decode_hex {a b x y : UInt8} (ha : unhex a = some x) (hb : unhex b = some y) (s : Bytes) :
    pctDecode (0x25 :: a :: b :: s) = (pctDecode s).map ((x <<< 4 ||| y) :: ·) := by
  rw [pctDecode]
  simp only [if_true, ha, hb]

theorem decode_code (c : UInt8) (s : Bytes) :
    pctDecode (0x25 :: hexDigit (c >>> 4) :: hexDigit (c &&& 15) :: s) = (pctDecode s).map (c :: ·) := by
  obtain ⟨d1, d2, d3⟩ := hex_digit c
  rw [decode_hex d1 d2, d3]

theorem decode_normalize : ∀ (n : Nat) (t r : Bytes), t.length ≤ n →
    pctDecode (normalize t ++ r) = (pctDecode r).map (once t ++ ·) := by
  intro n
  induction n with
  | zero =>
    intro t r h
    have : t = [] := List.length_eq_zero_iff.1 (by omega)
    subst this
    simp [normalize, once]
  | succ n ih =>
    intro t r h
    cases t with
    | nil => simp [normalize, once]
    | cons c s =>
      have hs : s.length ≤ n := by simpa using h
      by_cases hc : c = 0x25
      · subst hc
        have e0 : urlKeeps 0x25 = false := by decide
        have plain : twoHex s = false → once (0x25 :: s) = 0x25 :: once s → pctDecode (normalize (0x25 :: s) ++ r) = (pctDecode r).map (once (0x25 :: s) ++ ·) := by
          intro h1 h2
          rw [normalize, e0, h1, h2]
          have := decode_code 0x25 (normalize s ++ r)
          simp only [Bool.false_or, Bool.false_eq_true, if_false, Bool.and_false, List.cons_append]
          rw [this, ih s r hs, Option.map_map]
          rfl
        match s with
        | [] => exact plain rfl rfl
        | [a] => exact plain rfl rfl
        | a :: b :: s =>
          cases ha : unhex a with
          | none => exact plain (by simp [twoHex, ha]) (by rw [once]; simp [ha])
          | some x =>
            cases hb : unhex b with
            | none => exact plain (by simp [twoHex, hb]) (by rw [once]; simp [ha, hb])
            | some y =>
              have ka := (hex_keeps a (by rw [ha]; rfl)).1
              have kb := (hex_keeps b (by rw [hb]; rfl)).1
              have e1 : normalize (0x25 :: a :: b :: s) = 0x25 :: a :: b :: normalize s := by
                rw [normalize, normalize, normalize]
                simp [twoHex, ha, hb, ka, kb]
              have e2 : once (0x25 :: a :: b :: s) = (x <<< 4 ||| y) :: once s := by
                rw [once]; simp [ha, hb]
              rw [e1, e2, List.cons_append, List.cons_append, List.cons_append, decode_hex ha hb, ih s r (by simp at hs; omega), Option.map_map]
              rfl
      · have e2 : once (c :: s) = c :: once s := once_plain hc s
        rw [e2]
        by_cases hk : urlKeeps c = true
        · have e1 : normalize (c :: s) = c :: normalize s := by rw [normalize]; simp [hk]
          rw [e1, List.cons_append, decode_plain hc, ih s r hs, Option.map_map]
          rfl
        · have e1 : normalize (c :: s) = 0x25 :: hexDigit (c >>> 4) :: hexDigit (c &&& 15) :: normalize s := by
            rw [normalize]; simp [hk, hc]
          rw [e1, List.cons_append, List.cons_append, List.cons_append, decode_code, ih s r hs, Option.map_map]
          rfl

theorem decode_clean {s : Bytes} (h : (0x25 : UInt8) ∉ s) (r : Bytes) : pctDecode (s ++ r) = (pctDecode r).map (s ++ ·) := by
  induction s with
  | nil => simp
  | cons c s ih =>
    rw [List.cons_append, decode_plain (fun e => h (by simp [e])), ih (fun hc => h (by simp [hc])), Option.map_map]
    rfl

theorem decode_self {s : Bytes} (h : (0x25 : UInt8) ∉ s) : pctDecode s = some s := by
  have := decode_clean h []
  simpa [pctDecode] using this

theorem once_len : ∀ (n : Nat) (t : Bytes), t.length ≤ n → (once t).length ≤ t.length ∧ (Escaped t → (once t).length < t.length) ∧
    (¬ Escaped t → once t = t) := by
  intro n
  induction n with
  | zero =>
    intro t h
    have : t = [] := List.length_eq_zero_iff.1 (by omega)
    subst this
    refine ⟨by simp [once], ?_, fun _ => rfl⟩
    rintro ⟨u, a, b, v, e, _⟩
    simp at e
  | succ n ih =>
    intro t h
    cases t with
    | nil =>
      refine ⟨by simp [once], ?_, fun _ => rfl⟩
      rintro ⟨u, a, b, v, e, _⟩
      simp at e
    | cons c s =>
      have hs : s.length ≤ n := by simpa using h
      obtain ⟨i1, i2, i3⟩ := ih s hs
      have plain : once (c :: s) = c :: once s → (c = 0x25 → ∀ a b v, s = a :: b :: v → ¬ ((unhex a).isSome ∧ (unhex b).isSome)) →
          (once (c :: s)).length ≤ (c :: s).length ∧ (Escaped (c :: s) → (once (c :: s)).length < (c :: s).length) ∧
          (¬ Escaped (c :: s) → once (c :: s) = c :: s) := by
        intro h1 h2
        rw [h1]
        refine ⟨by simpa using i1, ?_, fun hn => ?_⟩
        · rintro ⟨u, a, b, v, e, ha, hb⟩
          cases u with
          | nil =>
            injection e with e1 e2
            exact absurd ⟨ha, hb⟩ (h2 e1 a b v e2)
          | cons x u =>
            injection e with e1 e2
            simpa using i2 ⟨u, a, b, v, e2, ha, hb⟩
        · rw [i3 (fun ⟨u, a, b, v, e, ha, hb⟩ => hn ⟨c :: u, a, b, v, by rw [e]; rfl, ha, hb⟩)]
      by_cases hc : c = 0x25
      · subst hc
        match s with
        | [] => exact plain rfl (fun _ a b v e => by cases e)
        | [a] => exact plain rfl (fun _ a b v e => by cases e)
        | a :: b :: s =>
          cases ha : unhex a with
          | none => exact plain (by rw [once]; simp [ha]) (fun _ a' b' v e => by cases e; simp [ha])
          | some x =>
            cases hb : unhex b with
            | none => exact plain (by rw [once]; simp [ha, hb]) (fun _ a' b' v e => by cases e; simp [hb])
            | some y =>
              have e2 : once (0x25 :: a :: b :: s) = (x <<< 4 ||| y) :: once s := by
                rw [once]; simp [ha, hb]
              have i4 := (ih s (by simp at hs; omega)).1
              rw [e2]
              refine ⟨by simp; omega, fun _ => by simp; omega, fun hn => ?_⟩
              exact absurd ⟨[], a, b, s, rfl, by simp [ha], by simp [hb]⟩ hn
      · exact plain (once_plain hc s) (fun e => absurd e hc)

theorem mem_normalize {c : UInt8} (hc : c = 0x2F ∨ c = 0x3F ∨ c = 0x23) (t : Bytes) : c ∈ normalize t ↔ c ∈ t := by
  induction t with
  | nil => simp [normalize]
  | cons x t ih =>
    rw [normalize]
    split
    · simp [ih]
    · rename_i hk
      have hx : c ≠ x := by
        rintro rfl
        exact hk (by simp [(special_keeps hc).1])
      have hd := hexDigit_ne x
      have d : ∀ y ∈ ([hexDigit (x >>> 4), hexDigit (x &&& 15), 0x25] : Bytes), c ≠ y := by
        rintro y hy rfl
        obtain ⟨h1, h2, h3⟩ := hd c hy
        rcases hc with e | e | e
        · exact h1 e
        · exact h2 e
        · exact h3 e
      have d1 := d _ (List.mem_cons_self)
      have d2 := d (hexDigit (x &&& 15)) (by simp)
      have d3 := d 0x25 (by simp)
      simp only [List.mem_cons, d1, d2, d3, hx, false_or, ih]

theorem twoHex_append {s : Bytes} {c : UInt8} (hc : unhex c = none) (v : Bytes) : twoHex (s ++ c :: v) = twoHex s := by
  match s with
  | [] => cases v <;> simp [twoHex, hc]
  | [a] => simp [twoHex, hc]
  | a :: b :: s => rfl

theorem normalize_special {c : UInt8} (hc : c = 0x2F ∨ c = 0x3F ∨ c = 0x23) (u v : Bytes) :
    normalize (u ++ c :: v) = normalize u ++ c :: normalize v := by
  obtain ⟨h1, h2⟩ := special_keeps hc
  induction u with
  | nil => simp [normalize, h1]
  | cons x u ih =>
    rw [List.cons_append, normalize, normalize, twoHex_append h2, ih]
    split <;> rfl

/-! ### Following links -/

theorem cut_clean {a : Bytes} (h1 : (0x3F : UInt8) ∉ a) (h2 : (0x23 : UInt8) ∉ a) (b : Bytes) : cut (a ++ b) = a ++ cut b := by
  unfold cut
  refine List.takeWhile_append_of_pos fun x hx => ?_
  have e1 : x ≠ 0x3F := fun e => h1 (e ▸ hx)
  have e2 : x ≠ 0x23 := fun e => h2 (e ▸ hx)
  simp [e1, e2]

theorem cut_self {a : Bytes} (h1 : (0x3F : UInt8) ∉ a) (h2 : (0x23 : UInt8) ∉ a) : cut a = a := by
  have := cut_clean h1 h2 []
  simpa [cut] using this

theorem cut_stop {c : UInt8} (hc : c = 0x3F ∨ c = 0x23) (b : Bytes) : cut (c :: b) = [] := by
  rcases hc with rfl | rfl <;> simp [cut]

/-- The first question mark or number sign. -/
theorem first_stop {t : Bytes} (h : (0x3F : UInt8) ∈ t ∨ (0x23 : UInt8) ∈ t) :
    ∃ u c v, t = u ++ c :: v ∧ (c = 0x3F ∨ c = 0x23) ∧ (0x3F : UInt8) ∉ u ∧ (0x23 : UInt8) ∉ u := by
  induction t with
  | nil => simp at h
  | cons x t ih =>
    by_cases hx : x = 0x3F ∨ x = 0x23
    · exact ⟨[], x, t, rfl, hx, by simp, by simp⟩
    · rw [not_or] at hx
      have : (0x3F : UInt8) ∈ t ∨ (0x23 : UInt8) ∈ t := by
        rcases h with h | h <;> rcases List.mem_cons.1 h with h | h
        · exact absurd h.symm hx.1
        · exact .inl h
        · exact absurd h.symm hx.2
        · exact .inr h
      obtain ⟨u, c, v, e, h1, h2, h3⟩ := ih this
      refine ⟨x :: u, c, v, by rw [e]; rfl, h1, ?_, ?_⟩
      · simp only [List.mem_cons, not_or]; exact ⟨fun e => hx.1 e.symm, h2⟩
      · simp only [List.mem_cons, not_or]; exact ⟨fun e => hx.2 e.symm, h3⟩

theorem dropDots_cons {kept : List Bytes} {s : Bytes} {rest : List Bytes} (h1 : pctDecode s ≠ some b!"..") (h2 : pctDecode s ≠ some b!".") :
    dropDots kept (s :: rest) = dropDots (s :: kept) rest := by
  rw [dropDots, if_neg h1, if_neg h2]

/-- A part of a link that is not changed. -/
structure Fixed (s : Bytes) : Prop where
  slash : (0x2F : UInt8) ∉ s
  query : (0x3F : UInt8) ∉ s
  fragment : (0x23 : UInt8) ∉ s
  percent : (0x25 : UInt8) ∉ s
  dot : s ≠ b!"."
  dots : s ≠ b!".."

theorem Fixed.keep {s : Bytes} (h : Fixed s) (kept rest : List Bytes) : dropDots kept (s :: rest) = dropDots (s :: kept) rest := by
  have e := decode_self h.percent
  refine dropDots_cons ?_ ?_ <;> rw [e] <;> simp
  · exact h.dots
  · exact h.dot

theorem fixed_root : Fixed b!"go-slog" := ⟨by decide, by decide, by decide, by decide, by decide, by decide⟩

theorem decode_dots (t : Bytes) : pctDecode (normalize t) = some (once t) := by
  have := decode_normalize t.length t [] (Nat.le_refl _)
  simpa [pctDecode] using this

theorem follow_abs {base link p : Bytes} (h : cut link = 0x2F :: p) :
    follow base link = pctDecode (joinWith b!"/" (dropDots [] (splitSlash p))) := by
  simp only [follow, h]

/-- A link that is cut within the text. -/
theorem follow_cut {base D u post : Bytes} (hD : Fixed D) {c : UInt8} (hc : c = 0x3F ∨ c = 0x23) (v : Bytes)
    (h1 : (0x2F : UInt8) ∉ u) (h2 : (0x3F : UInt8) ∉ u) (h3 : (0x23 : UInt8) ∉ u) :
    follow base (b!"/go-slog/" ++ D ++ 0x2F :: normalize (u ++ c :: v) ++ post) =
      if once u = b!".." then some b!"go-slog/"
      else if once u = b!"." then some (b!"go-slog/" ++ D ++ b!"/")
      else some (b!"go-slog/" ++ D ++ 0x2F :: once u) := by
  have hn1 : (0x2F : UInt8) ∉ normalize u := fun h => h1 ((mem_normalize (.inl rfl) u).1 h)
  have hn2 : (0x3F : UInt8) ∉ normalize u := fun h => h2 ((mem_normalize (.inr (.inl rfl)) u).1 h)
  have hn3 : (0x23 : UInt8) ∉ normalize u := fun h => h3 ((mem_normalize (.inr (.inr rfl)) u).1 h)
  have hcut : cut (b!"/go-slog/" ++ D ++ 0x2F :: normalize (u ++ c :: v) ++ post) = 0x2F :: (b!"go-slog" ++ 0x2F :: (D ++ 0x2F :: normalize u)) := by
    rw [normalize_special (.inr hc)]
    have e : b!"/go-slog/" ++ D ++ 0x2F :: (normalize u ++ c :: normalize v) ++ post =
        (b!"/go-slog/" ++ D ++ 0x2F :: normalize u) ++ c :: (normalize v ++ post) := by simp
    rw [e, cut_clean, cut_stop hc]
    · simp
    · simp [hD.query, hn2]
    · simp [hD.fragment, hn3]
  rw [follow_abs hcut, split_slash fixed_root.slash, split_slash hD.slash, split_plain hn1, fixed_root.keep, hD.keep, dropDots, decode_dots]
  by_cases h : once u = b!".."
  · rw [if_pos (congrArg some h), if_pos h]
    simp [dropDots, joinWith, pctDecode]
  · rw [if_neg (fun e => h (Option.some.inj e)), if_neg h]
    by_cases h' : once u = b!"."
    · rw [if_pos (congrArg some h'), if_pos h']
      simp only [dropDots, if_true, List.reverse_cons, List.reverse_nil, List.nil_append, List.cons_append, joinWith]
      rw [decode_self]
      · simp
      · simp [hD.percent]
    · rw [if_neg (fun e => h' (Option.some.inj e)), if_neg h']
      have e : joinWith b!"/" (dropDots [normalize u, D, b!"go-slog"] []) = (b!"go-slog/" ++ D ++ b!"/") ++ normalize u := by
        simp [dropDots, joinWith]
      rw [e, decode_clean (by simp [hD.percent]), decode_dots]
      simp

/-- A link with the text at the end, before a suffix. -/
theorem follow_last {base D t e : Bytes} (hD : Fixed D) (he : Fixed e) (hlen : 2 < e.length)
    (h1 : (0x2F : UInt8) ∉ t) (h2 : (0x3F : UInt8) ∉ t) (h3 : (0x23 : UInt8) ∉ t) :
    follow base (b!"/go-slog/" ++ D ++ 0x2F :: normalize t ++ e) = some (b!"go-slog/" ++ D ++ 0x2F :: once t ++ e) := by
  have hn1 : (0x2F : UInt8) ∉ normalize t := fun h => h1 ((mem_normalize (.inl rfl) t).1 h)
  have hn2 : (0x3F : UInt8) ∉ normalize t := fun h => h2 ((mem_normalize (.inr (.inl rfl)) t).1 h)
  have hn3 : (0x23 : UInt8) ∉ normalize t := fun h => h3 ((mem_normalize (.inr (.inr rfl)) t).1 h)
  have hcut : cut (b!"/go-slog/" ++ D ++ 0x2F :: normalize t ++ e) = 0x2F :: (b!"go-slog" ++ 0x2F :: (D ++ 0x2F :: (normalize t ++ e))) := by
    rw [cut_self]
    · simp
    · simp [hD.query, hn2, he.query]
    · simp [hD.fragment, hn3, he.fragment]
  have hdec : pctDecode (normalize t ++ e) = some (once t ++ e) := by
    rw [decode_normalize t.length t e (Nat.le_refl _), decode_self he.percent]; rfl
  rw [follow_abs hcut, split_slash fixed_root.slash, split_slash hD.slash, split_plain (by simp [hn1, he.slash]), fixed_root.keep, hD.keep, dropDots_cons]
  · have e' : joinWith b!"/" (dropDots [normalize t ++ e, D, b!"go-slog"] []) = (b!"go-slog/" ++ D ++ b!"/") ++ (normalize t ++ e) := by
      simp [dropDots, joinWith]
    rw [e', decode_clean (by simp [hD.percent]), hdec]
    simp
  · rw [hdec]
    intro hc
    have := congrArg List.length (Option.some.inj hc)
    simp at this
    omega
  · rw [hdec]
    intro hc
    have := congrArg List.length (Option.some.inj hc)
    simp at this
    omega

/-- A link with the text between slashes. -/
theorem follow_mid {base D t q : Bytes} (hD : Fixed D) (hq : Fixed q) (h1 : (0x2F : UInt8) ∉ t) (h2 : (0x3F : UInt8) ∉ t) (h3 : (0x23 : UInt8) ∉ t) :
    follow base (b!"/go-slog/" ++ D ++ 0x2F :: normalize t ++ 0x2F :: q) =
      if once t = b!".." then some (b!"go-slog/" ++ q)
      else if once t = b!"." then some (b!"go-slog/" ++ D ++ 0x2F :: q)
      else some (b!"go-slog/" ++ D ++ 0x2F :: once t ++ 0x2F :: q) := by
  have hn1 : (0x2F : UInt8) ∉ normalize t := fun h => h1 ((mem_normalize (.inl rfl) t).1 h)
  have hn2 : (0x3F : UInt8) ∉ normalize t := fun h => h2 ((mem_normalize (.inr (.inl rfl)) t).1 h)
  have hn3 : (0x23 : UInt8) ∉ normalize t := fun h => h3 ((mem_normalize (.inr (.inr rfl)) t).1 h)
  have hcut : cut (b!"/go-slog/" ++ D ++ 0x2F :: normalize t ++ 0x2F :: q) =
      0x2F :: (b!"go-slog" ++ 0x2F :: (D ++ 0x2F :: (normalize t ++ 0x2F :: q))) := by
    rw [cut_self]
    · simp
    · simp [hD.query, hn2, hq.query]
    · simp [hD.fragment, hn3, hq.fragment]
  rw [follow_abs hcut, split_slash fixed_root.slash, split_slash hD.slash, split_slash hn1, split_plain hq.slash, fixed_root.keep, hD.keep, dropDots, decode_dots]
  by_cases h : once t = b!".."
  · rw [if_pos (congrArg some h), if_pos h, if_neg (by simp), hq.keep]
    have e : joinWith b!"/" (dropDots (q :: [D, b!"go-slog"].tail) []) = b!"go-slog/" ++ q := by simp [dropDots, joinWith]
    rw [e, decode_self]
    simp [hq.percent]
  · rw [if_neg (fun e => h (Option.some.inj e)), if_neg h]
    by_cases h' : once t = b!"."
    · rw [if_pos (congrArg some h'), if_pos h', if_neg (by simp), hq.keep]
      have e : joinWith b!"/" (dropDots [q, D, b!"go-slog"] []) = b!"go-slog/" ++ D ++ 0x2F :: q := by simp [dropDots, joinWith]
      rw [e, decode_self]
      simp [hD.percent, hq.percent]
    · rw [if_neg (fun e => h' (Option.some.inj e)), if_neg h', hq.keep]
      have e : joinWith b!"/" (dropDots [q, normalize t, D, b!"go-slog"] []) =
          (b!"go-slog/" ++ D ++ b!"/") ++ (normalize t ++ 0x2F :: q) := by simp [dropDots, joinWith]
      have hq' : (0x25 : UInt8) ∉ (0x2F :: q : Bytes) := by simp [hq.percent]
      rw [e, decode_clean (by simp [hD.percent]), decode_normalize t.length t _ (Nat.le_refl _), decode_self hq']
      simp

/-- The text link of the home page, under both of its addresses, is the absolute one. -/
theorem follow_text {base : Bytes} (hb : base = b!"go-slog/" ∨ base = b!"go-slog/index.html") (t : Bytes) :
    follow base (textLink t) = follow base (b!"/go-slog/" ++ b!"text" ++ 0x2F :: normalize t ++ 0x2F :: b!"display.html") := by
  have h1 : cut (textLink t) = b!"text/" ++ cut (normalize t ++ b!"/display.html") := by
    unfold textLink
    rw [List.append_assoc, cut_clean (by decide) (by decide)]
  have h2 : cut (b!"/go-slog/" ++ b!"text" ++ 0x2F :: normalize t ++ 0x2F :: b!"display.html") =
      b!"/go-slog/text/" ++ cut (normalize t ++ b!"/display.html") := by
    rw [← cut_clean (by decide) (by decide)]
    simp
  unfold follow
  rw [h1, h2]
  generalize cut (normalize t ++ b!"/display.html") = x
  have h3 : splitSlash (b!"go-slog/text/" ++ x) = b!"go-slog" :: splitSlash (b!"text/" ++ x) := by
    have := split_slash fixed_root.slash (b!"text/" ++ x)
    simpa using this
  have h4 : (splitSlash base).dropLast = [b!"go-slog"] := by rcases hb with rfl | rfl <;> rfl
  show pctDecode (joinWith b!"/" (dropDots [] ((splitSlash base).dropLast ++ splitSlash (b!"text/" ++ x)))) =
    pctDecode (joinWith b!"/" (dropDots [] (splitSlash (b!"go-slog/text/" ++ x))))
  rw [h3, h4]
  rfl

/-! ### Routes -/

theorem route_mem {p : Bytes} {tg : Target} {ps : List (Bytes × Bytes)} (h : route p = some (tg, ps)) :
    ∃ r ∈ routes, r.2 = tg ∧ matchSegs r.1 (splitSlash p) = some ps := by
  unfold route at h
  obtain ⟨r, hr, e⟩ := List.exists_of_findSome?_eq_some h
  rw [Option.map_eq_some_iff] at e
  obtain ⟨ps', h1, h2⟩ := e
  injection h2 with h2 h3
  exact ⟨r, hr, h2, by rw [h1, h3]⟩

theorem match_lit {s : Bytes} {r : List Seg} {xs : List Bytes} {ps : List (Bytes × Bytes)} :
    matchSegs (.lit s :: r) xs = some ps ↔ ∃ ys, xs = s :: ys ∧ matchSegs r ys = some ps := by
  cases xs with
  | nil => simp [matchSegs]
  | cons x xs =>
    rw [matchSegs]
    split
    · rename_i e; subst e; simp
    · rename_i e; simp [e]

theorem match_param {n : Bytes} {r : List Seg} {xs : List Bytes} {ps : List (Bytes × Bytes)} :
    matchSegs (.param n :: r) xs = some ps ↔ ∃ x ys qs, xs = x :: ys ∧ x ≠ [] ∧ matchSegs r ys = some qs ∧ ps = (n, x) :: qs := by
  cases xs with
  | nil => simp [matchSegs]
  | cons x xs =>
    rw [matchSegs]
    split
    · rename_i e; subst e; simp
    · rename_i e
      rw [Option.map_eq_some_iff]
      constructor
      · rintro ⟨qs, h1, h2⟩; exact ⟨x, xs, qs, rfl, e, h1, h2.symm⟩
      · rintro ⟨x', ys, qs, h1, _, h3, h4⟩
        injection h1 with h1 h2
        subst h1; subst h2
        exact ⟨qs, h3, h4.symm⟩

theorem match_nil {xs : List Bytes} {ps : List (Bytes × Bytes)} : matchSegs [] xs = some ps ↔ xs = [] ∧ ps = [] := by
  cases xs <;> simp [matchSegs, eq_comm]

/-- C81: no path has two routes, so that the order in which routes are tried does not matter. -/
theorem C81_routes (p : Bytes) : (routes.filter fun r => (matchSegs r.1 (splitSlash p)).isSome).length ≤ 1 := by
  generalize splitSlash p = xs
  match xs with
  | [] => decide
  | [a] =>
    by_cases ha : a = b!"go-slog" <;> simp [routes, matchSegs, ha]
  | [a, b] =>
    by_cases ha : a = b!"go-slog"
    · subst ha
      simp only [routes, matchSegs, if_true, List.filter_cons, List.filter_nil]
      by_cases h1 : b = b!""
      · subst h1; decide
      by_cases h2 : b = b!"index.html"
      · subst h2; decide
      by_cases h3 : b = b!"warnings.html"
      · subst h3; decide
      by_cases h4 : b = b!"guts.html"
      · subst h4; decide
      by_cases h5 : b = b!"error.html"
      · subst h5; decide
      by_cases h6 : b = b!"home.svg"
      · subst h6; decide
      by_cases h7 : b = b!"scripts.js"
      · subst h7; decide
      by_cases h8 : b = b!"style.css"
      · subst h8; decide
      by_cases h9 : b = b!"exit"
      · subst h9; decide
      simp only [h1, h2, h3, h4, h5, h6, h7, h8, h9, if_false]
      simp
    · simp [routes, matchSegs, ha]
  | [a, b, c] =>
    by_cases ha : a = b!"go-slog"
    · subst ha
      simp only [routes, matchSegs, if_true, List.filter_cons, List.filter_nil]
      by_cases h1 : b = b!"test"
      · subst h1; by_cases hc : c = [] <;> simp [hc]
      by_cases h2 : b = b!"handler"
      · subst h2; by_cases hc : c = [] <;> simp [hc]
      simp [h1, h2]
    · simp [routes, matchSegs, ha]
  | [a, b, c, d] =>
    by_cases ha : a = b!"go-slog"
    · subst ha
      simp only [routes, matchSegs, if_true, List.filter_cons, List.filter_nil]
      by_cases h1 : b = b!"scores"
      · subst h1; by_cases hc : c = [] <;> by_cases hd : d = b!"summary.html" <;> simp [hc, hd]
      by_cases h2 : b = b!"text"
      · subst h2; by_cases hc : c = [] <;> by_cases hd : d = b!"display.html" <;> simp [hc, hd]
      by_cases h3 : b = b!"chart"
      · subst h3; by_cases hc : c = [] <;> by_cases hd : d = [] <;> simp [hc, hd]
      simp [h1, h2, h3]
    · simp [routes, matchSegs, ha]
  | [a, b, c, d, e] =>
    by_cases ha : a = b!"go-slog"
    · subst ha
      simp only [routes, matchSegs, if_true, List.filter_cons, List.filter_nil]
      by_cases h1 : b = b!"scores"
      · subst h1; by_cases hc : c = [] <;> by_cases hd : d = [] <;> by_cases he : e = b!"chart.svg" <;> simp [hc, hd, he]
      simp [h1]
    · simp [routes, matchSegs, ha]
  | a :: b :: c :: d :: e :: f :: xs =>
    by_cases ha : a = b!"go-slog"
    · subst ha
      simp [routes, matchSegs]
    · simp [routes, matchSegs, ha]


/-! ### Where a path leads -/

theorem path_of {p : Bytes} {segs : List Bytes} (h : splitSlash p = segs) : p = joinWith b!"/" segs ∧ ∀ s ∈ segs, (0x2F : UInt8) ∉ s :=
  ⟨by rw [← h, join_split], fun _ hs => mem_split (h ▸ hs)⟩

theorem route_test {p : Bytes} {ps : List (Bytes × Bytes)} : route p = some (.page .test, ps) ↔
    ∃ k, p = b!"go-slog/test/" ++ k ∧ k ≠ [] ∧ (0x2F : UInt8) ∉ k ∧ ps = [(b!"tag", k)] := by
  constructor
  · intro h
    obtain ⟨r, hr, e, hm⟩ := route_mem h
    have : r.1 = [.lit b!"go-slog", .lit b!"test", .param b!"tag"] := by
      revert e; revert r; simp [routes]
    rw [this] at hm
    simp only [match_lit, match_param, match_nil] at hm
    obtain ⟨y1, e1, y2, rfl, k, y3, q3, rfl, hk, ⟨rfl, rfl⟩, e4⟩ := hm
    obtain ⟨h1, h2⟩ := path_of e1
    exact ⟨k, by rw [h1]; simp [joinWith], hk, h2 k (by simp), e4⟩
  · rintro ⟨k, rfl, hk, hs, rfl⟩
    have : splitSlash (b!"go-slog/test/" ++ k) = [b!"go-slog", b!"test", k] := by
      have e : b!"go-slog/test/" ++ k = b!"go-slog" ++ 0x2F :: (b!"test" ++ 0x2F :: k) := by simp
      rw [e, split_slash fixed_root.slash, split_slash (by decide), split_plain hs]
    simp only [route, this]
    simp [routes, matchSegs, hk]

theorem route_handler {p : Bytes} {ps : List (Bytes × Bytes)} : route p = some (.page .handler, ps) ↔
    ∃ k, p = b!"go-slog/handler/" ++ k ∧ k ≠ [] ∧ (0x2F : UInt8) ∉ k ∧ ps = [(b!"tag", k)] := by
  constructor
  · intro h
    obtain ⟨r, hr, e, hm⟩ := route_mem h
    have : r.1 = [.lit b!"go-slog", .lit b!"handler", .param b!"tag"] := by
      revert e; revert r; simp [routes]
    rw [this] at hm
    simp only [match_lit, match_param, match_nil] at hm
    obtain ⟨y1, e1, y2, rfl, k, y3, q3, rfl, hk, ⟨rfl, rfl⟩, e4⟩ := hm
    obtain ⟨h1, h2⟩ := path_of e1
    exact ⟨k, by rw [h1]; simp [joinWith], hk, h2 k (by simp), e4⟩
  · rintro ⟨k, rfl, hk, hs, rfl⟩
    have : splitSlash (b!"go-slog/handler/" ++ k) = [b!"go-slog", b!"handler", k] := by
      have e : b!"go-slog/handler/" ++ k = b!"go-slog" ++ 0x2F :: (b!"handler" ++ 0x2F :: k) := by simp
      rw [e, split_slash fixed_root.slash, split_slash (by decide), split_plain hs]
    simp only [route, this]
    simp [routes, matchSegs, hk]

theorem route_scores {p : Bytes} {ps : List (Bytes × Bytes)} : route p = some (.page .scores, ps) ↔
    ∃ k, p = b!"go-slog/scores/" ++ k ++ b!"/summary.html" ∧ k ≠ [] ∧ (0x2F : UInt8) ∉ k ∧ ps = [(b!"keeper", k)] := by
  constructor
  · intro h
    obtain ⟨r, hr, e, hm⟩ := route_mem h
    have : r.1 = [.lit b!"go-slog", .lit b!"scores", .param b!"keeper", .lit b!"summary.html"] := by
      revert e; revert r; simp [routes]
    rw [this] at hm
    simp only [match_lit, match_param, match_nil] at hm
    obtain ⟨y1, e1, y2, rfl, k, y3, q3, rfl, hk, ⟨y4, rfl, rfl, rfl⟩, e4⟩ := hm
    obtain ⟨h1, h2⟩ := path_of e1
    exact ⟨k, by rw [h1]; simp [joinWith], hk, h2 k (by simp), e4⟩
  · rintro ⟨k, rfl, hk, hs, rfl⟩
    have : splitSlash (b!"go-slog/scores/" ++ k ++ b!"/summary.html") = [b!"go-slog", b!"scores", k, b!"summary.html"] := by
      have e : b!"go-slog/scores/" ++ k ++ b!"/summary.html" = b!"go-slog" ++ 0x2F :: (b!"scores" ++ 0x2F :: (k ++ 0x2F :: b!"summary.html")) := by simp
      rw [e, split_slash fixed_root.slash, split_slash (by decide), split_slash hs, split_plain (by decide)]
    simp only [route, this]
    simp [routes, matchSegs, hk]

theorem route_text {p : Bytes} {ps : List (Bytes × Bytes)} : route p = some (.page .text, ps) ↔
    ∃ k, p = b!"go-slog/text/" ++ k ++ b!"/display.html" ∧ k ≠ [] ∧ (0x2F : UInt8) ∉ k ∧ ps = [(b!"tag", k)] := by
  constructor
  · intro h
    obtain ⟨r, hr, e, hm⟩ := route_mem h
    have : r.1 = [.lit b!"go-slog", .lit b!"text", .param b!"tag", .lit b!"display.html"] := by
      revert e; revert r; simp [routes]
    rw [this] at hm
    simp only [match_lit, match_param, match_nil] at hm
    obtain ⟨y1, e1, y2, rfl, k, y3, q3, rfl, hk, ⟨y4, rfl, rfl, rfl⟩, e4⟩ := hm
    obtain ⟨h1, h2⟩ := path_of e1
    exact ⟨k, by rw [h1]; simp [joinWith], hk, h2 k (by simp), e4⟩
  · rintro ⟨k, rfl, hk, hs, rfl⟩
    have : splitSlash (b!"go-slog/text/" ++ k ++ b!"/display.html") = [b!"go-slog", b!"text", k, b!"display.html"] := by
      have e : b!"go-slog/text/" ++ k ++ b!"/display.html" = b!"go-slog" ++ 0x2F :: (b!"text" ++ 0x2F :: (k ++ 0x2F :: b!"display.html")) := by simp
      rw [e, split_slash fixed_root.slash, split_slash (by decide), split_slash hs, split_plain (by decide)]
    simp only [route, this]
    simp [routes, matchSegs, hk]

theorem route_chart {p : Bytes} {ps : List (Bytes × Bytes)} : route p = some (.barChart, ps) ↔
    ∃ k i, p = b!"go-slog/chart/" ++ k ++ b!"/" ++ i ∧ k ≠ [] ∧ i ≠ [] ∧ (0x2F : UInt8) ∉ k ∧ (0x2F : UInt8) ∉ i ∧
      ps = [(b!"tag", k), (b!"item", i)] := by
  constructor
  · intro h
    obtain ⟨r, hr, e, hm⟩ := route_mem h
    have : r.1 = [.lit b!"go-slog", .lit b!"chart", .param b!"tag", .param b!"item"] := by
      revert e; revert r; simp [routes]
    rw [this] at hm
    simp only [match_lit, match_param, match_nil] at hm
    obtain ⟨y1, e1, y2, rfl, k, y3, q3, rfl, hk, ⟨i, y4, q4, rfl, hi, ⟨rfl, rfl⟩, rfl⟩, e4⟩ := hm
    obtain ⟨h1, h2⟩ := path_of e1
    exact ⟨k, i, by rw [h1]; simp [joinWith], hk, hi, h2 k (by simp), h2 i (by simp), e4⟩
  · rintro ⟨k, i, rfl, hk, hi, hs, hs', rfl⟩
    have : splitSlash (b!"go-slog/chart/" ++ k ++ b!"/" ++ i) = [b!"go-slog", b!"chart", k, i] := by
      have e : b!"go-slog/chart/" ++ k ++ b!"/" ++ i = b!"go-slog" ++ 0x2F :: (b!"chart" ++ 0x2F :: (k ++ 0x2F :: i)) := by simp
      rw [e, split_slash fixed_root.slash, split_slash (by decide), split_slash hs, split_plain hs']
    simp only [route, this]
    simp [routes, matchSegs, hk, hi]

/-! ### C81 -/

theorem trim_html (k : Bytes) : trimSuffix (k ++ b!".html") b!".html" = k := by
  unfold trimSuffix
  simp

theorem trim_len (k : Bytes) : (trimSuffix k b!".html").length ≤ k.length := by
  unfold trimSuffix
  split <;> simp

theorem trim_mem {c : UInt8} {k : Bytes} (h : c ∈ trimSuffix k b!".html") : c ∈ k := by
  unfold trimSuffix at h
  split at h
  · exact List.mem_of_mem_take h
  · exact h

/-- Pages with the text at the end of the path. -/
theorem last_exact {base D t : Bytes} (hD : Fixed D) (hne : ∀ k, b!"go-slog/" ≠ b!"go-slog/" ++ D ++ 0x2F :: k) :
    (∃ k, follow base (b!"/go-slog/" ++ D ++ 0x2F :: normalize t ++ b!".html") = some (b!"go-slog/" ++ D ++ 0x2F :: k) ∧ k ≠ [] ∧
      (0x2F : UInt8) ∉ k ∧ trimSuffix k b!".html" = t) ↔ Plain t := by
  have he : Fixed b!".html" := ⟨by decide, by decide, by decide, by decide, by decide, by decide⟩
  constructor
  · rintro ⟨k, hf, hk, hs, ht⟩
    have h1 : (0x2F : UInt8) ∉ t := fun h => hs (trim_mem (ht ▸ h))
    have h23 : ¬ ((0x3F : UInt8) ∈ t ∨ (0x23 : UInt8) ∈ t) := by
      intro h
      obtain ⟨u, c, v, e, hc, h2, h3⟩ := first_stop h
      rw [e, follow_cut hD hc v (fun h => h1 (by rw [e]; simp [h])) h2 h3] at hf
      split at hf
      · exact hne k (Option.some.inj hf)
      · split at hf
        · have := Option.some.inj hf
          simp at this
          exact hk this
        · have := Option.some.inj hf
          simp only [List.append_cancel_left_eq, List.cons.injEq, true_and] at this
          have l1 := trim_len k
          have l2 := (once_len u.length u (Nat.le_refl _)).1
          rw [ht, e, ← this] at l1
          simp at l1
          omega
    rw [not_or] at h23
    refine ⟨h1, h23.1, h23.2, fun hesc => ?_⟩
    rw [follow_last hD he (by decide) h1 h23.1 h23.2] at hf
    have := Option.some.inj hf
    simp only [List.append_assoc, List.cons_append, List.append_cancel_left_eq, List.cons.injEq, true_and] at this
    rw [← this] at ht
    have l := (once_len t.length t (Nat.le_refl _)).2.1 hesc
    have ht' : once t = t := by
      rw [trim_html] at ht; exact ht
    rw [ht'] at l
    omega
  · intro h
    refine ⟨t ++ b!".html", ?_, by simp, by simp [h.slash], trim_html t⟩
    rw [follow_last hD he (by decide) h.slash h.query h.fragment, (once_len t.length t (Nat.le_refl _)).2.2 h.escape]
    simp

/-- Pages with the text between slashes. -/
theorem mid_exact {base D t q : Bytes} (hD : Fixed D) (hq : Fixed q) (hs : (0x2F : UInt8) ∉ t)
    (hne : ∀ k, b!"go-slog/" ++ k ≠ b!"go-slog/" ++ D ++ 0x2F :: t ++ 0x2F :: q ∨ (0x2F : UInt8) ∈ k) :
    follow base (b!"/go-slog/" ++ D ++ 0x2F :: normalize t ++ 0x2F :: q) = some (b!"go-slog/" ++ D ++ 0x2F :: t ++ 0x2F :: q) ↔
      Plain t ∧ t ≠ b!"." ∧ t ≠ b!".." := by
  constructor
  · intro hf
    have h23 : ¬ ((0x3F : UInt8) ∈ t ∨ (0x23 : UInt8) ∈ t) := by
      intro h
      obtain ⟨u, c, v, e, hc, h2, h3⟩ := first_stop h
      rw [e, follow_cut hD hc v (fun h => hs (by rw [e]; simp [h])) h2 h3] at hf
      split at hf
      · have := Option.some.inj hf
        simp at this
      · split at hf
        · have := congrArg List.length (Option.some.inj hf)
          simp at this
        · have := congrArg List.length (Option.some.inj hf)
          have l2 := (once_len u.length u (Nat.le_refl _)).1
          simp at this
          omega
    rw [not_or] at h23
    rw [follow_mid hD hq hs h23.1 h23.2] at hf
    split at hf
    · rename_i h
      rcases hne q with h' | h'
      · exact absurd (Option.some.inj hf) h'
      · exact absurd h' hq.slash
    · rename_i hdd
      split at hf
      · rename_i h
        have := congrArg List.length (Option.some.inj hf)
        simp at this
        omega
      · rename_i hd
        have := Option.some.inj hf
        simp only [List.append_assoc, List.cons_append, List.append_cancel_left_eq, List.append_cancel_right_eq, List.cons.injEq, true_and] at this
        refine ⟨⟨hs, h23.1, h23.2, fun hesc => ?_⟩, this ▸ hd, this ▸ hdd⟩
        have l := (once_len t.length t (Nat.le_refl _)).2.1 hesc
        rw [this] at l
        omega
  · rintro ⟨h, h1, h2⟩
    have := (once_len t.length t (Nat.le_refl _)).2.2 h.escape
    rw [follow_mid hD hq h.slash h.query h.fragment, this, if_neg h2, if_neg h1]

variable {κ : Type}

/-- The data of the page that is shown when a link is followed. -/
def opens (get : Bytes → Option κ) (tc : TextCache) (base link : Bytes) : Option (Shown κ) :=
  match goes base link with
  | some (.page p, ps) => some (shown get tc p ps [])
  | _ => none

theorem shown_page (get : Bytes → Option κ) (tc : TextCache) (p : Page) (ps : List (Bytes × Bytes)) (errs : List Bytes) :
    (shown get tc p ps errs).page = p := by
  unfold shown
  cases p <;> dsimp only <;> (try split) <;> rfl

theorem opens_iff {get : Bytes → Option κ} {tc : TextCache} {base link : Bytes} {s : Shown κ} :
    opens get tc base link = some s ↔ ∃ ps, goes base link = some (.page s.page, ps) ∧ s = shown get tc s.page ps [] := by
  unfold opens
  constructor
  · intro h
    split at h
    · rename_i p ps e
      have := Option.some.inj h
      subst this
      rw [shown_page]
      exact ⟨ps, e, rfl⟩
    · cases h
  · rintro ⟨ps, e, h⟩
    rw [e]
    simp only
    rw [← h]

theorem goes_iff {base link : Bytes} {tg : Target} {ps : List (Bytes × Bytes)} :
    goes base link = some (tg, ps) ↔ ∃ p, follow base link = some p ∧ route p = some (tg, ps) := by
  unfold goes
  rw [Option.bind_eq_some_iff]

/-- C81: the link of a test leads to the page with the data of that test exactly if the tag has no slash, question mark, number
sign or escape. -/
theorem C81_test (get : Bytes → Option κ) (tc : TextCache) (base t : Bytes) :
    (∃ s, opens get tc base (testLink t) = some s ∧ s.page = .test ∧ s.test = t) ↔ Plain t := by
  have hD : Fixed b!"test" := ⟨by decide, by decide, by decide, by decide, by decide, by decide⟩
  rw [← last_exact (base := base) hD (by intro k h; simp at h)]
  constructor
  · rintro ⟨s, h, hp, ht⟩
    obtain ⟨ps, hg, hs⟩ := opens_iff.1 h
    rw [hp] at hg hs
    obtain ⟨p, hf, hr⟩ := goes_iff.1 hg
    obtain ⟨k, rfl, hk, hsl, rfl⟩ := route_test.1 hr
    refine ⟨k, hf, hk, hsl, ?_⟩
    rw [hs] at ht
    have e : paramOf [(b!"tag", k)] b!"tag" = k := rfl
    simpa only [shown, e, if_neg hk] using ht
  · rintro ⟨k, hf, hk, hsl, ht⟩
    have e : paramOf [(b!"tag", k)] b!"tag" = k := rfl
    refine ⟨shown get tc .test [(b!"tag", k)] [], ?_, shown_page .., by simpa only [shown, e, if_neg hk] using ht⟩
    rw [opens_iff, shown_page]
    exact ⟨_, goes_iff.2 ⟨_, hf, route_test.2 ⟨k, rfl, hk, hsl, rfl⟩⟩, rfl⟩

/-- C81: the link of a handler. -/
theorem C81_handler (get : Bytes → Option κ) (tc : TextCache) (base t : Bytes) :
    (∃ s, opens get tc base (handlerLink t) = some s ∧ s.page = .handler ∧ s.handler = t) ↔ Plain t := by
  have hD : Fixed b!"handler" := ⟨by decide, by decide, by decide, by decide, by decide, by decide⟩
  rw [← last_exact (base := base) hD (by intro k h; simp at h)]
  constructor
  · rintro ⟨s, h, hp, ht⟩
    obtain ⟨ps, hg, hs⟩ := opens_iff.1 h
    rw [hp] at hg hs
    obtain ⟨p, hf, hr⟩ := goes_iff.1 hg
    obtain ⟨k, rfl, hk, hsl, rfl⟩ := route_handler.1 hr
    refine ⟨k, hf, hk, hsl, ?_⟩
    rw [hs] at ht
    have e : paramOf [(b!"tag", k)] b!"tag" = k := rfl
    simpa only [shown, e, if_neg hk] using ht
  · rintro ⟨k, hf, hk, hsl, ht⟩
    have e : paramOf [(b!"tag", k)] b!"tag" = k := rfl
    refine ⟨shown get tc .handler [(b!"tag", k)] [], ?_, shown_page .., by simpa only [shown, e, if_neg hk] using ht⟩
    rw [opens_iff, shown_page]
    exact ⟨_, goes_iff.2 ⟨_, hf, route_handler.2 ⟨k, rfl, hk, hsl, rfl⟩⟩, rfl⟩

/-- C81: the link of a keeper asks for that keeper exactly if its tag is plain, not empty and not made of one or two dots. -/
theorem C81_keeper (base t : Bytes) : goes base (keeperLink t) = some (.page .scores, [(b!"keeper", t)]) ↔
    Plain t ∧ t ≠ [] ∧ t ≠ b!"." ∧ t ≠ b!".." := by
  have hD : Fixed b!"scores" := ⟨by decide, by decide, by decide, by decide, by decide, by decide⟩
  have hq : Fixed b!"summary.html" := ⟨by decide, by decide, by decide, by decide, by decide, by decide⟩
  have hne : ∀ t k : Bytes, b!"go-slog/" ++ k ≠ b!"go-slog/" ++ b!"scores" ++ 0x2F :: t ++ 0x2F :: b!"summary.html" ∨ (0x2F : UInt8) ∈ k := by
    intro t k
    by_cases h : b!"go-slog/" ++ k = b!"go-slog/" ++ b!"scores" ++ 0x2F :: t ++ 0x2F :: b!"summary.html"
    · right
      rw [List.append_assoc, List.append_assoc, List.append_cancel_left_eq] at h
      rw [h]; simp
    · exact .inl h
  rw [goes_iff]
  constructor
  · rintro ⟨p, hf, hr⟩
    obtain ⟨k, rfl, hk, hsl, e⟩ := route_scores.1 hr
    simp only [List.cons.injEq, Prod.mk.injEq, true_and, and_true] at e
    subst e
    obtain ⟨h1, h2, h3⟩ := (mid_exact (base := base) hD hq hsl (hne t)).1 hf
    exact ⟨h1, hk, h2, h3⟩
  · rintro ⟨h1, h2, h3, h4⟩
    exact ⟨_, (mid_exact (base := base) hD hq h1.slash (hne t)).2 ⟨h1, h3, h4⟩, route_scores.2 ⟨t, rfl, h2, h1.slash, rfl⟩⟩

/-- C81: the link of a text on the home page. -/
theorem C81_text {base : Bytes} (hb : base = b!"go-slog/" ∨ base = b!"go-slog/index.html") (t : Bytes) :
    goes base (textLink t) = some (.page .text, [(b!"tag", t)]) ↔ Plain t ∧ t ≠ [] ∧ t ≠ b!"." ∧ t ≠ b!".." := by
  have hD : Fixed b!"text" := ⟨by decide, by decide, by decide, by decide, by decide, by decide⟩
  have hq : Fixed b!"display.html" := ⟨by decide, by decide, by decide, by decide, by decide, by decide⟩
  have hne : ∀ t k : Bytes, b!"go-slog/" ++ k ≠ b!"go-slog/" ++ b!"text" ++ 0x2F :: t ++ 0x2F :: b!"display.html" ∨ (0x2F : UInt8) ∈ k := by
    intro t k
    by_cases h : b!"go-slog/" ++ k = b!"go-slog/" ++ b!"text" ++ 0x2F :: t ++ 0x2F :: b!"display.html"
    · right
      rw [List.append_assoc, List.append_assoc, List.append_cancel_left_eq] at h
      rw [h]; simp
    · exact .inl h
  rw [goes_iff]
  simp only [follow_text hb]
  constructor
  · rintro ⟨p, hf, hr⟩
    obtain ⟨k, rfl, hk, hsl, e⟩ := route_text.1 hr
    simp only [List.cons.injEq, Prod.mk.injEq, true_and, and_true] at e
    subst e
    obtain ⟨h1, h2, h3⟩ := (mid_exact (base := base) hD hq hsl (hne t)).1 hf
    exact ⟨h1, hk, h2, h3⟩
  · rintro ⟨h1, h2, h3, h4⟩
    exact ⟨_, (mid_exact (base := base) hD hq h1.slash (hne t)).2 ⟨h1, h3, h4⟩, route_text.2 ⟨t, rfl, h2, h1.slash, rfl⟩⟩

/-- C81: the link of a bar chart, for the names of items that are on the pages. -/
theorem C81_chart (base t : Bytes) {item : Bytes} (hi : Fixed (item ++ b!".svg")) :
    goes base (chartLink t item) = some (.barChart, [(b!"tag", t), (b!"item", item ++ b!".svg")]) ↔
      Plain t ∧ t ≠ [] ∧ t ≠ b!"." ∧ t ≠ b!".." := by
  have hD : Fixed b!"chart" := ⟨by decide, by decide, by decide, by decide, by decide, by decide⟩
  have hne : ∀ t k : Bytes, b!"go-slog/" ++ k ≠ b!"go-slog/" ++ b!"chart" ++ 0x2F :: t ++ 0x2F :: (item ++ b!".svg") ∨ (0x2F : UInt8) ∈ k := by
    intro t k
    by_cases h : b!"go-slog/" ++ k = b!"go-slog/" ++ b!"chart" ++ 0x2F :: t ++ 0x2F :: (item ++ b!".svg")
    · right
      rw [List.append_assoc, List.append_assoc, List.append_cancel_left_eq] at h
      rw [h]; simp
    · exact .inl h
  have hl : chartLink t item = b!"/go-slog/" ++ b!"chart" ++ 0x2F :: normalize t ++ 0x2F :: (item ++ b!".svg") := by
    simp [chartLink]
  rw [goes_iff, hl]
  constructor
  · rintro ⟨p, hf, hr⟩
    obtain ⟨k, i, rfl, hk, hi', hsl, hsi, e⟩ := route_chart.1 hr
    simp only [List.cons.injEq, Prod.mk.injEq, true_and, and_true] at e
    obtain ⟨rfl, rfl⟩ := e
    obtain ⟨h1, h2, h3⟩ := (mid_exact (base := base) hD hi hsl (hne t)).1 (by rw [hf]; simp)
    exact ⟨h1, hk, h2, h3⟩
  · rintro ⟨h1, h2, h3, h4⟩
    exact ⟨_, (mid_exact (base := base) hD hi h1.slash (hne t)).2 ⟨h1, h3, h4⟩,
      route_chart.2 ⟨t, item ++ b!".svg", by simp, h2, by simp, h1.slash, hi.slash, rfl⟩⟩


/-- Bytes of the names of functions in Go, and the dot that separates the source of a test. -/
def Letter (c : UInt8) : Prop := (0x30 ≤ c ∧ c ≤ 0x39) ∨ (0x41 ≤ c ∧ c ≤ 0x5A) ∨ (0x61 ≤ c ∧ c ≤ 0x7A) ∨ c = 0x5F ∨ c = 0x2E ∨ 0x80 ≤ c

/-- Names of functions are plain. -/
theorem plain_name {t : Bytes} (h : ∀ c ∈ t, Letter c) : Plain t := by
  refine ⟨fun hc => ?_, fun hc => ?_, fun hc => ?_, ?_⟩
  · have := h _ hc; revert this; unfold Letter; decide
  · have := h _ hc; revert this; unfold Letter; decide
  · have := h _ hc; revert this; unfold Letter; decide
  · rintro ⟨u, a, b, v, e, _⟩
    have := h 0x25 (by rw [e]; simp)
    revert this; unfold Letter; decide

theorem plain_bench (t : Bytes) : Plain (b!"Bench." ++ t) ↔ Plain t := by
  have he : Escaped (b!"Bench." ++ t) ↔ Escaped t := by
    constructor
    · rintro ⟨u, a, b, v, e, h⟩
      match u with
      | c1 :: c2 :: c3 :: c4 :: c5 :: c6 :: u =>
        simp at e
        exact ⟨u, a, b, v, e.2.2.2.2.2.2, h⟩
      | [] => simp at e
      | [_] => simp at e
      | [_, _] => simp at e
      | [_, _, _] => simp at e
      | [_, _, _, _] => simp at e
      | [_, _, _, _, _] => simp at e
    · rintro ⟨u, a, b, v, e, h⟩
      exact ⟨b!"Bench." ++ u, a, b, v, by rw [e]; simp, h⟩
  constructor
  · rintro ⟨h1, h2, h3, h4⟩
    exact ⟨fun h => h1 (by simp [h]), fun h => h2 (by simp [h]), fun h => h3 (by simp [h]), fun h => h4 (he.2 h)⟩
  · rintro ⟨h1, h2, h3, h4⟩
    exact ⟨by simp [h1], by simp [h2], by simp [h3], fun h => h4 (he.1 h)⟩

/-- C81: for all benchmark texts, the links of the home page lead to the pages of their handlers and tests exactly if the names of
the handlers and tests in the lines are plain. -/
theorem C81_bench {F : Type} (E : Verif.Data.Env) (fl : Floats F) (S : Sorter) (pick : List Bytes → List Bytes) (hp : ∀ l, (pick l).Perm l)
    (texts : List Bytes) (ds : List (Verif.Data.Data F)) (hh : BenchData.History fl texts ds) (get : Bytes → Option κ) (tc : TextCache) (base : Bytes) :
    ((∀ h ∈ ((BenchData.readAll E fl texts).handlerTags S pick).2,
        ∃ s, opens get tc base (handlerLink h) = some s ∧ s.page = .handler ∧ s.handler = h) ↔ ∀ d ∈ ds, Plain d.handler) ∧
    ((∀ t ∈ ((BenchData.readAll E fl texts).testTags S pick).2,
        ∃ s, opens get tc base (testLink t) = some s ∧ s.page = .test ∧ s.test = t) ↔ ∀ d ∈ ds, Plain d.test) := by
  obtain ⟨⟨h1, _⟩, ⟨h2, _⟩⟩ := BenchData.C37_tags E fl S pick hp texts ds hh _ rfl
  simp only [C81_handler, C81_test, h1, h2]
  refine ⟨⟨fun h d hd => h _ ⟨d, hd, rfl⟩, ?_⟩, ⟨fun h d hd => ?_, ?_⟩⟩
  · rintro h _ ⟨d, hd, rfl⟩; exact h d hd
  · exact (plain_bench d.test).1 (h _ ⟨d, hd, rfl⟩)
  · rintro h _ ⟨d, hd, rfl⟩
    exact (plain_bench d.test).2 (h d hd)

/-- C81: the link of a keeper that exists shows that keeper. -/
theorem C81_keeper_shown (get : Bytes → Option κ) (tc : TextCache) (base : Bytes) {t : Bytes} {k : κ} (hk : get t = some k)
    (h : Plain t) (h0 : t ≠ []) (h1 : t ≠ b!".") (h2 : t ≠ b!"..") :
    ∃ s, opens get tc base (keeperLink t) = some s ∧ s.page = .scores ∧ s.keeper = some k := by
  refine ⟨shown get tc .scores [(b!"keeper", t)] [], ?_, rfl, ?_⟩
  · rw [opens_iff]
    exact ⟨_, (C81_keeper base t).2 ⟨h, h0, h1, h2⟩, rfl⟩
  · have e : paramOf [(b!"keeper", t)] b!"keeper" = t := rfl
    simp only [shown, e, hk, Option.some_or]

theorem plain_of {t : Bytes} (h : ∀ c ∈ t, c ≠ 0x2F ∧ c ≠ 0x3F ∧ c ≠ 0x23 ∧ c ≠ 0x25) : Plain t := by
  refine ⟨fun hc => (h _ hc).1 rfl, fun hc => (h _ hc).2.1 rfl, fun hc => (h _ hc).2.2.1 rfl, ?_⟩
  rintro ⟨u, a, b, v, e, _⟩
  exact (h 0x25 (by rw [e]; simp)).2.2.2 rfl

/-- C81: the links of all keepers of the program show their keepers. -/
theorem C81_keepers (get : Bytes → Option κ) (tc : TextCache) (base : Bytes) (hg : ∀ t ∈ Score.configuredTags, (get t).isSome) :
    ∀ t ∈ Score.configuredTags, ∃ s, opens get tc base (keeperLink t) = some s ∧ s.page = .scores ∧ s.keeper = get t ∧ s.keeper.isSome := by
  intro t ht
  obtain ⟨k, hk⟩ := Option.isSome_iff_exists.1 (hg t ht)
  have : (∀ c ∈ t, c ≠ 0x2F ∧ c ≠ 0x3F ∧ c ≠ 0x23 ∧ c ≠ 0x25) ∧ t ≠ [] ∧ t ≠ b!"." ∧ t ≠ b!".." := by
    revert ht
    clear hk
    revert t
    decide
  obtain ⟨s, h1, h2, h3⟩ := C81_keeper_shown get tc base hk (plain_of this.1) this.2.1 this.2.2.1 this.2.2.2
  exact ⟨s, h1, h2, by rw [h3, hk], by rw [h3]; rfl⟩

/-! ### What goes wrong -/

/-- C81 in full: the link of each handler and test with results leads to its page. -/
def C81_statement {F : Type} (fl : Floats F) : Prop := ∀ (E : Verif.Data.Env) (S : Sorter) (texts : List Bytes) (base : Bytes),
  (∀ h ∈ ((BenchData.readAll E fl texts).handlerTags S id).2,
    ∃ s, opens (κ := Unit) (fun _ => none) {} base (handlerLink h) = some s ∧ s.page = .handler ∧ s.handler = h) ∧
  (∀ t ∈ ((BenchData.readAll E fl texts).testTags S id).2,
    ∃ s, opens (κ := Unit) (fun _ => none) {} base (testLink t) = some s ∧ s.page = .test ∧ s.test = t)

/-- A line of a benchmark that has a benchmark within. -/
def subLine : Bytes := b!"BenchmarkPhsym/BenchmarkBig_Group/deep-8\t  100\t  12.5 ns/op"

theorem subLine_data : DataLine subLine b!"Phsym" b!"Big_Group/deep" b!"8" b!"100" b!"12.5" b!"" :=
  DataLine.mk (h := b!"Phsym") (t := b!"Big_Group/deep") (c := b!"8") (r := b!"100") (n := b!"12.5") (rest := b!"") (s1 := b!"\t  ") (s2 := b!"\t  ") (s3 := b!" ") ⟨by simp, by decide⟩ ⟨by simp, by decide⟩ ⟨by simp, by decide⟩ ⟨by simp, by decide⟩
    ⟨by simp, by decide⟩ ⟨by simp, by decide⟩ (.inr ⟨b!"12", b!"5", rfl, ⟨by simp, by decide⟩, ⟨by simp, by decide⟩⟩)
    ⟨by simp, by decide⟩ (by decide)

theorem subLine_reads {F : Type} (fl : Floats F) {x : F} (hx : fl.parse b!"12.5" = some x) :
    BenchData.History fl [subLine] [⟨b!"Phsym", b!"Big_Group/deep", 8, 100, x, 0, 0, fl.zero⟩] := by
  have hs : scanLines subLine = [subLine] := by decide +kernel
  have h := BenchData.Reads.data (fl := fl) (d := ⟨b!"Phsym", b!"Big_Group/deep", 8, 100, x, 0, 0, fl.zero⟩) subLine_data
    (show parseUint64 b!"8" = some 8 by decide +kernel) (show parseUint64 b!"100" = some 100 by decide +kernel) hx
    (show Data.optional ptnAllocsOp parseUint64 0 subLine = some 0 by decide +kernel)
    (show Data.optional ptnBytesOp parseUint64 0 subLine = some 0 by decide +kernel)
    (by
      have : ptnMbSec.findAny subLine = none := by decide +kernel
      unfold Data.optional
      rw [this])
    .done
  exact BenchData.History.text (t := subLine) (by rw [hs]; exact h) .none

/-- C81 in full is false: the page of a benchmark within a benchmark cannot be reached. -/
theorem C81_fails : ¬ C81_statement BenchData.terms := by
  intro h
  have h1 := (h ⟨Letters.asciiLib, fun _ => [], fun _ => none⟩ someSorter [subLine] b!"go-slog/").2
  have h2 := ((C81_bench ⟨Letters.asciiLib, fun _ => [], fun _ => none⟩ BenchData.terms someSorter id (fun l => .refl l) [subLine] _
    (subLine_reads BenchData.terms rfl) (fun _ => (none : Option Unit)) {} b!"go-slog/").2.1 h1) _ (List.mem_singleton.2 rfl)
  exact h2.slash (by decide)

/-- A case for `C81_bench`: the handler and the test of a common line lead to their pages. -/
example (E : Verif.Data.Env) (S : Sorter) : ∃ s, opens (κ := Unit) (fun _ => none) {} b!"go-slog/" (testLink b!"Bench.Big_Group") = some s ∧
    s.page = .test ∧ s.test = b!"Bench.Big_Group" := by
  have hh := BenchData.someLine_reads BenchData.terms rfl rfl
  have h := (C81_bench E BenchData.terms S id (fun l => .refl l) _ _ hh (fun _ => (none : Option Unit)) {} b!"go-slog/").2.2 (by
    intro d hd
    rw [List.mem_singleton.1 hd]
    exact plain_of (by decide))
  exact h _ (((BenchData.C37_tags E BenchData.terms S id (fun l => .refl l) _ _ hh _ rfl).2.1 _).2 ⟨_, List.mem_singleton.2 rfl, rfl⟩)

/-- Cases for the exact theorems: a tag with a space, a percent sign and a byte above 127 leads to its page; one with an escape
leads to another page, and one with a number sign is cut. -/
example : Plain b!"a b%zé" ∧ goes b!"go-slog/" (testLink b!"a b%zé") = some (.page .test, [(b!"tag", b!"a b%zé.html")]) ∧
    goes b!"go-slog/" (testLink b!"a%41") = some (.page .test, [(b!"tag", b!"aA.html")]) ∧
    goes b!"go-slog/" (testLink b!"a#b") = some (.page .test, [(b!"tag", b!"a")]) ∧
    goes b!"go-slog/" (keeperLink b!"..") = none ∧
    goes b!"go-slog/" (keeperLink b!"+ReplAttr") = some (.page .scores, [(b!"keeper", b!"+ReplAttr")]) := by
  refine ⟨⟨by decide, by decide, by decide, ?_⟩, by decide +kernel, by decide +kernel, by decide +kernel, by decide +kernel, by decide +kernel⟩
  intro h
  have := (once_len _ b!"a b%zé" (Nat.le_refl _)).2.1 h
  revert this
  decide +kernel

/-- A case for `C81_chart`. -/
example : goes b!"go-slog/test/Bench.Big.html" (chartLink b!"Bench.Big" b!"Nanos") = some (.barChart, [(b!"tag", b!"Bench.Big"), (b!"item", b!"Nanos.svg")]) :=
  (C81_chart _ _ (item := b!"Nanos") ⟨by decide, by decide, by decide, by decide, by decide, by decide⟩).2
    ⟨plain_of (by decide), by decide, by decide, by decide⟩

/-- A case for `C81_keepers`. -/
example : ∃ s, opens (fun t => if t ∈ Score.configuredTags then some t else none) {} b!"go-slog/" (keeperLink b!"+Dedup") = some s ∧ s.keeper = some b!"+Dedup" := by
  obtain ⟨s, h1, _, h3, _⟩ := C81_keepers (fun t => if t ∈ Score.configuredTags then some t else none) {} b!"go-slog/" (by decide) b!"+Dedup" (by decide)
  exact ⟨s, h1, h3⟩

end Verif.Props.Links
