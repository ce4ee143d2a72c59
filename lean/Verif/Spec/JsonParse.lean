import Verif.Spec.Json

/-
An executable JSON parser, and the proof that the grammar `Val` of
`Verif.Spec.Json` is unambiguous: every text in the grammar is parsed to the
tree the grammar assigns to it.
-/

set_option linter.unusedSimpArgs false

namespace Verif.Json

/-- Reads a string body up to the closing quote (opening quote already read). -/
def lexString : Bytes → Option (Bytes × Bytes)
  | [] => none
  | a :: s =>
    if a = 0x22 then some ([], s)
    else if a = 0x5C then
      match s with
      | [] => none
      | c :: s => (lexString s).map fun (b, r) => (a :: c :: b, r)
    else (lexString s).map fun (b, r) => (a :: b, r)

/-- Characters that can occur in a numeral. -/
def numChar (b : UInt8) : Bool :=
  isDigit b || b == 0x2B || b == 0x2D || b == 0x2E || b == 0x65 || b == 0x45

/-- Drops leading white space. -/
def skipWs (s : Bytes) : Bytes := s.dropWhile isWs

/-- Removes a given prefix. -/
def eat : Bytes → Bytes → Option Bytes
  | [], s => some s
  | p :: ps, a :: s => if p = a then eat ps s else none
  | _ :: _, [] => none

mutual
/-- Parses one value; no leading white space. -/
def parseVal : Nat → Bytes → Option (Cst × Bytes)
  | 0, _ => none
  | n + 1, s =>
    match s with
    | [] => none
    | a :: s' =>
      if a = 0x22 then
        match lexString s' with
        | some (b, r) => if BodyOk b then some (.str b, r) else none
        | none => none
      else if a = 0x7B then
        match skipWs s' with
        | [] => none
        | x :: r =>
          if x = 0x7D then some (.obj [], r)
          else (parseMembers n (x :: r)).map fun (ms, r) => (.obj ms, r)
      else if a = 0x5B then
        match skipWs s' with
        | [] => none
        | x :: r =>
          if x = 0x5D then some (.arr [], r)
          else (parseElems n (x :: r)).map fun (es, r) => (.arr es, r)
      else if a = 0x6E then (eat b!"null" s).map (Cst.null, ·)
      else if a = 0x74 then (eat b!"true" s).map (Cst.tru, ·)
      else if a = 0x66 then (eat b!"false" s).map (Cst.fls, ·)
      else
        if isNumber (s.takeWhile numChar) then
          some (.num (s.takeWhile numChar), s.dropWhile numChar)
        else none
/-- Parses elements up to and including the closing bracket. -/
def parseElems : Nat → Bytes → Option (List Cst × Bytes)
  | 0, _ => none
  | n + 1, s =>
    match parseVal n (skipWs s) with
    | none => none
    | some (c, r) =>
      match skipWs r with
      | [] => none
      | x :: r =>
        if x = 0x5D then some ([c], r)
        else if x = 0x2C then (parseElems n r).map fun (cs, r) => (c :: cs, r)
        else none
/-- Parses members up to and including the closing brace. -/
def parseMembers : Nat → Bytes → Option (List (Bytes × Cst) × Bytes)
  | 0, _ => none
  | n + 1, s =>
    match skipWs s with
    | [] => none
    | q :: s =>
      if q = 0x22 then
        match lexString s with
        | none => none
        | some (k, r) =>
          if BodyOk k then
            match skipWs r with
            | [] => none
            | x :: r =>
              if x = 0x3A then
                match parseVal n (skipWs r) with
                | none => none
                | some (c, r) =>
                  match skipWs r with
                  | [] => none
                  | x :: r =>
                    if x = 0x7D then some ([(k, c)], r)
                    else if x = 0x2C then
                      (parseMembers n r).map fun (ms, r) => ((k, c) :: ms, r)
                    else none
              else none
          else none
      else none
end

/-- Parses a whole JSON text with optional surrounding white space. -/
def parse (s : Bytes) : Option Cst :=
  match parseVal (2 * s.length + 2) (skipWs s) with
  | some (c, r) => if skipWs r = [] then some c else none
  | none => none

/-- The value a JSON text denotes, if it is one. -/
def parseTree (s : Bytes) : Option Tree := (parse s).bind Cst.decode

/-! ### Lexical lemmas -/

theorem skipWs_append {w s : Bytes} (h : Ws w) : skipWs (w ++ s) = skipWs s := by
  induction w with
  | nil => rfl
  | cons a w ih =>
    have ha : isWs a = true := h a (by simp)
    simp only [List.cons_append, skipWs, List.dropWhile_cons, ha, if_true]
    exact ih fun b hb => h b (by simp [hb])

theorem skipWs_of_not {a : UInt8} {s : Bytes} (h : isWs a = false) : skipWs (a :: s) = a :: s := by
  simp [skipWs, List.dropWhile_cons, h]

theorem skipWs_ws {w : Bytes} (h : Ws w) : skipWs w = [] := by
  have := skipWs_append (s := []) h
  simpa [skipWs] using this

/-- Inductive reading of `decodeBody`: `Body b s` if the body `b` denotes `s`. -/
inductive Body : Bytes → Bytes → Prop
  | nil : Body [] []
  | esc {e x b s} : simpleEscape e = some x → Body b s → Body (0x5C :: e :: b) (x :: s)
  | uni {h1 h2 h3 h4 n b s} : hex4 h1 h2 h3 h4 = some n → Body b s →
      Body (0x5C :: 0x75 :: h1 :: h2 :: h3 :: h4 :: b) (unitBytes n ++ s)
  | chr {c b s} : Utf8.Char1 c → (∀ a ∈ c, 0x20 ≤ a ∧ a ≠ 0x22 ∧ a ≠ 0x5C) → Body b s →
      Body (c ++ b) (c ++ s)

theorem body_of_decodeBody {b s : Bytes} (h : decodeBody b = some s) : Body b s := by
  fun_induction decodeBody b generalizing s with
  | case1 => simp at h; subst h; exact .nil
  | case2 => simp at h
  | case3 h1 h2 h3 h4 t n hn ih =>
    simp only [Option.map_eq_some_iff] at h
    obtain ⟨a, ha, rfl⟩ := h
    exact .uni hn (ih ha)
  | case4 => simp at h
  | case5 => simp at h
  | case6 e t he x hx ih =>
    simp only [Option.map_eq_some_iff] at h
    obtain ⟨a, ha, rfl⟩ := h
    exact .esc hx (ih ha)
  | case7 => simp at h
  | case8 => simp at h
  | case9 => simp at h
  | case10 a s h1 h2 h3 h4 ih =>
    simp only [Option.map_eq_some_iff] at h
    obtain ⟨t, ht, rfl⟩ := h
    refine Body.chr (c := [a]) (.one h4) ?_ (ih ht)
    simp; grind
  | case11 => simp at h
  | case12 a h1 h2 h3 h4 b t hb ih =>
    simp only [Option.map_eq_some_iff] at h
    obtain ⟨u, hu, rfl⟩ := h
    simp only [Bool.and_eq_true] at hb
    refine Body.chr (c := [a, b]) (.two hb.1 hb.2) ?_ (ih hu)
    simp [Utf8.cont] at *; grind
  | case13 => simp at h
  | case14 a h1 h2 h3 h4 b hb c t hc ih =>
    simp only [Option.map_eq_some_iff] at h
    obtain ⟨u, hu, rfl⟩ := h
    simp only [Bool.and_eq_true] at hc
    refine Body.chr (c := [a, b, c]) (.three hc.1 hc.2) ?_ (ih hu)
    simp [Utf8.cont, Utf8.lead3] at *; grind
  | case15 => simp at h
  | case16 a h1 h2 h3 h4 b hb c hc d t hd ih =>
    simp only [Option.map_eq_some_iff] at h
    obtain ⟨u, hu, rfl⟩ := h
    simp only [Bool.and_eq_true] at hd
    refine Body.chr (c := [a, b, c, d]) (.four hd.1.1 hd.1.2 hd.2) ?_ (ih hu)
    simp [Utf8.cont, Utf8.lead4] at *; grind
  | case17 => simp at h

theorem decodeBody_chr {c : Bytes} (hc : Utf8.Char1 c)
    (hp : ∀ a ∈ c, 0x20 ≤ a ∧ a ≠ 0x22 ∧ a ≠ 0x5C) (b : Bytes) :
    decodeBody (c ++ b) = (decodeBody b).map (c ++ ·) := by
  cases hc with
  | @one a ha =>
    have h := hp a (by simp)
    have h3 : ¬ a < 0x20 := by grind
    simp only [List.cons_append, List.nil_append]
    rw [decodeBody.eq_def]
    simp [h.2.1, h.2.2, h3, ha]
  | @two a d ha hd =>
    have h := hp a (by simp)
    have h3 : ¬ a < 0x20 := by grind
    have h4 : ¬ a < 0x80 := by simp [Utf8.lead2] at ha; grind
    simp only [List.cons_append, List.nil_append]
    rw [decodeBody.eq_def]
    simp [h.2.1, h.2.2, h3, h4, ha, hd]
  | @three a d e ha he =>
    have h := hp a (by simp)
    have h3 : ¬ a < 0x20 := by grind
    have h4 : ¬ a < 0x80 := by simp [Utf8.lead3] at ha; grind
    have h5 : Utf8.lead2 a = false := by
      simp only [Utf8.lead3, Utf8.lead2, Bool.and_eq_true, decide_eq_true_eq] at *; grind
    simp only [List.cons_append, List.nil_append]
    rw [decodeBody.eq_def]
    simp [h.2.1, h.2.2, h3, h4, h5, ha, he]
  | @four a d e f ha he hf =>
    have h := hp a (by simp)
    have h3 : ¬ a < 0x20 := by grind
    have h4 : ¬ a < 0x80 := by simp [Utf8.lead4] at ha; grind
    have h5 : Utf8.lead2 a = false := by
      simp only [Utf8.lead4, Utf8.lead2, Bool.and_eq_true, decide_eq_true_eq] at *; grind
    have h6 : Utf8.lead3 a d = false := by
      simp only [Utf8.lead4, Utf8.lead3, Bool.and_eq_true, decide_eq_true_eq] at *; grind
    simp only [List.cons_append, List.nil_append]
    rw [decodeBody.eq_def]
    simp [h.2.1, h.2.2, h3, h4, h5, h6, ha, he, hf]

theorem decodeBody_esc {e x : UInt8} (h : simpleEscape e = some x) (b : Bytes) :
    decodeBody (0x5C :: e :: b) = (decodeBody b).map (x :: ·) := by
  have he : e ≠ 0x75 := by rintro rfl; simp [simpleEscape] at h
  rw [decodeBody.eq_def]
  simp [he, h]

theorem decodeBody_uni {h1 h2 h3 h4 : UInt8} {n : Nat} (h : hex4 h1 h2 h3 h4 = some n) (b : Bytes) :
    decodeBody (0x5C :: 0x75 :: h1 :: h2 :: h3 :: h4 :: b) =
      (decodeBody b).map (unitBytes n ++ ·) := by
  rw [decodeBody.eq_def]
  simp [h]

theorem decodeBody_of_body {b s : Bytes} (h : Body b s) : decodeBody b = some s := by
  induction h with
  | nil => rfl
  | esc he _ ih => rw [decodeBody_esc he, ih]; rfl
  | uni hn _ ih => rw [decodeBody_uni hn, ih]; rfl
  | chr hc hp _ ih => rw [decodeBody_chr hc hp, ih]; rfl

theorem body_iff {b s : Bytes} : Body b s ↔ decodeBody b = some s :=
  ⟨decodeBody_of_body, body_of_decodeBody⟩

theorem Body.ok {b s : Bytes} (h : Body b s) : BodyOk b := by
  simp [BodyOk, decodeBody_of_body h]

theorem BodyOk.body {b : Bytes} (h : BodyOk b) : ∃ s, Body b s := by
  obtain ⟨s, hs⟩ := Option.isSome_iff_exists.1 h
  exact ⟨s, body_of_decodeBody hs⟩

theorem Body.append {b s b' s' : Bytes} (h : Body b s) (h' : Body b' s') :
    Body (b ++ b') (s ++ s') := by
  induction h with
  | nil => exact h'
  | esc he _ ih => exact .esc he ih
  | uni hn _ ih => rw [List.append_assoc]; exact .uni hn ih
  | chr hc hp _ ih => rw [List.append_assoc, List.append_assoc]; exact .chr hc hp ih

theorem lexString_quote (r : Bytes) : lexString (0x22 :: r) = some ([], r) := by
  rw [lexString.eq_def]; simp

theorem lexString_esc (c : UInt8) (s : Bytes) :
    lexString (0x5C :: c :: s) = (lexString s).map fun (b, r) => (0x5C :: c :: b, r) := by
  rw [lexString.eq_def]; simp

theorem lexString_plain {a : UInt8} (h1 : a ≠ 0x22) (h2 : a ≠ 0x5C) (s : Bytes) :
    lexString (a :: s) = (lexString s).map fun (b, r) => (a :: b, r) := by
  rw [lexString.eq_def]; simp [h1, h2]

theorem lexString_plains {c : Bytes} (h : ∀ a ∈ c, a ≠ 0x22 ∧ a ≠ 0x5C) (s : Bytes) :
    lexString (c ++ s) = (lexString s).map fun (b, r) => (c ++ b, r) := by
  induction c with
  | nil => cases h : lexString s <;> simp [h]
  | cons a c ih =>
    have ha := h a (by simp)
    rw [List.cons_append, lexString_plain ha.1 ha.2, ih fun a ha => h a (by simp [ha])]
    cases lexString s <;> simp

theorem hexVal_plain {h : UInt8} {n} (hh : hexVal h = some n) : h ≠ 0x22 ∧ h ≠ 0x5C := by
  constructor <;> (rintro rfl; simp [hexVal] at hh)

theorem hex4_plain {h1 h2 h3 h4 : UInt8} {n} (h : hex4 h1 h2 h3 h4 = some n) :
    ∀ a ∈ [h1, h2, h3, h4], a ≠ 0x22 ∧ a ≠ 0x5C := by
  unfold hex4 at h
  split at h
  · rename_i e1 e2 e3 e4
    simp only [List.mem_cons, List.not_mem_nil, or_false]
    rintro a (rfl | rfl | rfl | rfl)
    · exact hexVal_plain e1
    · exact hexVal_plain e2
    · exact hexVal_plain e3
    · exact hexVal_plain e4
  · simp at h

theorem Body.lex {b s : Bytes} (h : Body b s) (r : Bytes) :
    lexString (b ++ 0x22 :: r) = some (b, r) := by
  induction h with
  | nil => exact lexString_quote r
  | esc _ _ ih => simp only [List.cons_append]; rw [lexString_esc, ih]; rfl
  | @uni h1 h2 h3 h4 n b s hn _ ih =>
    simp only [List.cons_append]; rw [lexString_esc]
    have := lexString_plains (hex4_plain hn) (b ++ 0x22 :: r)
    simp only [List.cons_append, List.nil_append] at this
    rw [this, ih]; rfl
  | chr _ hp _ ih =>
    rw [List.append_assoc, lexString_plains (fun a ha => (hp a ha).2), ih]; rfl

theorem lexString_of_body {b : Bytes} (h : BodyOk b) (r : Bytes) :
    lexString (b ++ 0x22 :: r) = some (b, r) := by
  obtain ⟨s, hs⟩ := h.body
  exact hs.lex r

/-! ### Numerals -/

theorem digit_numChar {a : UInt8} (h : isDigit a = true) : numChar a = true := by
  simp [numChar, h]

theorem all_numChar_of_digits {s : Bytes} (h : s.all isDigit = true) : s.all numChar = true := by
  simp only [List.all_eq_true] at *
  exact fun a ha => digit_numChar (h a ha)

theorem takeWhile_digit_all (s : Bytes) : (s.takeWhile isDigit).all numChar = true := by
  apply all_numChar_of_digits
  simp only [List.all_eq_true]
  exact fun a ha => (List.all_eq_true.1 (List.all_takeWhile (p := isDigit) (l := s))) a ha

theorem all_of_dropWhile {s : Bytes} (h : (s.dropWhile isDigit).all numChar = true) :
    s.all numChar = true := by
  rw [← List.takeWhile_append_dropWhile (p := isDigit) (l := s), List.all_append,
    takeWhile_digit_all, h]; rfl

theorem isExp_all {s : Bytes} (h : isExp s = true) : s.all numChar = true := by
  match s with
  | [] => rfl
  | [e] => simp [isExp] at h
  | e :: x :: s =>
    simp only [isExp, Bool.and_eq_true, Bool.or_eq_true, beq_iff_eq] at h
    obtain ⟨he, h⟩ := h
    simp only [List.all_cons, Bool.and_eq_true]
    refine ⟨by rcases he with rfl | rfl <;> decide, ?_⟩
    split at h
    · rename_i hx
      simp only [Bool.and_eq_true] at h
      exact ⟨by rcases hx with rfl | rfl <;> decide, all_numChar_of_digits h.2⟩
    · simp only [Bool.and_eq_true] at h
      exact ⟨digit_numChar h.1, all_numChar_of_digits h.2⟩

theorem isFrac_all {s : Bytes} (h : isFrac s = true) : s.all numChar = true := by
  unfold isFrac at h
  split at h
  · split at h
    · simp at h
    · simp only [Bool.and_eq_true] at h
      simp only [List.all_cons, digit_numChar h.1, all_of_dropWhile (isExp_all h.2), Bool.and_true]
      decide
  · exact isExp_all h

theorem isUNumber_all {s : Bytes} (h : isUNumber s = true) : s.all numChar = true := by
  unfold isUNumber at h
  split at h
  · rfl
  · split at h
    · rename_i hd
      simp only [beq_iff_eq] at hd; subst hd
      simp only [List.all_cons, isFrac_all h, Bool.and_true]; decide
    · simp only [Bool.and_eq_true] at h
      simp [digit_numChar h.1, all_of_dropWhile (isFrac_all h.2)]

theorem isNumber_all {s : Bytes} (h : isNumber s = true) : s.all numChar = true := by
  unfold isNumber at h
  split at h
  · simp only [List.all_cons, isUNumber_all h, Bool.and_true]; decide
  · exact isUNumber_all h

theorem isNumber_ne_nil {s : Bytes} (h : isNumber s = true) : s ≠ [] := by
  rintro rfl; simp [isNumber, isUNumber] at h

/-- The text after a value does not continue a numeral. -/
def Follow : Bytes → Prop
  | [] => True
  | a :: _ => numChar a = false

theorem takeWhile_numChar {t r : Bytes} (ht : t.all numChar = true) (hr : Follow r) :
    (t ++ r).takeWhile numChar = t ∧ (t ++ r).dropWhile numChar = r := by
  have hall : ∀ a ∈ t, numChar a = true := by simpa using ht
  rw [List.takeWhile_append_of_pos hall, List.dropWhile_append_of_pos hall]
  match r, hr with
  | [], _ => simp
  | a :: r, hr => simp [Follow] at hr; simp [hr]

/-! ### The grammar is unambiguous -/

theorem eat_append (p r : Bytes) : eat p (p ++ r) = some r := by
  induction p with
  | nil => rfl
  | cons a p ih => simp [eat, ih]

set_option maxRecDepth 100000 in
theorem numChar_head (a : UInt8) :
    numChar a = true → isWs a = false ∧ a ≠ 0x5D ∧ a ≠ 0x7D := by
  revert a; apply forall_byte; decide +kernel

/-- The first byte of a value is neither white space nor a closing bracket. -/
theorem Val.head {b : Bytes} {c : Cst} (h : Val b c) :
    ∃ a r, b = a :: r ∧ isWs a = false ∧ a ≠ 0x5D ∧ a ≠ 0x7D := by
  cases h with
  | num hn =>
    have := isNumber_all hn
    have hne := isNumber_ne_nil hn
    match b, hne with
    | a :: r, _ =>
      simp only [List.all_cons, Bool.and_eq_true] at this
      refine ⟨a, r, rfl, ?_⟩
      exact numChar_head a this.1
  | _ => exact ⟨_, _, rfl, by decide, by decide, by decide⟩

theorem Ws.follow {w r : Bytes} (hw : Ws w) (hr : Follow r) : Follow (w ++ r) := by
  match w, hw with
  | [], _ => exact hr
  | a :: w, hw =>
    have := hw a (by simp)
    simp only [isWs, Bool.or_eq_true, beq_iff_eq] at this
    simp only [List.cons_append, Follow]
    rcases this with ((rfl | rfl) | rfl) | rfl <;> decide

theorem Elems.head {b : Bytes} {es : List Cst} (h : Elems b es) (t : Bytes) :
    ∃ a r, skipWs (b ++ t) = a :: r ∧ a ≠ 0x5D := by
  cases h with
  | one h1 hv h2 =>
    obtain ⟨a, r, rfl, ha, hb, _⟩ := hv.head
    rw [List.append_assoc, skipWs_append h1]
    simp only [List.cons_append, skipWs_of_not ha]
    exact ⟨_, _, rfl, hb⟩
  | cons h1 hv h2 =>
    obtain ⟨a, r, rfl, ha, hb, _⟩ := hv.head
    rw [List.append_assoc, skipWs_append h1]
    simp only [List.cons_append, skipWs_of_not ha]
    exact ⟨_, _, rfl, hb⟩

theorem Members.head {b : Bytes} {ms : List (Bytes × Cst)} (h : Members b ms) (t : Bytes) :
    ∃ a r, skipWs (b ++ t) = a :: r ∧ a ≠ 0x7D := by
  cases h with
  | one h1 =>
    rw [List.append_assoc, skipWs_append h1]
    simp only [List.cons_append]
    rw [skipWs_of_not (by decide)]
    exact ⟨_, _, rfl, by decide⟩
  | cons h1 =>
    rw [List.append_assoc, skipWs_append h1]
    simp only [List.cons_append]
    rw [skipWs_of_not (by decide)]
    exact ⟨_, _, rfl, by decide⟩

theorem skipWs_skipWs (s : Bytes) : skipWs (skipWs s) = skipWs s := by
  induction s with
  | nil => rfl
  | cons a s ih =>
    by_cases h : isWs a = true
    · simp [skipWs, h] at *; exact ih
    · have h : isWs a = false := by simpa using h
      rw [skipWs_of_not h, skipWs_of_not h]

mutual
theorem parseElems_skip (n : Nat) (s : Bytes) : parseElems n (skipWs s) = parseElems n s := by
  cases n <;> simp [parseElems, skipWs_skipWs]
theorem parseMembers_skip (n : Nat) (s : Bytes) : parseMembers n (skipWs s) = parseMembers n s := by
  cases n <;> simp [parseMembers, skipWs_skipWs]
end

mutual
theorem parseVal_of_val {b : Bytes} {c : Cst} (h : Val b c) (n : Nat) (r : Bytes)
    (hn : 2 * b.length ≤ n) (hr : Follow r) : parseVal n (b ++ r) = some (c, r) := by
  match n, h with
  | 0, h => obtain ⟨a, t, rfl, _⟩ := h.head; simp at hn
  | n + 1, .null => simp [parseVal, eat]
  | n + 1, .tru => simp [parseVal, eat]
  | n + 1, .fls => simp [parseVal, eat]
  | n + 1, .num ht =>
    have hall := isNumber_all ht
    obtain ⟨e1, e2⟩ := takeWhile_numChar hall hr
    match b, isNumber_ne_nil ht with
    | a :: b, _ =>
      have ha : numChar a = true := by simpa using (List.all_eq_true.1 hall) a (by simp)
      have hne : ∀ x, numChar x = false → a ≠ x := by rintro x hx rfl; simp [ha] at hx
      rw [List.cons_append] at *
      simp only [parseVal, hne 0x22 (by decide), hne 0x7B (by decide), hne 0x5B (by decide),
        hne 0x6E (by decide), hne 0x74 (by decide), hne 0x66 (by decide), if_false, e1, e2, ht,
        if_true]
  | n + 1, @Val.str b hb =>
    simp only [List.cons_append, List.append_assoc, List.nil_append, parseVal, if_true,
      lexString_of_body hb r, hb]
  | n + 1, @Val.arr0 w hw =>
    simp only [List.cons_append, List.append_assoc, List.nil_append, parseVal,
      skipWs_append hw]
    rw [skipWs_of_not (by decide)]
    simp
  | n + 1, @Val.arr b es he =>
    have hl : 2 * b.length + 1 ≤ n := by simp at hn; omega
    have key := parseElems_of_elems he n r hl
    obtain ⟨x, y, hs, hx⟩ := he.head (0x5D :: r)
    rw [← parseElems_skip, hs] at key
    simp only [List.cons_append, List.append_assoc, List.nil_append, parseVal, hs, hx, if_false,
      key]
    simp
  | n + 1, @Val.obj0 w hw =>
    simp only [List.cons_append, List.append_assoc, List.nil_append, parseVal,
      skipWs_append hw]
    rw [skipWs_of_not (by decide)]
    simp
  | n + 1, @Val.obj b ms hm =>
    have hl : 2 * b.length + 1 ≤ n := by simp at hn; omega
    have key := parseMembers_of_members hm n r hl
    obtain ⟨x, y, hs, hx⟩ := hm.head (0x7D :: r)
    rw [← parseMembers_skip, hs] at key
    simp only [List.cons_append, List.append_assoc, List.nil_append, parseVal, hs, hx, if_false,
      key]
    simp
theorem parseElems_of_elems {b : Bytes} {es : List Cst} (h : Elems b es) (n : Nat) (r : Bytes)
    (hn : 2 * b.length + 1 ≤ n) : parseElems n (b ++ 0x5D :: r) = some (es, r) := by
  match n, h with
  | 0, _ => simp at hn
  | n + 1, @Elems.one w1 b w2 c h1 hv h2 =>
    have key := parseVal_of_val hv n (w2 ++ 0x5D :: r) (by simp at hn; omega)
      (h2.follow (by simp [Follow]; decide))
    obtain ⟨a, t, rfl, ha, _⟩ := hv.head
    simp only [List.append_assoc, parseElems, skipWs_append h1] at *
    rw [List.cons_append, skipWs_of_not ha, ← List.cons_append, key]
    simp only [skipWs_append h2]
    rw [skipWs_of_not (by decide)]
    simp
  | n + 1, @Elems.cons w1 b w2 c q es h1 hv h2 he =>
    have key := parseVal_of_val hv n (w2 ++ (0x2C :: (q ++ 0x5D :: r))) (by simp at hn; omega)
      (h2.follow (by simp [Follow]; decide))
    have hrec := parseElems_of_elems he n r (by simp at hn; omega)
    obtain ⟨a, t, rfl, ha, _⟩ := hv.head
    simp only [List.append_assoc, parseElems, skipWs_append h1, List.cons_append] at *
    rw [skipWs_of_not ha, key]
    simp only [skipWs_append h2]
    rw [skipWs_of_not (by decide)]
    simp [hrec]
theorem parseMembers_of_members {b : Bytes} {ms : List (Bytes × Cst)} (h : Members b ms) (n : Nat)
    (r : Bytes) (hn : 2 * b.length + 1 ≤ n) :
    parseMembers n (b ++ 0x7D :: r) = some (ms, r) := by
  match n, h with
  | 0, _ => simp at hn
  | n + 1, @Members.one w1 k w2 w3 b w4 c h1 hk h2 h3 hv h4 =>
    have key := parseVal_of_val hv n (w4 ++ 0x7D :: r) (by simp at hn; omega)
      (h4.follow (by simp [Follow]; decide))
    obtain ⟨a, t, rfl, ha, _⟩ := hv.head
    simp only [List.append_assoc, List.cons_append] at *
    simp only [parseMembers, skipWs_append h1]
    rw [skipWs_of_not (by decide)]
    simp only [if_true, lexString_of_body hk, hk, skipWs_append h2]
    rw [skipWs_of_not (by decide)]
    simp only [if_true, skipWs_append h3, skipWs_of_not ha, key, skipWs_append h4]
    rw [skipWs_of_not (by decide)]
    simp
  | n + 1, @Members.cons w1 k w2 w3 b w4 c q ms h1 hk h2 h3 hv h4 hm =>
    have key := parseVal_of_val hv n (w4 ++ (0x2C :: (q ++ 0x7D :: r))) (by simp at hn; omega)
      (h4.follow (by simp [Follow]; decide))
    have hrec := parseMembers_of_members hm n r (by simp at hn; omega)
    obtain ⟨a, t, rfl, ha, _⟩ := hv.head
    simp only [List.append_assoc, List.cons_append] at *
    simp only [parseMembers, skipWs_append h1]
    rw [skipWs_of_not (by decide)]
    simp only [if_true, lexString_of_body hk, hk, skipWs_append h2]
    rw [skipWs_of_not (by decide)]
    simp only [if_true, skipWs_append h3, skipWs_of_not ha, key, skipWs_append h4]
    rw [skipWs_of_not (by decide)]
    simp [hrec]
end

/-- Every text of the grammar parses to its tree: the grammar is unambiguous. -/
theorem parse_of_val {b : Bytes} {c : Cst} (h : Val b c) : parse b = some c := by
  have key := parseVal_of_val h (2 * b.length + 2) [] (by omega) trivial
  obtain ⟨a, t, rfl, ha, _⟩ := h.head
  simp only [List.append_nil] at key
  rw [parse, skipWs_of_not ha, key]
  simp [skipWs]

theorem val_unique {b : Bytes} {c c' : Cst} (h : Val b c) (h' : Val b c') : c = c' := by
  have := (parse_of_val h).symm.trans (parse_of_val h')
  simpa using this

theorem parseTree_of_denotes {b : Bytes} {t : Tree} (h : Denotes b t) : parseTree b = some t := by
  obtain ⟨c, hc, ht⟩ := h
  simp [parseTree, parse_of_val hc, ht]

theorem denotes_unique {b : Bytes} {t t' : Tree} (h : Denotes b t) (h' : Denotes b t') : t = t' := by
  have := (parseTree_of_denotes h).symm.trans (parseTree_of_denotes h')
  simpa using this

end Verif.Json
