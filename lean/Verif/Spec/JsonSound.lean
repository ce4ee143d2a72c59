import Verif.Spec.JsonParse

/-
Soundness of the JSON parser: what it accepts is in the grammar. Together with
`parse_of_val` the parser decides the grammar (up to surrounding white space).
-/

set_option linter.unusedSimpArgs false

namespace Verif.Json

theorem skipWs_split (s : Bytes) : ∃ w, Ws w ∧ s = w ++ skipWs s := by
  refine ⟨s.takeWhile isWs, ?_, (List.takeWhile_append_dropWhile).symm⟩
  intro b hb
  exact List.all_eq_true.1 (List.all_takeWhile (l := s) (p := isWs)) b hb

theorem lexString_split : ∀ (n : Nat) (s b r : Bytes), s.length ≤ n → lexString s = some (b, r) →
    s = b ++ 0x22 :: r := by
  intro n
  induction n with
  | zero =>
    intro s b r hn h
    have : s = [] := by simpa using hn
    subst this; simp [lexString] at h
  | succ n ih =>
    intro s b r hn h
    match s with
    | [] => simp [lexString] at h
    | a :: s =>
      rw [lexString.eq_def] at h
      simp only at h
      split at h
      · rename_i ha; simp at h; obtain ⟨rfl, rfl⟩ := h; simp [ha]
      · split at h
        · match s with
          | [] => simp at h
          | c :: s =>
            simp only [Option.map_eq_some_iff] at h
            obtain ⟨⟨b', r'⟩, h1, h2⟩ := h
            simp at h2
            obtain ⟨rfl, rfl⟩ := h2
            rw [ih s b' r' (by simp at hn; omega) h1]
            rfl
        · simp only [Option.map_eq_some_iff] at h
          obtain ⟨⟨b', r'⟩, h1, h2⟩ := h
          simp at h2
          obtain ⟨rfl, rfl⟩ := h2
          rw [ih s b' r' (by simp at hn; omega) h1]
          rfl

theorem eat_split : ∀ {p s r : Bytes}, eat p s = some r → s = p ++ r := by
  intro p
  induction p with
  | nil => intro s r h; simpa [eat] using h
  | cons a p ih =>
    intro s r h
    match s with
    | [] => simp [eat] at h
    | b :: s =>
      simp only [eat] at h
      split at h
      · rename_i hab; rw [ih h, hab]; rfl
      · simp at h

theorem parse_sound_aux (n : Nat) :
    (∀ s c r, parseVal n s = some (c, r) → ∃ b, s = b ++ r ∧ Val b c) ∧
    (∀ s es r, parseElems n s = some (es, r) → ∃ b, s = b ++ 0x5D :: r ∧ Elems b es) ∧
    (∀ s ms r, parseMembers n s = some (ms, r) → ∃ b, s = b ++ 0x7D :: r ∧ Members b ms) := by
  induction n with
  | zero => refine ⟨?_, ?_, ?_⟩ <;> intro s c r h <;> simp [parseVal, parseElems, parseMembers] at h
  | succ n ih =>
    obtain ⟨ihv, ihe, ihm⟩ := ih
    refine ⟨?_, ?_, ?_⟩
    · intro s c r h
      match s with
      | [] => simp [parseVal] at h
      | a :: s =>
        simp only [parseVal] at h
        split at h
        · rename_i ha; subst ha
          split at h
          · rename_i b r' hl
            split at h
            · rename_i hb
              simp at h; obtain ⟨rfl, rfl⟩ := h
              refine ⟨0x22 :: (b ++ [0x22]), ?_, .str hb⟩
              rw [lexString_split _ s b r' (Nat.le_refl _) hl]; simp
            · simp at h
          · simp at h
        · split at h
          · rename_i ha; subst ha
            obtain ⟨w, hw, hs⟩ := skipWs_split s
            split at h
            · simp at h
            · rename_i x r' hsk
              rw [hsk] at hs
              split at h
              · rename_i hx; subst hx
                simp at h; obtain ⟨rfl, rfl⟩ := h
                exact ⟨0x7B :: (w ++ [0x7D]), by rw [hs]; simp, .obj0 hw⟩
              · simp only [Option.map_eq_some_iff] at h
                obtain ⟨⟨ms, r''⟩, h1, h2⟩ := h
                simp at h2; obtain ⟨rfl, rfl⟩ := h2
                rw [← hsk, parseMembers_skip] at h1
                obtain ⟨b, hb, hm⟩ := ihm _ _ _ h1
                exact ⟨0x7B :: (b ++ [0x7D]), by rw [hb]; simp, .obj hm⟩
          · split at h
            · rename_i ha; subst ha
              obtain ⟨w, hw, hs⟩ := skipWs_split s
              split at h
              · simp at h
              · rename_i x r' hsk
                rw [hsk] at hs
                split at h
                · rename_i hx; subst hx
                  simp at h; obtain ⟨rfl, rfl⟩ := h
                  exact ⟨0x5B :: (w ++ [0x5D]), by rw [hs]; simp, .arr0 hw⟩
                · simp only [Option.map_eq_some_iff] at h
                  obtain ⟨⟨ms, r''⟩, h1, h2⟩ := h
                  simp at h2; obtain ⟨rfl, rfl⟩ := h2
                  rw [← hsk, parseElems_skip] at h1
                  obtain ⟨b, hb, hm⟩ := ihe _ _ _ h1
                  exact ⟨0x5B :: (b ++ [0x5D]), by rw [hb]; simp, .arr hm⟩
            · split at h
              · simp only [Option.map_eq_some_iff] at h
                obtain ⟨r', h1, h2⟩ := h
                simp at h2; obtain ⟨rfl, rfl⟩ := h2
                exact ⟨_, eat_split h1, .null⟩
              · split at h
                · simp only [Option.map_eq_some_iff] at h
                  obtain ⟨r', h1, h2⟩ := h
                  simp at h2; obtain ⟨rfl, rfl⟩ := h2
                  exact ⟨_, eat_split h1, .tru⟩
                · split at h
                  · simp only [Option.map_eq_some_iff] at h
                    obtain ⟨r', h1, h2⟩ := h
                    simp at h2; obtain ⟨rfl, rfl⟩ := h2
                    exact ⟨_, eat_split h1, .fls⟩
                  · split at h
                    · rename_i hn
                      simp only [Option.some.injEq, Prod.mk.injEq] at h; obtain ⟨rfl, rfl⟩ := h
                      exact ⟨_, (List.takeWhile_append_dropWhile).symm, .num hn⟩
                    · simp at h
    · intro s es r h
      simp only [parseElems] at h
      obtain ⟨w, hw, hs⟩ := skipWs_split s
      split at h
      · simp at h
      · rename_i c r1 hv
        obtain ⟨b, hb, hval⟩ := ihv _ _ _ hv
        obtain ⟨w2, hw2, hs2⟩ := skipWs_split r1
        split at h
        · simp at h
        · rename_i x r2 hsk
          split at h
          · rename_i hx; subst hx
            simp at h; obtain ⟨rfl, rfl⟩ := h
            refine ⟨_, ?_, .one hw hval hw2⟩
            rw [hs, hb, hs2, hsk]; simp
          · split at h
            · rename_i hx; subst hx
              simp only [Option.map_eq_some_iff] at h
              obtain ⟨⟨es', r''⟩, h1, h2⟩ := h
              simp at h2; obtain ⟨rfl, rfl⟩ := h2
              obtain ⟨b', hb', he⟩ := ihe _ _ _ h1
              refine ⟨_, ?_, .cons hw hval hw2 he⟩
              rw [hs, hb, hs2, hsk, hb']; simp
            · simp at h
    · intro s ms r h
      simp only [parseMembers] at h
      obtain ⟨w, hw, hs⟩ := skipWs_split s
      split at h
      · simp at h
      · rename_i q s1 hsk1
        split at h
        · rename_i hq; subst hq
          split at h
          · simp at h
          · rename_i k r1 hl
            have hl' := lexString_split _ _ _ _ (Nat.le_refl _) hl
            split at h
            · rename_i hk
              obtain ⟨w2, hw2, hs2⟩ := skipWs_split r1
              split at h
              · simp at h
              · rename_i x r2 hsk2
                split at h
                · rename_i hx; subst hx
                  obtain ⟨w3, hw3, hs3⟩ := skipWs_split r2
                  split at h
                  · simp at h
                  · rename_i c r3 hv
                    obtain ⟨b, hb, hval⟩ := ihv _ _ _ hv
                    obtain ⟨w4, hw4, hs4⟩ := skipWs_split r3
                    split at h
                    · simp at h
                    · rename_i y r4 hsk4
                      split at h
                      · rename_i hy; subst hy
                        simp at h; obtain ⟨rfl, rfl⟩ := h
                        refine ⟨_, ?_, .one hw hk hw2 hw3 hval hw4⟩
                        rw [hs, hsk1, hl', hs2, hsk2, hs3, hb, hs4, hsk4]; simp
                      · split at h
                        · rename_i hy; subst hy
                          simp only [Option.map_eq_some_iff] at h
                          obtain ⟨⟨es', r''⟩, h1, h2⟩ := h
                          simp at h2; obtain ⟨rfl, rfl⟩ := h2
                          obtain ⟨b', hb', he⟩ := ihm _ _ _ h1
                          refine ⟨_, ?_, .cons hw hk hw2 hw3 hval hw4 he⟩
                          rw [hs, hsk1, hl', hs2, hsk2, hs3, hb, hs4, hsk4, hb']; simp
                        · simp at h
                · simp at h
            · simp at h
        · simp at h

/-- What the parser accepts is a value of the grammar in white space. -/
theorem val_of_parse {s : Bytes} {c : Cst} (h : parse s = some c) :
    ∃ w1 b w2, Ws w1 ∧ Ws w2 ∧ s = w1 ++ b ++ w2 ∧ Val b c := by
  rw [parse] at h
  obtain ⟨w, hw, hs⟩ := skipWs_split s
  split at h
  · rename_i c' r hp
    split at h
    · rename_i hr
      simp at h; subst h
      obtain ⟨b, hb, hv⟩ := (parse_sound_aux _).1 _ _ _ hp
      obtain ⟨w2, hw2, hs2⟩ := skipWs_split r
      rw [hr, List.append_nil] at hs2
      refine ⟨w, b, w2, hw, hw2, ?_, hv⟩
      rw [hs, hb, hs2, List.append_assoc]
    · simp at h
  · simp at h

/-- A value text ends in a byte that is neither white space nor an opening brace. -/
theorem Val.last {b : Bytes} {c : Cst} (h : Val b c) :
    ∃ r a, b = r ++ [a] ∧ isWs a = false ∧ a ≠ 0x7B := by
  cases h with
  | num hn =>
    have hall := isNumber_all hn
    have hne := isNumber_ne_nil hn
    refine ⟨b.dropLast, b.getLast hne, (List.dropLast_concat_getLast hne).symm, ?_⟩
    have := List.all_eq_true.1 hall _ (List.getLast_mem hne)
    have h2 : ∀ a : UInt8, numChar a = true → isWs a = false ∧ a ≠ 0x7B := by
      set_option maxRecDepth 100000 in
      apply forall_byte; decide +kernel
    exact h2 _ this
  | null => exact ⟨b!"nul", 0x6C, rfl, by decide, by decide⟩
  | tru => exact ⟨b!"tru", 0x65, rfl, by decide, by decide⟩
  | fls => exact ⟨b!"fals", 0x65, rfl, by decide, by decide⟩
  | str _ => exact ⟨0x22 :: _, 0x22, by simp; rfl, by decide, by decide⟩
  | arr0 _ => exact ⟨0x5B :: _, 0x5D, by simp; rfl, by decide, by decide⟩
  | arr _ => exact ⟨0x5B :: _, 0x5D, by simp; rfl, by decide, by decide⟩
  | obj0 _ => exact ⟨0x7B :: _, 0x7D, by simp; rfl, by decide, by decide⟩
  | obj _ => exact ⟨0x7B :: _, 0x7D, by simp; rfl, by decide, by decide⟩

/-- No white space at either end. -/
def trimmed (s : Bytes) : Bool :=
  (match s.head? with | some a => !isWs a | none => true) &&
    (match s.getLast? with | some a => !isWs a | none => true)

/-- The parser decides the grammar on texts without surrounding white space. -/
theorem val_iff_parse {s : Bytes} {c : Cst} : Val s c ↔ parse s = some c ∧ trimmed s = true := by
  constructor
  · intro h
    refine ⟨parse_of_val h, ?_⟩
    obtain ⟨a, r, ha, hws, _⟩ := h.head
    obtain ⟨r', a', ha', hws', _⟩ := h.last
    have h1 : s.head? = some a := by rw [ha]; rfl
    have h2 : s.getLast? = some a' := by rw [ha']; simp
    simp [trimmed, h1, h2, hws, hws']
  · rintro ⟨h, ht⟩
    obtain ⟨w1, b, w2, hw1, hw2, rfl, hv⟩ := val_of_parse h
    have e1 : w1 = [] := by
      match w1, hw1 with
      | [], _ => rfl
      | x :: w1, hw1 =>
        have := hw1 x (by simp)
        simp [trimmed, this] at ht
    have e2 : w2 = [] := by
      rcases List.eq_nil_or_concat w2 with h | ⟨w, x, rfl⟩
      · exact h
      · have := hw2 x (by simp)
        simp [trimmed, this, ← List.append_assoc] at ht
    subst e1; subst e2
    simpa using hv

/-- Executable check that a text denotes a tree. -/
theorem denotes_of_parse {s : Bytes} {t : Tree} (h : parseTree s = some t) (ht : trimmed s = true) :
    Denotes s t := by
  rw [parseTree, Option.bind_eq_some_iff] at h
  obtain ⟨c, hc, hd⟩ := h
  exact ⟨c, val_iff_parse.2 ⟨hc, ht⟩, hd⟩

/-- A text that does not parse is not in the grammar. -/
theorem not_val_of_parse {s : Bytes} (h : parse s = none) : ¬ ∃ c, Val s c := by
  rintro ⟨c, hc⟩
  rw [parse_of_val hc] at h
  cases h

end Verif.Json
