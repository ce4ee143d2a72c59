import Verif.Gin.Parser
import Verif.Data.BenchLine
import Verif.Data.WarnLines

/-
Facts on the pieces of the gin traffic parser, with the specification they are stated in.
-/

namespace Verif.Gin

open Verif.Slog Verif.Data Verif.Go

/-! ### Specification -/

/-- Four parts between bars. -/
def Four (m p0 p1 p2 p3 : Bytes) : Prop :=
  m = p0 ++ 0x7C :: (p1 ++ 0x7C :: (p2 ++ 0x7C :: p3)) ∧ 0x7C ∉ p0 ∧ 0x7C ∉ p1 ∧ 0x7C ∉ p2 ∧ 0x7C ∉ p3

/-- A number with white space around, of 64 bits with sign. -/
def Code (p : Bytes) (n : Nat) : Prop :=
  ∃ a ds b, p = a ++ ds ++ b ∧ (∀ x ∈ a, isS x = true) ∧ Many isD ds ∧ (∀ x ∈ b, isS x = true) ∧ readNat ds = some n ∧ n < 2 ^ 63

/-- `t` is `s` without the bytes `c` at both ends. -/
def Trimmed (c : UInt8) (s t : Bytes) : Prop :=
  (∃ i j, s = List.replicate i c ++ t ++ List.replicate j c) ∧ t.head? ≠ some c ∧ t.getLast? ≠ some c

/-- Two texts without white space, with white space between. -/
def TwoFields (s x y : Bytes) : Prop :=
  ∃ b, s = x ++ b ++ y ∧ Many isS b ∧ (∀ a ∈ x, isS a = false) ∧ ∀ a ∈ y, isS a = false

/-! ### Lemmas -/

theorem splitOn_none {sep : UInt8} {w : Bytes} (h : sep ∉ w) : splitOn sep w = [w] := by
  induction w with
  | nil => rfl
  | cons a w ih =>
    rw [List.mem_cons, not_or] at h
    rw [splitOn, if_neg (fun e => h.1 e.symm), ih h.2]

theorem splitOn_append {sep : UInt8} {w : Bytes} (h : sep ∉ w) (s : Bytes) : splitOn sep (w ++ sep :: s) = w :: splitOn sep s := by
  induction w with
  | nil => rw [List.nil_append, splitOn, if_pos rfl]
  | cons a w ih =>
    rw [List.mem_cons, not_or] at h
    rw [List.cons_append, splitOn, if_neg (fun e => h.1 e.symm), ih h.2]

theorem splitOn_inv {sep : UInt8} {s w : Bytes} {ws : List Bytes} (h : splitOn sep s = w :: ws) :
    sep ∉ w ∧ ((ws = [] ∧ s = w) ∨ ∃ s', s = w ++ sep :: s' ∧ splitOn sep s' = ws) := by
  induction s generalizing w with
  | nil => cases h; exact ⟨by simp, .inl ⟨rfl, rfl⟩⟩
  | cons a s ih =>
    rw [splitOn] at h
    split at h
    · rename_i e
      cases h
      exact ⟨by simp, .inr ⟨s, by rw [e]; rfl, rfl⟩⟩
    · rename_i e
      cases hs : splitOn sep s with
      | nil =>
        exfalso
        cases s with
        | nil => cases hs
        | cons b s =>
          rw [splitOn] at hs
          split at hs
          · cases hs
          · split at hs <;> cases hs
      | cons v vs =>
        rw [hs] at h
        cases h
        obtain ⟨h1, h2⟩ := ih hs
        refine ⟨by simp only [List.mem_cons, not_or]; exact ⟨fun x => e x.symm, h1⟩, ?_⟩
        rcases h2 with ⟨h2, h3⟩ | ⟨s', h2, h3⟩
        · exact .inl ⟨h2, by rw [h3]⟩
        · exact .inr ⟨s', by rw [h2]; rfl, h3⟩

theorem four_iff (m p0 p1 p2 p3 : Bytes) : splitOn 0x7C m = [p0, p1, p2, p3] ↔ Four m p0 p1 p2 p3 := by
  constructor
  · intro h
    obtain ⟨h0, h⟩ := splitOn_inv h
    rcases h with ⟨h, _⟩ | ⟨s1, e1, h⟩
    · cases h
    obtain ⟨h1, h⟩ := splitOn_inv h
    rcases h with ⟨h, _⟩ | ⟨s2, e2, h⟩
    · cases h
    obtain ⟨h2, h⟩ := splitOn_inv h
    rcases h with ⟨h, _⟩ | ⟨s3, e3, h⟩
    · cases h
    obtain ⟨h3, h⟩ := splitOn_inv h
    rcases h with ⟨_, e4⟩ | ⟨s4, e4, h⟩
    · exact ⟨by rw [e1, e2, e3, e4], h0, h1, h2, h3⟩
    · exfalso
      cases s4 with
      | nil => cases h
      | cons b s =>
        rw [splitOn] at h
        split at h
        · cases h
        · split at h <;> cases h
  · rintro ⟨rfl, h0, h1, h2, h3⟩
    rw [splitOn_append h0, splitOn_append h1, splitOn_append h2, splitOn_none h3]

theorem dropWhile_replicate (c : UInt8) (i : Nat) (t : Bytes) (h : t.head? ≠ some c) :
    (List.replicate i c ++ t).dropWhile (· == c) = t := by
  induction i with
  | zero =>
    rw [List.replicate_zero, List.nil_append]
    cases t with
    | nil => rfl
    | cons a t =>
      rw [List.dropWhile_cons, if_neg]
      intro e
      rw [beq_iff_eq] at e
      exact h (by rw [e]; rfl)
  | succ i ih => rw [List.replicate_succ, List.cons_append, List.dropWhile_cons, if_pos (by simp), ih]

theorem dropWhile_split (c : UInt8) (s : Bytes) :
    ∃ i, s = List.replicate i c ++ s.dropWhile (· == c) ∧ (s.dropWhile (· == c)).head? ≠ some c := by
  induction s with
  | nil => exact ⟨0, rfl, by simp⟩
  | cons a s ih =>
    rw [List.dropWhile_cons]
    split
    · rename_i e
      obtain ⟨i, h1, h2⟩ := ih
      rw [beq_iff_eq] at e
      exact ⟨i + 1, by rw [List.replicate_succ, List.cons_append, ← h1, e], h2⟩
    · rename_i e
      refine ⟨0, rfl, ?_⟩
      intro h
      rw [List.head?_cons, Option.some.injEq] at h
      exact e (by simp [h])

theorem trim_iff (c : UInt8) (s t : Bytes) : trim c s = t ↔ Trimmed c s t := by
  constructor
  · rintro rfl
    obtain ⟨i, h1, h2⟩ := dropWhile_split c s
    obtain ⟨j, h3, h4⟩ := dropWhile_split c (s.dropWhile (· == c)).reverse
    have e : s.dropWhile (· == c) = trim c s ++ List.replicate j c := by
      have := congrArg List.reverse h3
      rw [List.reverse_reverse, List.reverse_append, List.reverse_replicate] at this
      exact this
    refine ⟨⟨i, j, ?_⟩, ?_, ?_⟩
    · rw [List.append_assoc, ← e]; exact h1
    · intro h
      apply h2
      rw [e, List.head?_append, h]
      rfl
    · rw [trim, List.getLast?_reverse]; exact h4
  · rintro ⟨⟨i, j, rfl⟩, h1, h2⟩
    cases t with
    | nil =>
      rw [List.append_nil, List.replicate_append_replicate]
      have := dropWhile_replicate c (i + j) [] (by simp)
      rw [List.append_nil] at this
      rw [trim, this]
      rfl
    | cons a t =>
      unfold trim
      rw [List.append_assoc, dropWhile_replicate c i _ (by rw [List.cons_append, List.head?_cons]; exact h1), List.reverse_append,
        List.reverse_replicate, dropWhile_replicate c j _ (by rw [List.head?_reverse]; exact h2), List.reverse_reverse]

theorem splitS_word {w : Bytes} (h : ∀ a ∈ w, isS a = false) : splitS w = [w] := by
  induction w with
  | nil => rfl
  | cons a w ih =>
    rw [splitS, if_neg (by rw [h a (by simp)]; simp), ih fun b hb => h b (by simp [hb])]

theorem splitS_blank {b : Bytes} (hb : Many isS b) {y : Bytes} (hy : ∀ a t, y = a :: t → isS a = false) :
    splitS (b ++ y) = [] :: splitS y := by
  obtain ⟨hne, hb⟩ := hb
  induction b with
  | nil => exact absurd rfl hne
  | cons a b ih =>
    have ha : isS a = true := hb a (by simp)
    rw [List.cons_append, splitS, if_pos ha]
    cases b with
    | nil =>
      rw [List.nil_append]
      cases y with
      | nil => rfl
      | cons c y => rw [if_neg (by rw [startsS, hy c y rfl]; simp)]
    | cons c b =>
      rw [List.cons_append, if_pos (show startsS (c :: (b ++ y)) = true from hb c (by simp))]
      exact ih (by simp) fun x hx => hb x (by simp [hx])

theorem splitS_append {w : Bytes} (h : ∀ a ∈ w, isS a = false) {b : Bytes} (hb : Many isS b) {y : Bytes}
    (hy : ∀ a t, y = a :: t → isS a = false) : splitS (w ++ (b ++ y)) = w :: splitS y := by
  induction w with
  | nil => exact splitS_blank hb hy
  | cons a w ih =>
    rw [List.cons_append, splitS, if_neg (by rw [h a (by simp)]; simp), ih fun b hb => h b (by simp [hb])]

theorem splitS_ne (s : Bytes) : splitS s ≠ [] := by
  induction s with
  | nil => simp [splitS]
  | cons a s ih =>
    rw [splitS]
    split
    · split
      · exact ih
      · simp
    · split <;> simp

theorem splitS_inv {s w : Bytes} {ws : List Bytes} (h : splitS s = w :: ws) :
    (∀ a ∈ w, isS a = false) ∧ ((ws = [] ∧ s = w) ∨
      ∃ b y, s = w ++ (b ++ y) ∧ Many isS b ∧ (∀ a t, y = a :: t → isS a = false) ∧ splitS y = ws) := by
  induction s generalizing w ws with
  | nil => cases h; exact ⟨by simp, .inl ⟨rfl, rfl⟩⟩
  | cons a s ih =>
    rw [splitS] at h
    split at h
    · rename_i ha
      split at h
      · rename_i hc
        obtain ⟨c, t, rfl⟩ : ∃ c t, s = c :: t := by
          cases s with
          | nil => cases hc
          | cons c t => exact ⟨c, t, rfl⟩
        replace hc : isS c = true := hc
        obtain ⟨h1, h2⟩ := ih h
        rcases h2 with ⟨_, h2⟩ | ⟨b, y, h2, h3, h4, h5⟩
        · exfalso
          have := h1 c (by rw [← h2]; simp)
          rw [hc] at this
          cases this
        · have hw : w = [] := by
            cases w with
            | nil => rfl
            | cons x w =>
              exfalso
              have := h1 x (by simp)
              rw [List.cons_append] at h2
              cases h2
              rw [hc] at this
              cases this
          subst hw
          refine ⟨by simp, .inr ⟨a :: b, y, by rw [h2]; rfl, ⟨by simp, ?_⟩, h4, h5⟩⟩
          intro x hx
          rcases List.mem_cons.1 hx with rfl | hx
          · exact ha
          · exact h3.2 x hx
      · rename_i hc
        cases h
        refine ⟨by simp, .inr ⟨[a], s, rfl, ⟨by simp, by simpa using ha⟩, ?_, rfl⟩⟩
        rintro x y rfl
        simpa [startsS] using hc
    · rename_i ha
      split at h
      · rename_i e; exact absurd e (splitS_ne s)
      · rename_i v vs e
        cases h
        obtain ⟨h1, h2⟩ := ih e
        refine ⟨?_, ?_⟩
        · intro x hx
          rcases List.mem_cons.1 hx with rfl | hx
          · simpa using ha
          · exact h1 x hx
        · rcases h2 with ⟨h2, h3⟩ | ⟨b, y, h2, h3, h4, h5⟩
          · exact .inl ⟨h2, by rw [h3]⟩
          · exact .inr ⟨b, y, by rw [h2]; rfl, h3, h4, h5⟩

theorem two_iff (s x y : Bytes) : splitS s = [x, y] ↔ TwoFields s x y := by
  constructor
  · intro h
    obtain ⟨h1, h⟩ := splitS_inv h
    rcases h with ⟨h, _⟩ | ⟨b, z, e, hb, hz, h⟩
    · cases h
    obtain ⟨h2, h⟩ := splitS_inv h
    rcases h with ⟨_, e'⟩ | ⟨_, z', _, _, _, h⟩
    · subst e'
      exact ⟨b, by rw [e, List.append_assoc], hb, h1, h2⟩
    · exact absurd h (splitS_ne z')
  · rintro ⟨b, rfl, hb, hx, hy⟩
    rw [List.append_assoc, splitS_append hx hb (fun a t e => hy a (by rw [e]; simp)), splitS_word hy]

theorem code_find {p a ds b : Bytes} (e : p = a ++ ds ++ b) (ha : ∀ x ∈ a, isS x = true) (hd : Many isD ds)
    (hb : ∀ x ∈ b, isS x = true) : ptnCode.find p = some [(1, ds)] := by
  subst e
  unfold ptnCode Re.find
  simp only [seq]
  rw [run_cat, List.append_assoc]
  refine run_star ha (digit_first hd) ?_
  rw [run_cat]
  refine run_cap_plus hd ?_ (run_end hb)
  rintro x t' e
  exact space_digit x (hb x (by rw [e]; simp))

theorem code_of_find {p : Bytes} {m : Caps} (h : ptnCode.find p = some m) :
    ∃ a ds b, p = a ++ ds ++ b ∧ (∀ x ∈ a, isS x = true) ∧ Many isD ds ∧ (∀ x ∈ b, isS x = true) ∧ m = [(1, ds)] := by
  have : ∃ u, Lang ptnCode p u := by
    apply Classical.byContradiction
    intro hn
    have := (Re.find_none ptnCode p).2 fun t ht => hn ⟨t, ht⟩
    rw [this] at h
    cases h
  obtain ⟨u, hl⟩ := this
  unfold ptnCode at hl
  simp only [seq] at hl
  obtain ⟨a, t, e, ha, hl⟩ := lang_seq_star hl
  cases hl with | cat q hl =>
  cases q with | cap q =>
  obtain ⟨ds, e2, hd⟩ := lang_plus q
  obtain ⟨b, t', e3, hb, hl⟩ := lang_seq_star hl
  have := lang_eot hl
  subst this
  rw [List.append_nil] at e3
  subst e3
  subst e2
  rw [← List.append_assoc] at e
  refine ⟨a, ds, _, e, ha, hd, hb, ?_⟩
  have := code_find e ha hd hb
  rw [h] at this
  exact Option.some.inj this

theorem code_iff (p : Bytes) (n : Nat) :
    (∃ m, ptnCode.find p = some m ∧ parseInt64 (Caps.text m 1) = some n) ↔ Code p n := by
  have pi : ∀ ds, parseInt64 ds = some n ↔ readNat ds = some n ∧ n < 2 ^ 63 := by
    intro ds
    unfold parseInt64
    cases h : readNat ds with
    | none => simp
    | some k =>
      dsimp only
      by_cases hk : k < 2 ^ 63
      · rw [if_pos hk, Option.some.injEq]
        constructor
        · rintro rfl; exact ⟨rfl, hk⟩
        · exact fun h => h.1
      · rw [if_neg hk, Option.some.injEq]
        constructor
        · intro h; cases h
        · rintro ⟨rfl, h⟩; exact absurd h hk
  constructor
  · rintro ⟨m, hm, hp⟩
    obtain ⟨a, ds, b, e, ha, hd, hb, rfl⟩ := code_of_find hm
    have hp : parseInt64 ds = some n := hp
    rw [pi] at hp
    exact ⟨a, ds, b, e, ha, hd, hb, hp⟩
  · rintro ⟨a, ds, b, e, ha, hd, hb, hn⟩
    exact ⟨_, code_find e ha hd hb, (pi ds).2 hn⟩

end Verif.Gin
