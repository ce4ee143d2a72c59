import Verif.Data.BenchLine

/-
What the pattern of lines that name handlers matches.
-/

set_option linter.unusedSimpArgs false

namespace Verif.Data
open Go Verif.Warning

/-! ### Specification -/

/-- A line can be taken to give a tag a name. -/
inductive NameLine : Bytes → Bytes → Bytes → Prop
  | mk {t n s1 s2 s3 s4 : Bytes} (ht : Many isNS t) (hn : Many isNS n) (h1 : ∀ a ∈ s1, isS a = true) (h2 : ∀ a ∈ s2, isS a = true)
      (h3 : ∀ a ∈ s3, isS a = true) (h4 : ∀ a ∈ s4, isS a = true) :
    NameLine (b!"#" ++ s1 ++ b!"Handler[" ++ t ++ b!"]" ++ s2 ++ b!"=" ++ s3 ++ b!"\"" ++ n ++ b!"\"" ++ s4) t n

/-- A line gives a tag a name: there may be more than one way to see it, the longest tag is taken. -/
def Names (l t n : Bytes) : Prop := NameLine l t n ∧ ∀ t' n', NameLine l t' n' → t'.length ≤ t.length

/-! ### The pattern -/

theorem run_cap_plus_last {i : Nat} {p : UInt8 → Bool} {k : Bytes → Caps → Option Caps} {u t : Bytes} {m r : Caps} (hu : Many p u)
    (ht : ∀ a t', t = a :: t' → ∀ v t'', t' = v ++ t'' → (∀ x ∈ v, p x = true) → k t'' (m.set i (u ++ a :: v)) = none)
    (h : k t (m.set i u) = some r) : (Re.cap i (plus p)).run k (u ++ t) m = some r := by
  obtain ⟨hne, hu⟩ := hu
  cases u with
  | nil => exact absurd rfl hne
  | cons b u =>
    rw [run_cap]
    unfold plus
    rw [run_cat, List.cons_append, run_one _ (hu b (by simp))]
    refine run_star_last (fun a ha => hu a (by simp [ha])) ?_ ?_
    · intro a t' e t'' hl
      obtain ⟨v, rfl, hv⟩ := lang_star hl
      have := ht a (v ++ t'') e v t'' rfl hv
      subst e
      rw [← this]
      congr 2
      rw [show b :: (u ++ a :: (v ++ t'')) = (b :: u ++ a :: v) ++ t'' by simp]
      exact take_diff _ _
    · rw [← h]
      congr 2
      rw [← List.cons_append]
      exact take_diff _ _

/-- The part of the pattern after the tag. -/
def afterTag : Re := seq [.lit b!"]", .star isS, .lit b!"=", .star isS, .lit b!"\"", .cap 2 (plus isNS), .lit b!"\"", .star isS, .eot]

theorem lang_end {s u : Bytes} (h : Lang (.cat (.star isS) .eot) s u) : ∀ a ∈ s, isS a = true := by
  obtain ⟨v, t, rfl, hv, he⟩ := lang_seq_star h
  cases he
  simpa using hv

theorem lang_afterTag {s u : Bytes} (h : Lang afterTag s u) : ∃ n s2 s3 s4, Many isNS n ∧ (∀ a ∈ s2, isS a = true) ∧
    (∀ a ∈ s3, isS a = true) ∧ (∀ a ∈ s4, isS a = true) ∧ s = b!"]" ++ s2 ++ b!"=" ++ s3 ++ b!"\"" ++ n ++ b!"\"" ++ s4 := by
  unfold afterTag at h
  simp only [seq] at h
  cases h with | cat q ha =>
  cases q with | lit =>
  obtain ⟨s2, _, rfl, h2, hb⟩ := lang_seq_star ha
  cases hb with | cat q hc =>
  cases q with | lit =>
  obtain ⟨s3, _, rfl, h3, hd⟩ := lang_seq_star hc
  cases hd with | cat q he =>
  cases q with | lit =>
  cases he with | cat q hf =>
  cases q with | cap q =>
  obtain ⟨n, rfl, hn⟩ := lang_plus q
  cases hf with | cat q hg =>
  cases q with | lit =>
  rename_i s4
  exact ⟨n, s2, s3, s4, hn, h2, h3, lang_end hg, by simp⟩

theorem run_afterTag {n s2 s3 s4 : Bytes} (hn : Many isNS n) (h2 : ∀ a ∈ s2, isS a = true) (h3 : ∀ a ∈ s3, isS a = true)
    (h4 : ∀ a ∈ s4, isS a = true) (m : Caps) :
    afterTag.run (fun _ m => some m) (b!"]" ++ s2 ++ b!"=" ++ s3 ++ b!"\"" ++ n ++ b!"\"" ++ s4) m = some (m.set 2 n) := by
  unfold afterTag
  simp only [seq, List.append_assoc]
  rw [run_cat, run_lit, run_cat]
  refine run_star h2 (by rintro a t' e; cases e; decide) ?_
  rw [run_cat, run_lit, run_cat]
  refine run_star h3 (by rintro a t' e; cases e; decide) ?_
  rw [run_cat, run_lit, run_cat]
  refine run_cap_plus_last hn ?_ ?_
  · intro a t' e v t'' e' hv
    obtain ⟨rfl, rfl⟩ : 0x22 = a ∧ s4 = t' := by simpa using e
    cases v with
    | cons x v =>
      have h1 := hv x (by simp)
      have h2 := h4 x (by rw [e']; simp)
      simp [isNS, h2] at h1
    | nil =>
      simp only [List.nil_append] at e'
      subst e'
      rw [run_cat]
      unfold Re.run
      cases hs : stripPrefix b!"\"" s4 with
      | none => rfl
      | some t =>
        have := stripPrefix_iff.1 hs
        exact absurd (h4 0x22 (by rw [this]; simp)) (by decide)
  · rw [run_cat, run_lit]
    exact run_end h4

/-- What is found in a line. -/
theorem find_names {l t n : Bytes} (h : Names l t n) : ptnHandlerDef.find l = some [(1, t), (2, n)] := by
  obtain ⟨hl, hmax⟩ := h
  cases hl with
  | @mk _ _ s1 s2 s3 s4 ht hn h1 h2 h3 h4 =>
    unfold ptnHandlerDef Re.find
    simp only [seq, List.append_assoc]
    rw [run_cat, run_lit, run_cat]
    refine run_star h1 (by rintro a t' e; cases e; decide) ?_
    rw [run_cat, run_lit, run_cat]
    have e := run_afterTag hn h2 h3 h4 (Map.set [] 1 t)
    simp only [List.append_assoc] at e
    refine run_cap_plus_last ht ?_ e
    intro a t' e v t'' e' hv
    obtain ⟨rfl, rfl⟩ : 0x5D = a ∧ _ = t' := by simpa using e
    refine (Re.run_none afterTag _ t'' _ fun _ _ _ => by simp).2 fun u hu => ?_
    obtain ⟨n', s2', s3', s4', hn', h2', h3', h4', e2⟩ := lang_afterTag hu
    subst e2
    have hl : NameLine (b!"#" ++ s1 ++ b!"Handler[" ++ (t ++ 0x5D :: v) ++ b!"]" ++ s2' ++ b!"=" ++ s3' ++ b!"\"" ++ n' ++ b!"\"" ++ s4')
        (t ++ 0x5D :: v) n' := by
      refine .mk ⟨by simp, ?_⟩ hn' h1 h2' h3' h4'
      intro x hx
      rcases List.mem_append.1 hx with hx | hx
      · exact ht.all x hx
      · rcases List.mem_cons.1 hx with rfl | hx
        · decide
        · exact hv x hx
    have := hmax (t ++ 0x5D :: v) n' (by
      have e3 : b!"#" ++ s1 ++ b!"Handler[" ++ t ++ b!"]" ++ s2 ++ b!"=" ++ s3 ++ b!"\"" ++ n ++ b!"\"" ++ s4 =
          b!"#" ++ s1 ++ b!"Handler[" ++ (t ++ 0x5D :: v) ++ b!"]" ++ s2' ++ b!"=" ++ s3' ++ b!"\"" ++ n' ++ b!"\"" ++ s4' := by
        simp only [List.append_assoc, List.cons_append, List.nil_append] at e' ⊢
        rw [e']
      rw [e3]; exact hl)
    simp only [List.length_append, List.length_cons] at this
    omega

theorem nameLine_of_find {l : Bytes} {m : Caps} (hf : ptnHandlerDef.find l = some m) : ∃ t n, NameLine l t n := by
  have : ∃ u, Lang ptnHandlerDef l u := by
    apply Classical.byContradiction
    intro hn
    have := (Re.find_none ptnHandlerDef l).2 fun t ht => hn ⟨t, ht⟩
    rw [this] at hf; cases hf
  obtain ⟨u, hl⟩ := this
  unfold ptnHandlerDef at hl
  simp only [seq] at hl
  cases hl with | cat q ha =>
  cases q with | lit =>
  obtain ⟨s1, _, rfl, h1, hb⟩ := lang_seq_star ha
  cases hb with | cat q hc =>
  cases q with | lit =>
  cases hc with | cat q hd =>
  cases q with | cap q =>
  obtain ⟨t, rfl, ht⟩ := lang_plus q
  obtain ⟨n, s2, s3, s4, hn, h2, h3, h4, rfl⟩ := lang_afterTag hd
  refine ⟨t, n, ?_⟩
  have := NameLine.mk ht hn h1 h2 h3 h4
  simpa using this

/-- If a line can be taken to name a tag, it names one. -/
theorem names_of_nameLine {l t n : Bytes} (h : NameLine l t n) : ∃ t n, Names l t n := by
  have key : ∀ k t n, l.length - t.length = k → NameLine l t n → ∃ t n, Names l t n := by
    intro k
    induction k using Nat.strongRecOn with
    | _ k ih =>
      intro t n hk h
      by_cases hm : ∀ t' n', NameLine l t' n' → t'.length ≤ t.length
      · exact ⟨t, n, h, hm⟩
      · simp only [Classical.not_forall] at hm
        obtain ⟨t', n', h', hlt⟩ := hm
        have hle : t'.length ≤ l.length := by
          cases h'
          simp only [List.length_append]
          omega
        exact ih (l.length - t'.length) (by omega) t' n' rfl h'
  exact key _ t n rfl h

theorem names_of_find {l : Bytes} {m : Caps} (hf : ptnHandlerDef.find l = some m) : ∃ t n, Names l t n ∧ m = [(1, t), (2, n)] := by
  obtain ⟨t, n, h⟩ := nameLine_of_find hf
  obtain ⟨t, n, h⟩ := names_of_nameLine h
  refine ⟨t, n, h, ?_⟩
  rw [find_names h] at hf
  cases hf; rfl

/-- A line names one tag, and gives it one name. -/
theorem names_unique {l t n t' n' : Bytes} (h : Names l t n) (h' : Names l t' n') : t = t' ∧ n = n' := by
  have := (find_names h).symm.trans (find_names h')
  simpa using this

end Verif.Data
