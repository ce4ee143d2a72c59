import Verif.Gin.Writer
import Verif.Gin.ParseLemmas

/-
Facts on the pieces of the gin writer, with the specification they are stated in.
-/

namespace Verif.Gin

open Verif.Slog Verif.Data Verif.Go

/-! ### Specification -/

/-- White space only. -/
def Blank (s : Bytes) : Prop := ∀ x ∈ s, isS x = true

instance (s : Bytes) : Decidable (Blank s) := by unfold Blank; infer_instance

/-- A name in brackets first, with white space around. -/
def Tagged (m name rest : Bytes) : Prop :=
  ∃ a b, m = a ++ (b!"[" ++ name ++ b!"]") ++ b ++ rest ∧ Blank a ∧ Blank b ∧ ∀ x t, rest = x :: t → isS x = false

/-- Something in brackets on the first line that is not blank. -/
def Bracketed (m : Bytes) : Prop := ∃ a t u, m = a ++ b!"[" ++ t ++ b!"]" ++ u ∧ Blank a ∧ ∀ x ∈ t, x ≠ 0x0A

/-- The names of levels. -/
inductive LevelName : Bytes → Int → Prop
  | debug : LevelName b!"DEBUG" (-4)
  | info : LevelName b!"INFO" 0
  | warning : LevelName b!"WARNING" 4
  | error : LevelName b!"ERROR" 8

/-- The prefixes known. -/
inductive Prefix : Bytes → Option Int → Prop
  | gin : Prefix b!"GIN" none
  | debug : Prefix b!"GIN-debug" (some (-4))
  | level {name : Bytes} {l : Int} : LevelName name l → Prefix name (some l)

/-- Reading so many prefixes, beginning with some level; `none` is an error. -/
inductive Reads : Nat → Leveler → Bytes → Option (Leveler × Bytes) → Prop
  | limit {lv : Leveler} {m : Bytes} : Reads 0 lv m (some (lv, m))
  | keep {n : Nat} {lv : Leveler} {m name r : Bytes} {o : Option (Leveler × Bytes)} :
      Tagged m name r → Prefix name none → Reads n lv r o → Reads (n + 1) lv m o
  | set {n : Nat} {lv : Leveler} {m name r : Bytes} {l : Int} {o : Option (Leveler × Bytes)} :
      Tagged m name r → Prefix name (some l) → Reads n (.level l) r o → Reads (n + 1) lv m o
  | bad {n : Nat} {lv : Leveler} {m : Bytes} :
      Bracketed m → (∀ name l r, Prefix name l → ¬ Tagged m name r) → Reads (n + 1) lv m none
  | stop {n : Nat} {lv : Leveler} {m : Bytes} : ¬ Bracketed m → Reads (n + 1) lv m (some (lv, m))

/-- Date and time as gin prints them, and a bar. -/
def TimePrefix (s : Bytes) : Prop :=
  ∃ b0 y b1 mo d b2 b3 h mi sec, s = b0 ++ (y ++ (b!"/" ++ (mo ++ (b!"/" ++ (d ++ (b1 ++ (b!"-" ++ (b2 ++ (h ++ (b!":" ++ (mi ++ (b!":" ++ (sec ++ (b3 ++ b!"|")))))))))))))) ∧
    Blank b0 ∧ Many isD y ∧ Many isD mo ∧ Many isD d ∧ Blank b1 ∧ Blank b2 ∧ Many isD h ∧ Many isD mi ∧ Many isD sec ∧ Blank b3

/-- A line with a time, and what follows: a text on one line without white space first, or the last of the white space if there is
nothing else. -/
def TimeLine (m r : Bytes) : Prop :=
  ∃ pre w, m = pre ++ w ++ r ∧ TimePrefix pre ∧ Blank w ∧ Many isDot r ∧ ((∀ x t, r = x :: t → isS x = false) ∨ r.length = 1)

/-! ### Lemmas -/

theorem starRun_some {R : Type} {p : UInt8 → Bool} {k : Bytes → Option R} {s : Bytes} {r : R} (h : starRun p k s = some r) :
    ∃ u t, s = u ++ t ∧ (∀ a ∈ u, p a = true) ∧ k t = some r := by
  induction s with
  | nil => exact ⟨[], [], rfl, by simp, h⟩
  | cons a s ih =>
    unfold starRun at h
    split at h
    · rename_i hp
      split at h
      · rename_i r' e
        cases h
        obtain ⟨u, t, rfl, hu, hk⟩ := ih e
        refine ⟨a :: u, t, rfl, fun b hb => ?_, hk⟩
        rcases List.mem_cons.1 hb with rfl | hb
        · exact hp
        · exact hu b hb
      · exact ⟨[], a :: s, rfl, by simp, h⟩
    · exact ⟨[], a :: s, rfl, by simp, h⟩

theorem find_exists {r : Re} {s : Bytes} {c : Caps} (h : r.find s = some c) : ∃ t, Lang r s t := by
  apply Classical.byContradiction
  intro hn
  have := (Re.find_none r s).2 fun t ht => hn ⟨t, ht⟩
  rw [this] at h
  cases h

theorem lang_lit {p s t : Bytes} (h : Lang (.lit p) s t) : s = p ++ t := by cases h; rfl

/-- White space at the start, as far as it goes. -/
theorem blank_split (s : Bytes) : ∃ w r, s = w ++ r ∧ Blank w ∧ ∀ x t, r = x :: t → isS x = false := by
  induction s with
  | nil => exact ⟨[], [], rfl, by simp [Blank], by simp⟩
  | cons a s ih =>
    cases h : isS a with
    | false =>
      refine ⟨[], a :: s, rfl, by simp [Blank], ?_⟩
      rintro x t e
      cases e
      exact h
    | true =>
      obtain ⟨w, r, rfl, hw, hr⟩ := ih
      refine ⟨a :: w, r, rfl, ?_, hr⟩
      intro x hx
      rcases List.mem_cons.1 hx with rfl | hx
      · exact h
      · exact hw x hx

theorem tag_find {m name rest a b : Bytes} (e : m = a ++ (b!"[" ++ name ++ b!"]") ++ b ++ rest) (ha : Blank a) (hb : Blank b)
    (hr : ∀ x t, rest = x :: t → isS x = false) :
    (ptnTag name).find m = some [(0, a ++ (b!"[" ++ name ++ b!"]") ++ b)] := by
  subst e
  unfold ptnTag Re.find
  simp only [seq]
  rw [run_cap, run_cat]
  have e1 : a ++ (b!"[" ++ name ++ b!"]") ++ b ++ rest = a ++ ((b!"[" ++ name ++ b!"]") ++ (b ++ rest)) := by simp
  generalize hM : a ++ (b!"[" ++ name ++ b!"]") ++ b ++ rest = M at *
  rw [e1]
  refine run_star ha (by rintro x t e; cases e; decide) ?_
  rw [run_cat, run_lit]
  refine run_star hb hr ?_
  rw [← e1, ← hM, take_diff]
  rfl

theorem tag_of_find {m name : Bytes} {c : Caps} (h : (ptnTag name).find m = some c) : ∃ rest, Tagged m name rest := by
  obtain ⟨t, h⟩ := find_exists h
  unfold ptnTag at h
  simp only [seq] at h
  cases h with | cap h =>
  obtain ⟨a, t1, e, ha, hl⟩ := lang_seq_star h
  cases hl with | cat q hl =>
  have e2 := lang_lit q
  rename_i t2
  obtain ⟨b, r, e3, hb, hr⟩ := blank_split t2
  refine ⟨r, a, b, ?_, ha, hb, hr⟩
  rw [e, e2, e3]
  simp

theorem tag_drop {m name rest : Bytes} (h : Tagged m name rest) : ∃ c, (ptnTag name).find m = some c ∧ m.drop (Caps.text c 0).length = rest := by
  obtain ⟨a, b, e, ha, hb, hr⟩ := h
  refine ⟨_, tag_find e ha hb hr, ?_⟩
  rw [e]
  exact List.drop_left

theorem tag_none {m name : Bytes} (h : ∀ r, ¬ Tagged m name r) : (ptnTag name).find m = none := by
  cases e : (ptnTag name).find m with
  | none => rfl
  | some c =>
    obtain ⟨r, hr⟩ := tag_of_find e
    exact absurd hr (h r)

theorem bracket_name {x y : Bytes} {s t a b : Bytes} (ha : Blank a) (hb : Blank b) (hx : 0x5D ∉ x) (hy : 0x5D ∉ y)
    (e : a ++ (b!"[" ++ x ++ b!"]") ++ s = b ++ (b!"[" ++ y ++ b!"]") ++ t) : x = y ∧ a = b ∧ s = t := by
  have key : ∀ {x y : Bytes}, 0x5D ∉ x → 0x5D ∉ y → ∀ {s t : Bytes}, x ++ b!"]" ++ s = y ++ b!"]" ++ t → x = y ∧ s = t := by
    intro x
    induction x with
    | nil =>
      intro y _ hy s t e
      cases y with
      | nil => cases e; exact ⟨rfl, rfl⟩
      | cons c y => cases e; exact absurd (by simp) hy
    | cons c x ih =>
      intro y hx hy s t e
      cases y with
      | nil => cases e; exact absurd (by simp) hx
      | cons d y =>
        simp only [List.cons_append, List.cons.injEq] at e
        obtain ⟨rfl, e⟩ := e
        simp only [List.mem_cons, not_or] at hx hy
        obtain ⟨rfl, rfl⟩ := ih hx.2 hy.2 e
        exact ⟨rfl, rfl⟩
  induction a generalizing b with
  | nil =>
    cases b with
    | nil =>
      simp only [List.nil_append, List.append_assoc, List.cons_append, List.cons.injEq, true_and] at e
      have := key hx hy (s := s) (t := t) (by simpa using e)
      exact ⟨this.1, rfl, this.2⟩
    | cons c b =>
      simp only [List.nil_append, List.append_assoc, List.cons_append, List.cons.injEq] at e
      obtain ⟨rfl, _⟩ := e
      exact absurd (hb 0x5B (by simp)) (by decide)
  | cons c a ih =>
    cases b with
    | nil =>
      simp only [List.nil_append, List.append_assoc, List.cons_append, List.cons.injEq] at e
      obtain ⟨rfl, _⟩ := e
      exact absurd (ha 0x5B (by simp)) (by decide)
    | cons d b =>
      simp only [List.cons_append, List.cons.injEq] at e
      obtain ⟨rfl, e⟩ := e
      obtain ⟨h1, rfl, h3⟩ := ih (fun x hx => ha x (by simp [hx])) (fun x hx => hb x (by simp [hx])) e
      exact ⟨h1, rfl, h3⟩

/-- There is one name and one rest. -/
theorem tagged_unique {m x y r s : Bytes} (hx : Tagged m x r) (hy : Tagged m y s) (nx : 0x5D ∉ x) (ny : 0x5D ∉ y) : x = y ∧ r = s := by
  obtain ⟨a, b, e, ha, hb, hr⟩ := hx
  obtain ⟨a', b', e', ha', hb', hr'⟩ := hy
  have h := bracket_name (s := b ++ r) (t := b' ++ s) ha ha' nx ny (by rw [← List.append_assoc, ← e, e', List.append_assoc])
  obtain ⟨rfl, rfl, h⟩ := h
  refine ⟨rfl, ?_⟩
  have h1 := tag_find e ha hb hr
  have h2 := tag_find e' ha' hb' hr'
  rw [h1] at h2
  have h2 := congrArg (fun o : Option Caps => (o.map fun c => Caps.text c 0)) h2
  have h2 : a ++ (b!"[" ++ x ++ b!"]") ++ b = a ++ (b!"[" ++ x ++ b!"]") ++ b' := Option.some.inj h2
  have h2 := List.append_cancel_left h2
  subst h2
  exact List.append_cancel_left h

theorem prefix_bracket {name : Bytes} {l : Option Int} (h : Prefix name l) : 0x5D ∉ name := by
  cases h with
  | gin => decide
  | debug => decide
  | level h => cases h <;> decide

theorem any_of_find {m : Bytes} {c : Caps} (h : ptnAnyTag.find m = some c) :
    Bracketed m ∧ ∃ r, Tagged m (Caps.text c 1) r := by
  unfold ptnAnyTag Re.find at h
  simp only [seq] at h
  rw [run_cap, run_cat] at h
  obtain ⟨a, t1, e, ha, h⟩ := starRun_some h
  simp only [Re.run] at h
  split at h
  · rename_i t2 e2
    rw [stripPrefix_iff] at e2
    obtain ⟨t, t3, e3, ht, h⟩ := starRun_some h
    split at h
    · rename_i t4 e4
      rw [stripPrefix_iff] at e4
      obtain ⟨b, t5, e5, hb, h⟩ := starRun_some h
      cases h
      refine ⟨⟨a, t, t4, ?_, ha, fun x hx => by have := ht x hx; simpa [isDot] using this⟩, ?_⟩
      · rw [e, e2, e3, e4]; simp
      · obtain ⟨b', r, e6, hb', hr⟩ := blank_split t4
        have : t2.take (t2.length - t3.length) = t := by rw [e3, take_diff]
        rw [this]
        refine ⟨r, a, b', ?_, ha, hb', hr⟩
        show m = _
        rw [e, e2, e3, e4, e6]
        simp [Caps.text, Map.set, Map.get]
    · cases h
  · cases h

theorem any_none {m : Bytes} : ptnAnyTag.find m = none ↔ ¬ Bracketed m := by
  constructor
  · rintro h ⟨a, t, u, e, ha, ht⟩
    rw [Re.find_none] at h
    have star : ∀ {p : UInt8 → Bool} {u t : Bytes}, (∀ a ∈ u, p a = true) → Lang (.star p) (u ++ t) t := by
      intro p u t hu
      induction u with
      | nil => exact .star0
      | cons a u ih => exact .star1 (hu a (by simp)) (ih fun b hb => hu b (by simp [hb]))
    refine h u ?_
    unfold ptnAnyTag
    simp only [seq]
    rw [e]
    refine .cap (.cat (t := b!"[" ++ (t ++ (b!"]" ++ u))) ?_ (.cat .lit (.cat (.cap (star (t := b!"]" ++ u) ?_)) (.cat .lit .star0))))
    · have := star (p := isS) (u := a) (t := b!"[" ++ (t ++ (b!"]" ++ u))) ha
      simpa using this
    · intro x hx
      simpa [isDot] using ht x hx
  · intro h
    cases e : ptnAnyTag.find m with
    | none => rfl
    | some c => exact absurd (any_of_find e).1 h

theorem findLevel_name {m name rest : Bytes} {l : Int} (hl : LevelName name l) (h : Tagged m name rest) :
    ∃ text, findLogLevel m = some (text, name) ∧ m.drop text.length = rest ∧ logLevel name = some l := by
  have no : ∀ x, 0x5D ∉ x → x ≠ name → (ptnTag x).find m = none := by
    intro x hx hne
    refine tag_none fun r hr => hne ?_
    exact (tagged_unique hr h hx (prefix_bracket (.level hl))).1
  obtain ⟨c, hc, hd⟩ := tag_drop h
  unfold findLogLevel
  cases hl with
  | debug => rw [hc]; exact ⟨_, rfl, hd, by decide⟩
  | error => rw [no b!"DEBUG" (by decide) (by decide), hc]; exact ⟨_, rfl, hd, by decide⟩
  | info => rw [no b!"DEBUG" (by decide) (by decide), no b!"ERROR" (by decide) (by decide), hc]; exact ⟨_, rfl, hd, by decide⟩
  | warning =>
    rw [no b!"DEBUG" (by decide) (by decide), no b!"ERROR" (by decide) (by decide), no b!"INFO" (by decide) (by decide), hc]
    exact ⟨_, rfl, hd, by decide⟩

theorem findLevel_other {m : Bytes} (h : ∀ name l r, LevelName name l → ¬ Tagged m name r) :
    (¬ Bracketed m → findLogLevel m = none) ∧
      (Bracketed m → ∃ text name, findLogLevel m = some (text, name) ∧ logLevel name = none) := by
  have no : ∀ {x l}, LevelName x l → (ptnTag x).find m = none := fun hl => tag_none fun r hr => h _ _ r hl hr
  have e : findLogLevel m = (ptnAnyTag.find m).map fun c => (Caps.text c 0, Caps.text c 1) := by
    unfold findLogLevel
    rw [no .debug, no .error, no .info, no .warning]
  rw [e]
  constructor
  · intro hb
    rw [any_none.2 hb]
    rfl
  · intro hb
    cases e : ptnAnyTag.find m with
    | none => exact absurd hb (any_none.1 e)
    | some c =>
      refine ⟨_, _, rfl, ?_⟩
      obtain ⟨r, hr⟩ := (any_of_find e).2
      unfold logLevel
      have ne : ∀ {x l}, LevelName x l → Caps.text c 1 ≠ x := by
        intro x l hl e
        exact h x l r hl (e ▸ hr)
      rw [if_neg (ne .debug), if_neg (ne .error), if_neg (ne .info), if_neg (ne .warning)]

theorem reads_strip : ∀ (n : Nat) (lv : Leveler) (m : Bytes), Reads n lv m (strip n lv m)
  | 0, lv, m => .limit
  | n + 1, lv, m => by
    rw [strip]
    by_cases h1 : ∃ r, Tagged m b!"GIN" r
    · obtain ⟨r, h1⟩ := h1
      obtain ⟨c, hc, hd⟩ := tag_drop h1
      have : ptnGIN.find m = some c := hc
      rw [this]
      dsimp only
      rw [hd]
      exact .keep h1 .gin (reads_strip n lv r)
    · have e1 : ptnGIN.find m = none := tag_none fun r hr => h1 ⟨r, hr⟩
      rw [e1]
      dsimp only
      by_cases h2 : ∃ r, Tagged m b!"GIN-debug" r
      · obtain ⟨r, h2⟩ := h2
        obtain ⟨c, hc, hd⟩ := tag_drop h2
        have : ptnGINdebug.find m = some c := hc
        rw [this]
        dsimp only
        rw [hd]
        exact .set h2 .debug (reads_strip n _ r)
      · have e2 : ptnGINdebug.find m = none := tag_none fun r hr => h2 ⟨r, hr⟩
        rw [e2]
        dsimp only
        by_cases h3 : ∃ name l r, LevelName name l ∧ Tagged m name r
        · obtain ⟨name, l, r, hl, h3⟩ := h3
          obtain ⟨text, e3, hd, e4⟩ := findLevel_name hl h3
          rw [e3]
          dsimp only
          rw [e4]
          dsimp only
          rw [hd]
          exact .set h3 (.level hl) (reads_strip n _ r)
        · have h3 : ∀ name l r, LevelName name l → ¬ Tagged m name r := fun name l r hl ht => h3 ⟨name, l, r, hl, ht⟩
          by_cases hb : Bracketed m
          · obtain ⟨text, name, e3, e4⟩ := (findLevel_other h3).2 hb
            rw [e3]
            dsimp only
            rw [e4]
            refine .bad hb ?_
            rintro name l r hp ht
            cases hp with
            | gin => exact h1 ⟨r, ht⟩
            | debug => exact h2 ⟨r, ht⟩
            | level hl => exact h3 _ _ r hl ht
          · rw [(findLevel_other h3).1 hb]
            exact .stop hb

theorem tagged_bracketed {m name r : Bytes} {l : Option Int} (hp : Prefix name l) (h : Tagged m name r) : Bracketed m := by
  obtain ⟨a, b, e, ha, _⟩ := h
  refine ⟨a, name, b ++ r, by rw [e]; simp, ha, ?_⟩
  cases hp with
  | gin => decide
  | debug => decide
  | level h => cases h <;> decide

theorem prefix_unique {name : Bytes} {l l' : Option Int} (h : Prefix name l) (h' : Prefix name l') : l = l' := by
  have names : ∀ x k, LevelName x k → (x = b!"DEBUG" ∧ k = -4) ∨ (x = b!"INFO" ∧ k = 0) ∨ (x = b!"WARNING" ∧ k = 4) ∨ (x = b!"ERROR" ∧ k = 8) := by
    intro x k h
    cases h <;> simp
  have all : ∀ x k, Prefix x k → (x = b!"GIN" ∧ k = none) ∨ (x = b!"GIN-debug" ∧ k = some (-4)) ∨ (x = b!"DEBUG" ∧ k = some (-4)) ∨
      (x = b!"INFO" ∧ k = some 0) ∨ (x = b!"WARNING" ∧ k = some 4) ∨ (x = b!"ERROR" ∧ k = some 8) := by
    intro x k h
    cases h with
    | gin => simp
    | debug => simp
    | level h => rcases names _ _ h with h | h | h | h <;> simp [h]
  rcases all _ _ h with ⟨rfl, rfl⟩ | ⟨rfl, rfl⟩ | ⟨rfl, rfl⟩ | ⟨rfl, rfl⟩ | ⟨rfl, rfl⟩ | ⟨rfl, rfl⟩ <;>
    rcases all _ _ h' with ⟨e, rfl⟩ | ⟨e, rfl⟩ | ⟨e, rfl⟩ | ⟨e, rfl⟩ | ⟨e, rfl⟩ | ⟨e, rfl⟩ <;> first | rfl | (exact absurd e (by decide))

theorem reads_unique {n : Nat} {lv : Leveler} {m : Bytes} {o o' : Option (Leveler × Bytes)} (h : Reads n lv m o) (h' : Reads n lv m o') :
    o = o' := by
  induction h generalizing o' with
  | limit => cases h'; rfl
  | keep ht hp _ ih =>
    cases h' with
    | keep ht' hp' h' =>
      obtain ⟨rfl, rfl⟩ := tagged_unique ht ht' (prefix_bracket hp) (prefix_bracket hp')
      exact ih h'
    | set ht' hp' h' =>
      obtain ⟨rfl, rfl⟩ := tagged_unique ht ht' (prefix_bracket hp) (prefix_bracket hp')
      cases prefix_unique hp hp'
    | bad _ hn => exact absurd ht (hn _ _ _ hp)
    | stop hb => exact absurd (tagged_bracketed hp ht) hb
  | set ht hp _ ih =>
    cases h' with
    | keep ht' hp' h' =>
      obtain ⟨rfl, rfl⟩ := tagged_unique ht ht' (prefix_bracket hp) (prefix_bracket hp')
      cases prefix_unique hp hp'
    | set ht' hp' h' =>
      obtain ⟨rfl, rfl⟩ := tagged_unique ht ht' (prefix_bracket hp) (prefix_bracket hp')
      cases prefix_unique hp hp'
      exact ih h'
    | bad _ hn => exact absurd ht (hn _ _ _ hp)
    | stop hb => exact absurd (tagged_bracketed hp ht) hb
  | bad hb hn =>
    cases h' with
    | keep ht hp _ => exact absurd ht (hn _ _ _ hp)
    | set ht hp _ => exact absurd ht (hn _ _ _ hp)
    | bad => rfl
    | stop h => exact absurd hb h
  | stop hb =>
    cases h' with
    | keep ht hp _ => exact absurd (tagged_bracketed hp ht) hb
    | set ht hp _ => exact absurd (tagged_bracketed hp ht) hb
    | bad h _ => exact absurd h hb
    | stop => rfl

theorem reads_iff (n : Nat) (lv : Leveler) (m : Bytes) (o : Option (Leveler × Bytes)) : Reads n lv m o ↔ strip n lv m = o :=
  ⟨fun h => reads_unique (reads_strip n lv m) h, fun h => h ▸ reads_strip n lv m⟩

/-! ### The time -/

theorem not_digit_first {b t : Bytes} (hb : Blank b) {x : UInt8} (hx : isD x = false) : ∀ a t', b ++ (x :: t) = a :: t' → isD a = false := by
  cases b with
  | nil => rintro a t' e; cases e; exact hx
  | cons c b => rintro a t' e; cases e; exact space_digit _ (hb _ (by simp))

theorem time_find {m r : Bytes} (h : TimeLine m r) : ptnTimePrefix.find m = some [(1, r)] := by
  obtain ⟨pre, w, rfl, ⟨b0, y, b1, mo, d, b2, b3, h, mi, sec, rfl, h0, hy, hmo, hd, h1, h2, hh, hmi, hsec, h3⟩, hw, hr, hf⟩ := h
  unfold ptnTimePrefix Re.find
  simp only [seq, List.append_assoc]
  rw [run_cat]
  refine run_star h0 (digit_first hy) ?_
  rw [run_cat]
  refine run_plus hy (by rintro a t' e; cases e; decide) ?_
  rw [run_cat, run_lit, run_cat]
  refine run_plus hmo (by rintro a t' e; cases e; decide) ?_
  rw [run_cat, run_lit, run_cat]
  refine run_plus hd (not_digit_first h1 (by decide)) ?_
  rw [run_cat]
  refine run_star h1 (by rintro a t' e; cases e; decide) ?_
  rw [run_cat, run_lit, run_cat]
  refine run_star h2 (digit_first hh) ?_
  rw [run_cat]
  refine run_plus hh (by rintro a t' e; cases e; decide) ?_
  rw [run_cat, run_lit, run_cat]
  refine run_plus hmi (by rintro a t' e; cases e; decide) ?_
  rw [run_cat, run_lit, run_cat]
  refine run_plus hsec (not_digit_first h3 (by decide)) ?_
  rw [run_cat]
  refine run_star h3 (by rintro a t' e; cases e; decide) ?_
  rw [run_cat, run_lit, run_cat]
  have last : (Re.cat (.cap 1 (plus isDot)) .eot).run (fun _ m => some m) r [] = some [(1, r)] := by
    rw [run_cat]
    have := run_cap_plus (i := 1) (k := fun t m => Re.eot.run (fun _ m => some m) t m) (m := []) (t := []) (r := [(1, r)]) hr (by simp) (by simp [Re.run, Map.set])
    rw [List.append_nil] at this
    exact this
  rcases hf with hf | hf
  · exact run_star hw hf last
  · refine run_star_last hw ?_ last
    rintro a t' e t'' ht
    rw [e] at hf
    have : t' = [] := by simpa using hf
    subst this
    have ht : t'' = [] := by
      obtain ⟨u, e, _⟩ := lang_star ht
      exact (List.append_eq_nil_iff.1 e.symm).2
    subst ht
    rfl

theorem time_of_find {m : Bytes} {c : Caps} (h : ptnTimePrefix.find m = some c) : ∃ r, TimeLine m r := by
  obtain ⟨t, h⟩ := find_exists h
  unfold ptnTimePrefix at h
  simp only [seq] at h
  obtain ⟨b0, t0, e0, h0, h⟩ := lang_seq_star h
  cases h with | cat q h =>
  obtain ⟨y, e1, hy⟩ := lang_plus q
  cases h with | cat q h =>
  have e2 := lang_lit q
  cases h with | cat q h =>
  obtain ⟨mo, e3, hmo⟩ := lang_plus q
  cases h with | cat q h =>
  have e4 := lang_lit q
  cases h with | cat q h =>
  obtain ⟨d, e5, hd⟩ := lang_plus q
  obtain ⟨b1, t6, e6, h1, h⟩ := lang_seq_star h
  cases h with | cat q h =>
  have e7 := lang_lit q
  obtain ⟨b2, t8, e8, h2, h⟩ := lang_seq_star h
  cases h with | cat q h =>
  obtain ⟨hr_, e9, hh⟩ := lang_plus q
  cases h with | cat q h =>
  have e10 := lang_lit q
  cases h with | cat q h =>
  obtain ⟨mi, e11, hmi⟩ := lang_plus q
  cases h with | cat q h =>
  have e12 := lang_lit q
  cases h with | cat q h =>
  obtain ⟨sec, e13, hsec⟩ := lang_plus q
  obtain ⟨b3, t14, e14, h3, h⟩ := lang_seq_star h
  cases h with | cat q h =>
  have e15 := lang_lit q
  obtain ⟨w, t16, e16, hw, h⟩ := lang_seq_star h
  cases h with | cat q h =>
  have e18 := lang_eot h
  cases q with | cap q =>
  obtain ⟨r, e17, hr⟩ := lang_plus q
  rw [e18, List.append_nil] at e17
  -- the blanks at the start of what is left belong to the white space
  have norm : ∃ w' r', w ++ r = w' ++ r' ∧ Blank w' ∧ Many isDot r' ∧ ((∀ x t, r' = x :: t → isS x = false) ∨ r'.length = 1) := by
    obtain ⟨v, r2, e, hv, hf⟩ := blank_split r
    cases r2 with
    | cons x r2 =>
      refine ⟨w ++ v, x :: r2, by rw [e]; simp, ?_, ⟨by simp, fun a ha => hr.all a (by rw [e]; simp [List.mem_cons.1 ha])⟩, .inl hf⟩
      intro a ha
      rcases List.mem_append.1 ha with ha | ha
      · exact hw a ha
      · exact hv a ha
    | nil =>
      rw [List.append_nil] at e
      subst e
      obtain ⟨v, x, rfl⟩ : ∃ v x, r = v ++ [x] := ⟨_, _, (List.dropLast_concat_getLast hr.ne).symm⟩
      refine ⟨w ++ v, [x], by simp, ?_, ⟨by simp, fun a ha => hr.all a (by simp [List.mem_singleton.1 ha])⟩, .inr rfl⟩
      intro a ha
      rcases List.mem_append.1 ha with ha | ha
      · exact hw a ha
      · exact hv a (by simp [ha])
  obtain ⟨w', r', e, hw', hr', hf⟩ := norm
  refine ⟨r', _, w', ?_, ⟨b0, y, b1, mo, d, b2, b3, hr_, mi, sec, rfl, h0, hy, hmo, hd, h1, h2, hh, hmi, hsec, h3⟩, hw', hr', hf⟩
  rw [e0, e1, e2, e3, e4, e5, e6, e7, e8, e9, e10, e11, e12, e13, e14, e15, e16, e17, e]
  simp

theorem dropTime_iff (m r : Bytes) : dropTime m = r ↔ TimeLine m r ∨ (¬ ∃ r', TimeLine m r') ∧ r = m := by
  unfold dropTime
  by_cases h : ∃ r', TimeLine m r'
  · obtain ⟨r', h⟩ := h
    rw [time_find h]
    constructor
    · intro e
      have : r' = r := e
      subst this
      exact .inl h
    · rintro (h' | ⟨h', _⟩)
      · have := time_find h
        rw [time_find h'] at this
        have := congrArg (fun o : Option Caps => (o.map fun c => Caps.text c 1)) this
        exact (Option.some.inj this).symm
      · exact absurd ⟨r', h⟩ h'
  · cases e : ptnTimePrefix.find m with
    | some c => exact absurd (time_of_find e) h
    | none =>
      constructor
      · rintro rfl; exact .inr ⟨h, rfl⟩
      · rintro (h' | ⟨_, rfl⟩)
        · exact absurd ⟨r, h'⟩ h
        · rfl

/-! ### The rest -/

/-- Without the newlines at the end. -/
def Chomped (p q : Bytes) : Prop := (∃ k, p = q ++ List.replicate k 0x0A) ∧ q.getLast? ≠ some 0x0A

theorem chomp_iff (p q : Bytes) : trimNewlines p = q ↔ Chomped p q := by
  unfold trimNewlines
  constructor
  · rintro rfl
    obtain ⟨i, e, h⟩ := dropWhile_split 0x0A p.reverse
    refine ⟨⟨i, ?_⟩, ?_⟩
    · have := congrArg List.reverse e
      rw [List.reverse_reverse, List.reverse_append, List.reverse_replicate] at this
      exact this
    · rw [List.getLast?_reverse]
      exact h
  · rintro ⟨⟨k, rfl⟩, h⟩
    rw [List.reverse_append, List.reverse_replicate, dropWhile_replicate _ _ _ (by rw [List.head?_reverse]; exact h), List.reverse_reverse]

end Verif.Gin
