import Verif.Server.Cache
import Verif.Props.Chart
import Verif.Props.Enum

/-
C61: the cache of charts never serves one chart for another.
-/

namespace Verif.Props.Cache

open Verif Verif.Go Verif.Slog Verif.Tools Verif.Letters Verif.Server Verif.Props.Enum

/-! ### Specification -/

/-- What a URL asks for: the item may be written in any letter case, with or without `.svg`. (What the size is: `C46_size_number`,
`C46_size_other`.) -/
inductive Asks : Req → Picture → Prop
  | svg {tag name n : Bytes} {v : Nat} : benchNames[v]? = some n → ReadsAs name (n.map down) → Asks (.bar tag (name ++ b!".svg")) (.bar tag v)
  | plain {tag name n : Bytes} {v : Nat} : ¬ b!".svg" <:+ name → benchNames[v]? = some n → ReadsAs name (n.map down) → Asks (.bar tag name) (.bar tag v)
  | score {keeper size : Bytes} : Asks (.score keeper size) (.score keeper (scoreChartSize size))

/-- Drawing gives what is a drawing of the chart, at any time. -/
def Honest (Draws : Picture → Bytes → Prop) (hs : List Happens) : Prop :=
  ∀ i draw, Happens.step i draw ∈ hs → ∀ p ch, draw p = some ch → Draws p ch

/-- Drawing failed for the chart at some time. -/
def Failed (hs : List Happens) (p : Picture) : Prop := ∃ i draw, Happens.step i draw ∈ hs ∧ draw p = none

/-! ### Keys -/

/-- The key of a chart. -/
def keyOf : Picture → Bytes
  | .bar tag item => barKey tag item
  | .score keeper size => scoreKey keeper size

/-- A chart that can be asked for. -/
def Askable (p : Picture) : Prop := ∃ r, Asks r p

theorem last_colon {u v s t : Bytes} (hs : (0x3A : UInt8) ∉ s) (ht : (0x3A : UInt8) ∉ t) (e : u ++ b!":" ++ s = v ++ b!":" ++ t) : u = v ∧ s = t := by
  have e : u ++ 0x3A :: s = v ++ 0x3A :: t := by simpa using e
  induction u generalizing v with
  | nil =>
    cases v with
    | nil => simpa using e
    | cons b v =>
      simp only [List.nil_append, List.cons_append, List.cons.injEq] at e
      exact absurd (by rw [e.2]; simp) hs
  | cons a u ih =>
    cases v with
    | nil =>
      simp only [List.nil_append, List.cons_append, List.cons.injEq] at e
      exact absurd (by rw [← e.2]; simp) ht
    | cons b v =>
      simp only [List.cons_append, List.cons.injEq] at e
      obtain ⟨h1, h2⟩ := ih (v := v) (by simpa using e.2) e.2
      exact ⟨by rw [e.1, h1], h2⟩

theorem digits_plain (n : Nat) : ∀ a ∈ decNat n, Json.isDigit a = true := by
  have := decNat_digits n
  rwa [List.all_eq_true] at this

/-- Charts that can be asked for have different keys, whatever the names of tags and keepers. -/
theorem C61_keys {p q : Picture} (hp : Askable p) (hq : Askable q) (h : keyOf p = keyOf q) : p = q := by
  have item : ∀ {tag : Bytes} {v : Nat}, Askable (.bar tag v) → ∃ n ∈ benchNames, benchItems.string v = n ∧ benchNames[v]? = some n := by
    rintro tag v ⟨r, hr⟩
    have key : ∀ n, benchNames[v]? = some n → ∃ n ∈ benchNames, benchItems.string v = n ∧ benchNames[v]? = some n := by
      intro n hn
      have hv : v < benchNames.length := (List.getElem?_eq_some_iff.1 hn).1
      have := string_eq is_bench hv
      rw [hn] at this
      exact ⟨n, List.mem_of_getElem? hn, (Option.some.inj this).symm, hn⟩
    cases hr with
    | svg hn _ => exact key _ hn
    | plain _ hn _ => exact key _ hn
  have plain : ∀ n ∈ benchNames, (0x3A : UInt8) ∉ n ∧ ∀ a ∈ n.head?, Json.isDigit a = false := by decide
  have size : ∀ {keeper : Bytes} {n : Int}, Askable (.score keeper n) → ∃ m : Nat, n = m := by
    rintro keeper n ⟨r, hr⟩
    cases hr
    rename_i s
    obtain ⟨h1, _⟩ := Chart.C46_size_defined s
    exact ⟨(scoreChartSize s).toNat, by omega⟩
  have colon : ∀ n : Nat, (0x3A : UInt8) ∉ decInt n := by
    intro n hc
    have := digits_plain n _ hc
    revert this; decide
  cases p with
  | bar tag v =>
    obtain ⟨n, hn, e1, h1⟩ := item hp
    cases q with
    | bar tag' v' =>
      obtain ⟨n', hn', e2, h2⟩ := item hq
      unfold keyOf barKey at h
      dsimp only at h
      rw [e1, e2] at h
      obtain ⟨rfl, rfl⟩ := last_colon (plain n hn).1 (plain n' hn').1 h
      have : v = v' := C54_printing_injective is_bench v v' (by rw [e1, e2])
      rw [this]
    | score keeper m =>
      obtain ⟨m, rfl⟩ := size hq
      unfold keyOf barKey scoreKey at h
      dsimp only at h
      rw [e1] at h
      obtain ⟨_, e⟩ := last_colon (plain n hn).1 (colon m) h
      exfalso
      have hne : n ≠ [] := by rintro rfl; revert hn; decide
      obtain ⟨a, t, rfl⟩ := List.exists_cons_of_ne_nil hne
      have h3 := (plain _ hn).2 a (by simp)
      have h4 := digits_plain m a (by rw [show decNat m = decInt m from rfl, ← e]; simp)
      rw [h3] at h4; cases h4
  | score keeper m =>
    obtain ⟨m, rfl⟩ := size hp
    cases q with
    | bar tag' v' =>
      obtain ⟨n, hn, e1, h1⟩ := item hq
      unfold keyOf barKey scoreKey at h
      dsimp only at h
      rw [e1] at h
      obtain ⟨_, e⟩ := last_colon (plain n hn).1 (colon m) h.symm
      exfalso
      have hne : n ≠ [] := by rintro rfl; revert hn; decide
      obtain ⟨a, t, rfl⟩ := List.exists_cons_of_ne_nil hne
      have h3 := (plain _ hn).2 a (by simp)
      have h4 := digits_plain m a (by rw [show decNat m = decInt m from rfl, ← e]; simp)
      rw [h3] at h4; cases h4
    | score keeper' m' =>
      obtain ⟨m', rfl⟩ := size hq
      unfold keyOf scoreKey at h
      dsimp only at h
      obtain ⟨e1, e2⟩ := last_colon (colon m) (colon m') h
      have e1 := List.append_cancel_left e1
      have h1 := readNat_decNat m
      have h2 := readNat_decNat m'
      rw [show decNat m = decNat m' from e2, h2] at h1
      cases h1
      rw [e1]

/-! ### What is asked for -/

theorem trim_svg (name : Bytes) : trimSuffix (name ++ b!".svg") b!".svg" = name := by
  unfold trimSuffix
  simp

theorem trim_plain {name : Bytes} (h : ¬ b!".svg" <:+ name) : trimSuffix name b!".svg" = name := by
  unfold trimSuffix
  rw [if_neg]
  intro e
  exact h ⟨name.take (name.length - 4), by
    conv => rhs; rw [← List.take_append_drop (name.length - 4) name]
    have : name.drop (name.length - 4) = b!".svg" := e
    rw [this]⟩

theorem asks_bar {L : Replace.Lib} {low : Nat → Bytes} (hL : Lowers L low) (tag item : Bytes) (p : Picture) :
    Asks (.bar tag item) p ↔ ∃ v, benchItems.parse L (trimSuffix item b!".svg") = some v ∧ p = .bar tag v := by
  constructor
  · intro h
    cases h with
    | svg hn hr => exact ⟨_, by rw [trim_svg, C54_parse_iff hL is_bench]; exact ⟨_, hn, hr⟩, rfl⟩
    | plain hs hn hr => exact ⟨_, by rw [trim_plain hs, C54_parse_iff hL is_bench]; exact ⟨_, hn, hr⟩, rfl⟩
  · rintro ⟨v, h, rfl⟩
    by_cases hs : b!".svg" <:+ item
    · obtain ⟨name, rfl⟩ := hs
      rw [trim_svg, C54_parse_iff hL is_bench] at h
      obtain ⟨n, hn, hr⟩ := h
      exact .svg hn hr
    · rw [trim_plain hs, C54_parse_iff hL is_bench] at h
      obtain ⟨n, hn, hr⟩ := h
      exact .plain hs hn hr

/-! ### The invariant -/

/-- What may be answered. -/
inductive Fits (k : Known) (Draws : Picture → Bytes → Prop) (Fails : Picture → Prop) (r : Req) : Reply → Prop
  /-- Nothing is asked for. -/
  | nothing : (∀ p, ¬ Asks r p) → Fits k Draws Fails r .nothing
  /-- A bar chart without records. -/
  | bad {tag : Bytes} {item : Nat} : Asks r (.bar tag item) → k.records tag = false → Fits k Draws Fails r .bad
  /-- A drawing of what is asked for. -/
  | drawn {p : Picture} {ch : Bytes} : Asks r p → Draws p ch → Fits k Draws Fails r (.data ch)
  /-- A score chart that could not be drawn is sent as an empty one. -/
  | empty {keeper : Bytes} {size : Int} : Asks r (.score keeper size) → Fails (.score keeper size) → Fits k Draws Fails r (.data [])
  /-- There is no such keeper. -/
  | keeper {keeper : Bytes} {size : Int} : Asks r (.score keeper size) → k.keepers keeper = false → Fits k Draws Fails r .panic
  /-- A bar chart could not be drawn. -/
  | failed {tag : Bytes} {item : Nat} : Asks r (.bar tag item) → Fails (.bar tag item) → Fits k Draws Fails r .panic

/-- What holds of a request that is being served. -/
def Good (k : Known) (Draws : Picture → Bytes → Prop) (Fails : Picture → Prop) : Thread → Prop
  | .start _ => True
  | .looked r p key found => Asks r p ∧ key = keyOf p ∧ ∀ ch, found = some ch → Draws p ch
  | .made r p key ch => Asks r p ∧ key = keyOf p ∧ Draws p ch
  | .done r reply => Fits k Draws Fails r reply

/-- What holds of the cache: whatever is found under the key of a chart is a drawing of it. -/
def Sound (Draws : Picture → Bytes → Prop) (cache : Map Bytes Bytes) : Prop :=
  ∀ p ch, Askable p → cache.get (keyOf p) = some ch → Draws p ch

theorem step_good {L : Replace.Lib} {low : Nat → Bytes} (hL : Lowers L low) {k : Known} {Draws : Picture → Bytes → Prop} {Fails : Picture → Prop}
    {cache : Map Bytes Bytes} {draw : Picture → Option Bytes} (hd : ∀ p ch, draw p = some ch → Draws p ch) (hf : ∀ p, draw p = none → Fails p)
    (hc : Sound Draws cache) {t : Thread} (ht : Good k Draws Fails t) :
    Good k Draws Fails (t.step L k cache draw).1 ∧ Sound Draws (stored cache (t.step L k cache draw).2) := by
  match t, ht with
  | .start (.bar tag item), _ =>
    simp only [Thread.step]
    cases e : benchItems.parse L (trimSuffix item b!".svg") with
    | none =>
      refine ⟨Fits.nothing fun p hp => ?_, hc⟩
      obtain ⟨v, h, _⟩ := (asks_bar hL _ _ _).1 hp
      rw [e] at h; cases h
    | some v =>
      have ha : Asks (.bar tag item) (.bar tag v) := (asks_bar hL _ _ _).2 ⟨v, e, rfl⟩
      exact ⟨⟨ha, rfl, fun ch h => hc _ _ ⟨_, ha⟩ h⟩, hc⟩
  | .start (.score keeper size), _ =>
    exact ⟨⟨.score, rfl, fun ch h => hc _ _ ⟨_, .score⟩ h⟩, hc⟩
  | .looked r (.bar tag item) key (some ch), ⟨h1, h2, h3⟩ => exact ⟨Fits.drawn h1 (h3 _ rfl), hc⟩
  | .looked r (.bar tag item) key none, ⟨h1, h2, h3⟩ =>
    simp only [Thread.step]
    split
    · split
      · rename_i ch e; exact ⟨⟨h1, h2, hd _ _ e⟩, hc⟩
      · rename_i e; exact ⟨Fits.failed h1 (hf _ e), hc⟩
    · rename_i e; exact ⟨Fits.bad h1 (by simpa using e), hc⟩
  | .looked r (.score keeper size) key (some ch), ⟨h1, h2, h3⟩ =>
    simp only [Thread.step]
    split
    · exact ⟨Fits.drawn h1 (h3 _ rfl), hc⟩
    · rename_i e; exact ⟨Fits.keeper h1 (by simpa using e), hc⟩
  | .looked r (.score keeper size) key none, ⟨h1, h2, h3⟩ =>
    simp only [Thread.step]
    split
    · split
      · rename_i ch e; exact ⟨⟨h1, h2, hd _ _ e⟩, hc⟩
      · rename_i e; exact ⟨Fits.empty h1 (hf _ e), hc⟩
    · rename_i e; exact ⟨Fits.keeper h1 (by simpa using e), hc⟩
  | .made r p key ch, ⟨h1, h2, h3⟩ =>
    refine ⟨Fits.drawn h1 h3, ?_⟩
    intro q c hq h
    subst h2
    simp only [Thread.step, stored, Map.get_set] at h
    split at h
    · rename_i e
      cases h
      rw [C61_keys hq ⟨r, h1⟩ e]
      exact h3
    · exact hc q c hq h
  | .done r reply, h => exact ⟨h, hc⟩

/-- All of it. -/
structure Inv (k : Known) (Draws : Picture → Bytes → Prop) (Fails : Picture → Prop) (s : Site) : Prop where
  cache : Sound Draws s.cache
  threads : ∀ t ∈ s.threads, Good k Draws Fails t

theorem happens_inv {L : Replace.Lib} {low : Nat → Bytes} (hL : Lowers L low) {k : Known} {Draws : Picture → Bytes → Prop} {Fails : Picture → Prop}
    {s : Site} (hs : Inv k Draws Fails s) {h : Happens} (hd : ∀ i draw, h = .step i draw → ∀ p ch, draw p = some ch → Draws p ch)
    (hf : ∀ i draw, h = .step i draw → ∀ p, draw p = none → Fails p) : Inv k Draws Fails (s.happens L k h) := by
  cases h with
  | arrive r =>
    refine ⟨hs.cache, fun t ht => ?_⟩
    rcases List.mem_append.1 ht with ht | ht
    · exact hs.threads t ht
    · rw [List.mem_singleton.1 ht]; trivial
  | step i draw =>
    simp only [Site.happens]
    cases e : s.threads[i]? with
    | none => exact hs
    | some t =>
      obtain ⟨h1, h2⟩ := step_good hL (hd i draw rfl) (hf i draw rfl) hs.cache (hs.threads t (List.mem_of_getElem? e))
      refine ⟨h2, fun u hu => ?_⟩
      rcases List.mem_or_eq_of_mem_set hu with hu | rfl
      · exact hs.threads u hu
      · exact h1

theorem run_inv {L : Replace.Lib} {low : Nat → Bytes} (hL : Lowers L low) {k : Known} {Draws : Picture → Bytes → Prop} {Fails : Picture → Prop} :
    ∀ (hs : List Happens) {s : Site}, Inv k Draws Fails s → Honest Draws hs → (∀ p, Failed hs p → Fails p) → Inv k Draws Fails (s.run L k hs)
  | [], _, h, _, _ => h
  | a :: hs, s, h, hh, hf => by
    refine run_inv hL hs (s := s.happens L k a) ?_ (fun i d hm => hh i d (by simp [hm])) fun p ⟨i, d, hm, e⟩ => hf p ⟨i, d, by simp [hm], e⟩
    refine happens_inv hL h ?_ ?_
    · rintro i d rfl; exact hh i d (by simp)
    · rintro i d rfl p e; exact hf p ⟨i, d, by simp, e⟩

/-- C61: however many requests are served at the same time, and in whatever order they proceed, every reply fits what its URL
asks for; a chart that is sent is a drawing of the chart asked for, be it drawn for this request or for another one. -/
theorem C61_served {L : Replace.Lib} {low : Nat → Bytes} (hL : Lowers L low) (k : Known) (Draws : Picture → Bytes → Prop) (hs : List Happens)
    (hh : Honest Draws hs) (r : Req) (reply : Reply) (h : Thread.done r reply ∈ (Site.run L k {} hs).threads) :
    Fits k Draws (Failed hs) r reply := by
  have hi : Inv k Draws (Failed hs) (Site.run L k {} hs) := by
    refine run_inv hL hs ⟨?_, by simp⟩ hh fun p h => h
    intro p ch _ h; cases h
  exact hi.threads _ h

/-! ### Nothing is drawn twice without need -/

theorem stored_keeps {cache : Map Bytes Bytes} {key : Bytes} (h : (cache.get key).isSome = true) (o : Option (Bytes × Bytes)) :
    ((stored cache o).get key).isSome = true := by
  match o with
  | none => exact h
  | some (k, ch) =>
    simp only [stored, Map.get_set]
    split
    · rfl
    · exact h

/-- The request is not drawing the chart, and will not. -/
def Spares (p : Picture) : Thread → Prop
  | .start _ => True
  | .looked _ q _ found => q = p → found.isSome = true
  | .made _ q _ _ => q ≠ p
  | .done _ _ => True

theorem step_spares {L : Replace.Lib} {k : Known} {cache : Map Bytes Bytes} {draw : Picture → Option Bytes} {p : Picture}
    (hc : (cache.get (keyOf p)).isSome = true) {t : Thread} (ht : Spares p t) : Spares p (t.step L k cache draw).1 := by
  match t, ht with
  | .start (.bar tag item), _ =>
    simp only [Thread.step]
    split
    · trivial
    · rintro rfl; exact hc
  | .start (.score keeper size), _ => rintro rfl; exact hc
  | .looked r (.bar tag item) key (some ch), h => trivial
  | .looked r (.bar tag item) key none, h =>
    have hne : Picture.bar tag item ≠ p := fun e => by have := h e; cases this
    simp only [Thread.step]
    split
    · split
      · exact hne
      · trivial
    · trivial
  | .looked r (.score keeper size) key (some ch), h =>
    simp only [Thread.step]
    split <;> trivial
  | .looked r (.score keeper size) key none, h =>
    have hne : Picture.score keeper size ≠ p := fun e => by have := h e; cases this
    simp only [Thread.step]
    split
    · split
      · exact hne
      · trivial
    · trivial
  | .made r q key ch, h => trivial
  | .done r reply, h => trivial

/-- C61: once a chart is in the cache it stays there, and no request that comes in later draws it again. -/
theorem C61_drawn_once (L : Replace.Lib) (k : Known) (p : Picture) : ∀ (hs : List Happens) (s : Site),
    (s.cache.get (keyOf p)).isSome = true →
    ((s.run L k hs).cache.get (keyOf p)).isSome = true ∧ s.threads.length ≤ (s.run L k hs).threads.length ∧
      ∀ i r key ch, s.threads.length ≤ i → (s.run L k hs).threads[i]? ≠ some (.made r p key ch) := by
  have gen : ∀ (n : Nat) (hs : List Happens) (s : Site), (s.cache.get (keyOf p)).isSome = true → n ≤ s.threads.length →
      (∀ i t, n ≤ i → s.threads[i]? = some t → Spares p t) →
      ((s.run L k hs).cache.get (keyOf p)).isSome = true ∧ n ≤ (s.run L k hs).threads.length ∧
        ∀ i t, n ≤ i → (s.run L k hs).threads[i]? = some t → Spares p t := by
    intro n hs
    induction hs with
    | nil => intro s hc hn ht; exact ⟨hc, hn, ht⟩
    | cons a hs ih =>
      intro s hc hn ht
      refine ih (s.happens L k a) ?_ ?_ ?_
      · cases a with
        | arrive r => exact hc
        | step i draw =>
          simp only [Site.happens]
          split
          · exact hc
          · exact stored_keeps hc _
      · cases a with
        | arrive r => simp [Site.happens]; omega
        | step i draw =>
          simp only [Site.happens]
          split
          · exact hn
          · simpa using hn
      · intro j t hj hjt
        cases a with
        | arrive r =>
          simp only [Site.happens] at hjt
          rw [List.getElem?_append] at hjt
          split at hjt
          · exact ht j t hj hjt
          · have := List.mem_of_getElem? hjt
            rw [List.mem_singleton.1 this]; trivial
        | step i draw =>
          simp only [Site.happens] at hjt
          split at hjt
          · exact ht j t hj hjt
          · rename_i u hu
            simp only at hjt
            rw [List.getElem?_set] at hjt
            split at hjt
            · rename_i e
              subst e
              split at hjt
              · cases hjt; exact step_spares hc (ht i u hj hu)
              · cases hjt
            · exact ht j t hj hjt
  intro hs s hc
  obtain ⟨h1, h2, h3⟩ := gen s.threads.length hs s hc (Nat.le_refl _) (by
    intro i t hi ht
    rw [List.getElem?_eq_none hi] at ht; cases ht)
  refine ⟨h1, h2, fun i r key ch hi ht => ?_⟩
  exact h3 i _ hi ht rfl

/-- How many steps there are to go. -/
def steps : Thread → Nat
  | .start _ => 3
  | .looked .. => 2
  | .made .. => 1
  | .done .. => 0

/-- C61: every request is answered after at most three steps of its own. -/
theorem C61_finishes (L : Replace.Lib) (k : Known) (s : Site) (i : Nat) (t : Thread) (ht : s.threads[i]? = some t) (d1 d2 d3 : Picture → Option Bytes) :
    ∃ r reply, (s.run L k [.step i d1, .step i d2, .step i d3]).threads[i]? = some (.done r reply) := by
  have one : ∀ (s : Site) (t : Thread) (d : Picture → Option Bytes), s.threads[i]? = some t →
      (s.happens L k (.step i d)).threads[i]? = some (t.step L k s.cache d).1 := by
    intro s t d h
    simp only [Site.happens, h]
    rw [List.getElem?_set_self (List.getElem?_eq_some_iff.1 h).1]
  have rank : ∀ (t : Thread) (c : Map Bytes Bytes) (d : Picture → Option Bytes) (n : Nat), steps t ≤ n + 1 → steps (t.step L k c d).1 ≤ n := by
    intro t c d n h
    match t, h with
    | .start (.bar tag item), h =>
      simp only [steps] at h
      simp only [Thread.step]
      split <;> simp only [steps] <;> omega
    | .start (.score keeper size), h => simp only [steps] at h; simp only [Thread.step, steps]; omega
    | .looked r (.bar tag item) key (some ch), h => simp [Thread.step, steps]
    | .looked r (.bar tag item) key none, h =>
      simp only [steps] at h
      simp only [Thread.step]
      split
      · split <;> simp only [steps] <;> omega
      · simp [steps]
    | .looked r (.score keeper size) key (some ch), h =>
      simp only [Thread.step]
      split <;> simp [steps]
    | .looked r (.score keeper size) key none, h =>
      simp only [steps] at h
      simp only [Thread.step]
      split
      · split <;> simp only [steps] <;> omega
      · simp [steps]
    | .made r q key ch, h => simp [Thread.step, steps]
    | .done r reply, h => simp [Thread.step, steps]
  have h1 := one s t d1 ht
  have h2 := one _ _ d2 h1
  have h3 := one _ _ d3 h2
  have r1 := rank t s.cache d1 2 (by cases t <;> simp [steps])
  have r2 := rank _ (s.happens L k (.step i d1)).cache d2 1 r1
  have r3 := rank _ ((s.happens L k (.step i d1)).happens L k (.step i d2)).cache d3 0 r2
  have e : s.run L k [.step i d1, .step i d2, .step i d3] = ((s.happens L k (.step i d1)).happens L k (.step i d2)).happens L k (.step i d3) := rfl
  rw [e, h3]
  generalize (Thread.step L k _ d3 _).1 = u at r3
  match u, r3 with
  | .done r reply, _ => exact ⟨r, reply, rfl⟩

/-! ### A case -/

/-- Two requests for the same chart at the same time, and one for a chart with a similar name. -/
def someHistory : List Happens :=
  let draw : Picture → Option Bytes
    | .bar tag item => some (b!"<" ++ tag ++ b!"," ++ decNat item ++ b!">")
    | .score _ _ => none
  [.arrive (.bar b!"score:a" b!"nanos.svg"), .arrive (.bar b!"score:a" b!"Nanos"), .step 0 draw, .step 1 draw, .step 1 draw, .step 0 draw,
    .arrive (.score b!"a" b!"1"), .step 1 draw, .step 0 draw, .step 2 draw, .step 2 draw,
    .arrive (.bar b!"score:a" b!"NANOS.svg"), .step 3 draw, .step 3 draw, .arrive (.bar b!"x" b!"y.svg"), .step 4 draw]

example : (Site.run asciiLib ⟨fun _ => true, fun _ => true⟩ {} someHistory).threads =
    [.done (.bar b!"score:a" b!"nanos.svg") (.data b!"<score:a,1>"), .done (.bar b!"score:a" b!"Nanos") (.data b!"<score:a,1>"),
      .done (.score b!"a" b!"1") (.data []), .done (.bar b!"score:a" b!"NANOS.svg") (.data b!"<score:a,1>"), .done (.bar b!"x" b!"y.svg") .nothing] ∧
    ((Site.run asciiLib ⟨fun _ => true, fun _ => true⟩ {} someHistory).cache.get (keyOf (.bar b!"score:a" 1))).isSome = true := by decide +kernel

example : Honest (fun p ch => ∃ tag item, p = .bar tag item ∧ ch = b!"<" ++ tag ++ b!"," ++ decNat item ++ b!">") someHistory := by
  intro i draw h p ch hd
  simp only [someHistory, List.mem_cons, List.not_mem_nil, or_false, reduceCtorEq, false_or, Happens.step.injEq] at h
  have key : draw = fun p => match p with
      | .bar tag item => some (b!"<" ++ tag ++ b!"," ++ decNat item ++ b!">")
      | .score _ _ => none := by
    rcases h with h | h | h | h | h | h | h | h | h | h | h <;> exact h.2
  subst key
  cases p with
  | bar tag item => cases hd; exact ⟨_, _, rfl, rfl⟩
  | score => cases hd

example : Asks (.bar b!"a" b!"mbPERsec.svg") (.bar b!"a" 4) :=
  .svg (name := b!"mbPERsec") (n := b!"MbPerSec") rfl (readsAs_of_same (by
    refine .cons ?_ (.cons ?_ (.cons ?_ (.cons ?_ (.cons ?_ (.cons ?_ (.cons ?_ (.cons ?_ .nil))))))) <;> decide))

example : keyOf (.bar b!"score:a" 1) = b!"score:a:Nanos" ∧ keyOf (.score b!"a" 1) = b!"score:a:1" := by decide +kernel

/-- A case of `C61_drawn_once`: after the history above nobody draws that chart again,
whatever happens. -/
example (hs : List Happens) : ∀ i r key ch, 5 ≤ i →
    ((Site.run asciiLib ⟨fun _ => true, fun _ => true⟩ {} someHistory).run asciiLib ⟨fun _ => true, fun _ => true⟩ hs).threads[i]? ≠
      some (.made r (.bar b!"score:a" 1) key ch) :=
  (C61_drawn_once asciiLib ⟨fun _ => true, fun _ => true⟩ (.bar b!"score:a" 1) hs
    (Site.run asciiLib ⟨fun _ => true, fun _ => true⟩ {} someHistory) (by decide +kernel)).2.2

/-- A case of `C61_finishes`: a request that comes now. -/
example (d1 d2 d3 : Picture → Option Bytes) : ∃ r reply,
    (((Site.run asciiLib ⟨fun _ => true, fun _ => true⟩ {} someHistory).happens asciiLib ⟨fun _ => true, fun _ => true⟩ (.arrive (.bar b!"t" b!"Runs"))).run
      asciiLib ⟨fun _ => true, fun _ => true⟩ [.step 5 d1, .step 5 d2, .step 5 d3]).threads[5]? = some (.done r reply) :=
  C61_finishes asciiLib _ _ 5 (.start (.bar b!"t" b!"Runs")) (by decide +kernel) d1 d2 d3

end Verif.Props.Cache
