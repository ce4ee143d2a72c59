import Verif.Count.Total
import Verif.Slog

/-
Model of the status text of the field counter, /repo/internal/json/field.go:64-119, and of
the states in which it can be asked for.

`plural.Pluralize("field", n, false)` of package go-pluralize is a parameter, and so is the
order in which the map of the duplicates is visited.
-/

namespace Verif.Count
open Go

/-- The runes after the cursor in `String` (internal/json/field.go:89-101): what is written
and the counter afterwards. -/
def peekText : Nat → Ctr → Bytes × Ctr
  | 0, c => ([], c)
  | n + 1, c =>
    match readRune c with
    | (c, some r) =>
      let p := peekText n c
      (Utf8.encode (if r = 0x0A then 0x20 else r) ++ p.1, p.2)
    | (c, none) => (b!"<EOF>", c)

/-- One entry of the duplicates (internal/json/field.go:110-113). -/
def dupEntry (e : Bytes × Nat) : Bytes := b!" " ++ e.1 ++ b!":" ++ Slog.decNat e.2

/-- The end of `String` (internal/json/field.go:106-117). -/
def dupText (pick : Map Bytes Nat → Map Bytes Nat) (c : Ctr) : Bytes :=
  if c.duplicates.length > 0 then b!"," ++ (pick c.duplicates).flatMap dupEntry
  else b!", no duplicates"

/-- `String` (internal/json/field.go:79-119): the text and the counter afterwards. -/
def status (word : Nat → Bytes) (pick : Map Bytes Nat → Map Bytes Nat) (c : Ctr) : Bytes × Ctr :=
  let p := peekText 15 c
  (b!"@" ++ Slog.decNat c.loc ++ b!" '" ++ c.recent.flatMap Utf8.encode ++ b!"<^>" ++ p.1 ++ b!"' " ++
    Slog.decNat p.2.numFields ++ b!" " ++ word p.2.numFields ++ dupText pick p.2, p.2)

/-! ### Everything the parser does to the counter -/

/-- The states of a counter made for `src`: runes are read and unread and the counts are
changed, in any order. -/
inductive Reached (src : Bytes) : Ctr → Prop
  | new : Reached src (new src)
  | read {c : Ctr} : Reached src c → Reached src (readRune c).1
  | unread {c : Ctr} : Reached src c → Reached src (unreadRune c).1
  | counts {c : Ctr} (m : Map Bytes Nat) : Reached src c → Reached src { c with counts := m }

/-- Every counter that comes out has the property. -/
def All {σ : Type} (P : Ctr → Prop) (o : Option (σ × Ctr × Sig)) : Prop := ∀ st c s, o = some (st, c, s) → P c

/-- The same for a nested parser. -/
def AllP (P : Ctr → Prop) (o : Option (Ctr × Sig)) : Prop := ∀ c s, o = some (c, s) → P c

section
variable {src : Bytes}

theorem All.none {σ : Type} {P : Ctr → Prop} : All P (none : Option (σ × Ctr × Sig)) := fun _ _ _ h => by cases h

theorem All.some {σ : Type} {P : Ctr → Prop} {st : σ} {c : Ctr} {s : Sig} (h : P c) : All P (some (st, c, s)) :=
  fun _ _ _ e => by cases e; exact h

theorem reached_read {c c' : Ctr} {o : Option Nat} (h : Reached src c) (e : readRune c = (c', o)) : Reached src c' := by
  have := h.read
  rw [e] at this
  exact this

theorem reached_unread {c c' : Ctr} {s : Sig} (h : Reached src c) (e : unreadRune c = (c', s)) : Reached src c' := by
  have := h.unread
  rw [e] at this
  exact this

theorem reached_loop {σ : Type} {fn : σ → Nat → Ctr → Option (σ × Ctr × Sig)}
    (hf : ∀ st r c, Reached src c → All (Reached src) (fn st r c)) :
    ∀ n st c, Reached src c → All (Reached src) (readLoop n fn st c) := by
  intro n
  induction n with
  | zero => intro st c _; exact All.none
  | succ n ih =>
    intro st c h
    unfold readLoop
    split
    · rename_i c1 e; exact All.some (reached_read h e)
    · rename_i c1 r e
      have h1 := reached_read h e
      have h2 := hf st r c1 h1
      split
      · exact All.none
      · rename_i e2; exact All.some (h2 _ _ _ e2)
      · rename_i e2; exact All.some (h2 _ _ _ e2)
      · rename_i e2; exact ih _ _ (h2 _ _ _ e2)

theorem reached_keyword (U : Uni) (n first : Nat) (c : Ctr) (h : Reached src c) :
    All (Reached src) (parseKeyword U n first c) := by
  refine reached_loop ?_ n _ c h
  intro st r c h
  split
  · exact All.some h
  · split <;> (rename_i e; exact All.some (reached_unread h e))

theorem reached_number (U : Uni) (n : Nat) (c : Ctr) (h : Reached src c) :
    All (Reached src) (parseNumber U n c) := by
  refine reached_loop ?_ n _ c h
  intro st r c h
  unfold numberBody
  repeat' split
  all_goals first
    | exact All.some h
    | (rename_i e; exact All.some (reached_unread h e))

theorem reached_string (n : Nat) (c : Ctr) (h : Reached src c) : All (Reached src) (parseString n c) := by
  refine reached_loop ?_ n _ c h
  intro st r c h
  unfold stringBody
  repeat' split
  all_goals first
    | exact All.some h
    | (rename_i e; exact All.some (reached_read h e))

theorem reached_nested {σ : Type} {st : σ} {fin : Bool} {o : Option (Ctr × Sig)} (h : AllP (Reached src) o) :
    All (Reached src) (nested st fin o) := by
  match o, h with
  | .none, _ => exact All.none
  | .some (c, s), h => exact All.some (h c s rfl)

theorem reached_drop1 {σ : Type} {o : Option (σ × Ctr × Sig)} (h : All (Reached src) o) :
    AllP (Reached src) (drop1 o) := by
  match o, h with
  | .none, _ => intro _ _ e; cases e
  | .some (st, c, s), h => intro _ _ e; cases e; exact h st c s rfl

theorem reached_array {pv : Parser} (hv : ∀ c, Reached src c → AllP (Reached src) (pv c)) (st : Bool) (r : Nat) (c : Ctr)
    (h : Reached src c) : All (Reached src) (arrayBody pv st r c) := by
  unfold arrayBody
  repeat' split
  all_goals first
    | exact All.some h
    | (rename_i e; exact reached_nested (hv _ (reached_unread h e)))
    | (rename_i e; exact All.some (reached_unread h e))

theorem reached_field {po : Bool → Parser} {pa pv : Parser} (field : Bytes)
    (ho : ∀ b c, Reached src c → AllP (Reached src) (po b c)) (ha : ∀ c, Reached src c → AllP (Reached src) (pa c))
    (hv : ∀ c, Reached src c → AllP (Reached src) (pv c)) (st : Bool) (r : Nat) (c : Ctr)
    (h : Reached src c) : All (Reached src) (fieldBody po pa pv field st r c) := by
  unfold fieldBody
  repeat' split
  all_goals first
    | exact All.some h
    | exact reached_nested (ho _ _ (h.counts _))
    | exact reached_nested (ho _ _ h)
    | exact reached_nested (ha _ h)
    | (rename_i e; exact reached_nested (hv _ (reached_unread h e)))
    | (rename_i e; exact All.some (reached_unread h e))

theorem reached_object {pf : Bytes → Parser} (n : Nat) (cf : Bool)
    (hf : ∀ k c, Reached src c → AllP (Reached src) (pf k c)) (st : Bool) (r : Nat) (c : Ctr)
    (h : Reached src c) : All (Reached src) (objectBody n pf cf st r c) := by
  unfold objectBody
  have hs := reached_string n c h
  split
  · exact All.some h
  split
  · split <;> exact All.some h
  split
  · split
    · exact All.some h
    · split
      · exact All.none
      · rename_i e
        have h1 := hs _ _ _ e
        refine reached_nested (hf _ _ ?_)
        split
        · exact h1.counts _
        · exact h1
      · rename_i e; exact All.some (hs _ _ _ e)
  split <;> exact All.some h

theorem reached_value (U : Uni) (n : Nat) {po : Bool → Parser} {pa : Parser}
    (ho : ∀ b c, Reached src c → AllP (Reached src) (po b c)) (ha : ∀ c, Reached src c → AllP (Reached src) (pa c))
    (st : Unit) (r : Nat) (c : Ctr) (h : Reached src c) : All (Reached src) (valueBody U n po pa st r c) := by
  unfold valueBody
  have hk := reached_keyword U n r c h
  have hs := reached_string n c h
  have hn := reached_number U n c h
  repeat' split
  all_goals first
    | exact All.some h
    | exact All.none
    | exact reached_nested (ha _ h)
    | exact reached_nested (ho _ _ h)
    | (rename_i e; exact All.some (hs _ _ _ e))
    | (rename_i e; exact All.some (hn _ _ _ e))
    | (rename_i e; exact All.some (hk _ _ _ e))
    | (rename_i e _; exact All.some (hk _ _ _ e))

theorem reached_parsers (U : Uni) : ∀ n : Nat,
    (∀ b c, Reached src c → AllP (Reached src) (parseObject U n b c)) ∧
    (∀ k c, Reached src c → AllP (Reached src) (parseField U n k c)) ∧
    (∀ c, Reached src c → AllP (Reached src) (parseArray U n c)) ∧
    (∀ c, Reached src c → AllP (Reached src) (parseValue U n c)) := by
  intro n
  induction n with
  | zero =>
    refine ⟨?_, ?_, ?_, ?_⟩
    · intro b c _ c' s e; simp [parseObject] at e
    · intro b c _ c' s e; simp [parseField] at e
    · intro c _ c' s e; simp [parseArray] at e
    · intro c _ c' s e; simp [parseValue] at e
  | succ n ih =>
    obtain ⟨ho, hf, ha, hv⟩ := ih
    refine ⟨?_, ?_, ?_, ?_⟩
    · intro b c h; rw [parseObject]; exact reached_drop1 (reached_loop (reached_object n b hf) _ _ c h)
    · intro k c h; rw [parseField]; exact reached_drop1 (reached_loop (reached_field k ho ha hv) _ _ c h)
    · intro c h; rw [parseArray]; exact reached_drop1 (reached_loop (reached_array hv) _ _ c h)
    · intro c h; rw [parseValue]; exact reached_drop1 (reached_loop (reached_value U n ho ha) _ _ c h)

theorem reached_peek : ∀ (n : Nat) (c : Ctr), Reached src c → Reached src (peek n c) := by
  intro n
  induction n with
  | zero => intro c h; exact h
  | succ n ih =>
    intro c h
    unfold peek
    split
    · rename_i e; exact ih _ (reached_read h e)
    · rename_i e; exact reached_read h e

theorem reached_wrapStatus {c c' : Ctr} {s s' : Sig} (h : Reached src c) (e : wrapStatus c s = (c', s')) :
    Reached src c' := by
  cases s <;> simp only [wrapStatus, Prod.mk.injEq] at e <;> obtain ⟨rfl, _⟩ := e
  · exact h
  · exact h
  · exact reached_peek _ _ h

/-- Whatever `Parse` does, the counter is in one of these states afterwards. -/
theorem reached_parse (U : Uni) {c : Ctr} {s : Sig} (h : parse U src = some (c, s)) : Reached src c := by
  unfold parse parseWith at h
  refine reached_drop1 (reached_loop ?_ _ _ _ .new) c s h
  intro st r c h
  unfold parseBody
  split
  · exact All.some h
  split
  · split
    · exact All.none
    · rename_i e
      have h1 := (reached_parsers U _).1 _ _ h _ _ e
      split <;> (rename_i e2; exact All.some (reached_wrapStatus h1 e2))
  · exact All.some h

end

end Verif.Count
