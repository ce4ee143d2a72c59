import Verif.Basic
import Verif.Spec.Utf8

/-
Pieces of the Go language and library used by the packages outside the handlers:
maps, `sort.Slice`, comparison of strings, decoding of runes, `bufio.Scanner`.
-/

namespace Verif.Go

/-! ### Comparison of strings -/

/-- `s < t` for Go strings: bytewise, a proper prefix comes first (Go specification,
"Comparison operators"; used in infra/warning/warning.go:107 and many other places). -/
def less : Bytes → Bytes → Bool
  | [], [] => false
  | [], _ :: _ => true
  | _ :: _, [] => false
  | a :: s, b :: t => decide (a < b) || (a == b && less s t)

theorem less_irrefl : ∀ s : Bytes, less s s = false
  | [] => rfl
  | a :: s => by
    rw [less, less_irrefl s]
    simp only [Bool.and_false, Bool.or_false, decide_eq_false_iff_not]
    exact UInt8.lt_irrefl a

theorem less_trans : ∀ {s t u : Bytes}, less s t = true → less t u = true → less s u = true
  | [], [], u, h, _ => by simp [less] at h
  | [], _ :: _, [], _, h => by simp [less] at h
  | [], _ :: _, _ :: _, _, _ => rfl
  | _ :: _, [], _, h, _ => by simp [less] at h
  | _ :: _, _ :: _, [], _, h => by simp [less] at h
  | a :: s, b :: t, c :: u, h1, h2 => by
    simp only [less, Bool.or_eq_true, decide_eq_true_eq, Bool.and_eq_true, beq_iff_eq] at *
    rcases h1 with h1 | ⟨rfl, h1⟩
    · rcases h2 with h2 | ⟨rfl, h2⟩
      · exact .inl (UInt8.lt_trans h1 h2)
      · exact .inl h1
    · rcases h2 with h2 | ⟨rfl, h2⟩
      · exact .inl h2
      · exact .inr ⟨rfl, less_trans h1 h2⟩

theorem less_total : ∀ (s t : Bytes), less s t = true ∨ s = t ∨ less t s = true
  | [], [] => .inr (.inl rfl)
  | [], _ :: _ => .inl rfl
  | _ :: _, [] => .inr (.inr rfl)
  | a :: s, b :: t => by
    simp only [less, Bool.or_eq_true, decide_eq_true_eq, Bool.and_eq_true, beq_iff_eq, List.cons.injEq]
    by_cases h : a = b
    · subst h
      rcases less_total s t with h | h | h
      · exact .inl (.inr ⟨rfl, h⟩)
      · exact .inr (.inl ⟨rfl, h⟩)
      · exact .inr (.inr (.inr ⟨rfl, h⟩))
    · have : a < b ∨ b < a := by
        simp only [UInt8.lt_iff_toNat_lt, ← UInt8.toNat_inj] at *
        omega
      rcases this with h | h
      · exact .inl (.inl h)
      · exact .inr (.inr (.inl h))

theorem less_asymm {s t : Bytes} (h : less s t = true) : less t s = false := by
  cases e : less t s with
  | false => rfl
  | true =>
    have := less_trans h e
    rw [less_irrefl] at this
    cases this

/-! ### Sorting -/

/-- A strict weak order. -/
structure StrictWeak {α : Type} (lt : α → α → Bool) : Prop where
  irrefl : ∀ a, lt a a = false
  trans : ∀ a b c, lt a b = true → lt b c = true → lt a c = true
  incomp : ∀ a b c, lt a b = false → lt b c = false → lt a c = false

/-- `sort.Slice` with a comparison of elements: any function that permutes the elements
so that none is less than one before it, if the comparison is a strict weak order
(package sort; used in infra/warning/warning.go:106 and other places). Nothing is said
about the order of equal elements. -/
structure Sorter where
  sort : {α : Type} → (α → α → Bool) → List α → List α
  perm : ∀ {α : Type} (lt : α → α → Bool) (l : List α), (sort lt l).Perm l
  sorted : ∀ {α : Type} (lt : α → α → Bool) (l : List α), StrictWeak lt →
    (sort lt l).Pairwise fun a b => lt b a = false

/-- Insertion into a sorted list. -/
def insertBy {α : Type} (lt : α → α → Bool) (a : α) : List α → List α
  | [] => [a]
  | b :: l => if lt a b then a :: b :: l else b :: insertBy lt a l

theorem insertBy_perm {α : Type} (lt : α → α → Bool) (a : α) (l : List α) :
    (insertBy lt a l).Perm (a :: l) := by
  induction l with
  | nil => exact .refl _
  | cons b l ih =>
    unfold insertBy
    split
    · exact .refl _
    · exact (ih.cons b).trans (.swap _ _ _)

theorem insertBy_sorted {α : Type} {lt : α → α → Bool} (h : StrictWeak lt) (a : α) {l : List α}
    (hl : l.Pairwise fun a b => lt b a = false) :
    (insertBy lt a l).Pairwise fun a b => lt b a = false := by
  induction l with
  | nil => simp [insertBy]
  | cons b l ih =>
    obtain ⟨h1, h2⟩ := List.pairwise_cons.1 hl
    unfold insertBy
    split
    · rename_i hab
      have hba : lt b a = false := by
        cases e : lt b a with
        | false => rfl
        | true =>
          have := h.trans _ _ _ hab e
          rw [h.irrefl] at this
          cases this
      refine List.pairwise_cons.2 ⟨fun x hx => ?_, hl⟩
      rcases List.mem_cons.1 hx with rfl | hx
      · exact hba
      · exact h.incomp _ _ _ (h1 x hx) hba
    · rename_i hab
      refine List.pairwise_cons.2 ⟨fun x hx => ?_, ih h2⟩
      rcases List.mem_cons.1 ((insertBy_perm lt a l).mem_iff.1 hx) with rfl | hx
      · simpa using hab
      · exact h1 x hx

/-- There is such a function. -/
def someSorter : Sorter where
  sort := fun lt l => l.foldr (insertBy lt) []
  perm := fun lt l => by
    induction l with
    | nil => exact .refl _
    | cons a l ih => exact (insertBy_perm lt a _).trans (ih.cons a)
  sorted := fun lt l h => by
    induction l with
    | nil => exact .nil
    | cons a l ih => exact insertBy_sorted h a ih

theorem less_weak : StrictWeak less where
  irrefl := less_irrefl
  trans := fun _ _ _ => less_trans
  incomp := by
    intro a b c h1 h2
    cases e : less a c with
    | false => rfl
    | true =>
      rcases less_total a b with h | h | h
      · rw [h] at h1; cases h1
      · subst h; rw [e] at h2; cases h2
      · have := less_trans h e
        rw [this] at h2; cases h2

theorem StrictWeak.comap {α β : Type} {lt : β → β → Bool} (h : StrictWeak lt) (f : α → β) :
    StrictWeak fun a b => lt (f a) (f b) where
  irrefl := fun _ => h.irrefl _
  trans := fun _ _ _ => h.trans _ _ _
  incomp := fun _ _ _ => h.incomp _ _ _

/-- Two sorted arrangements of the same elements agree, if different elements are never
equal in the order. -/
theorem sorted_unique {α : Type} {lt : α → α → Bool} {l l' : List α} (hp : l.Perm l')
    (hl : l.Pairwise fun a b => lt b a = false) (hl' : l'.Pairwise fun a b => lt b a = false)
    (ht : ∀ a ∈ l, ∀ b ∈ l, lt a b = false → lt b a = false → a = b) : l = l' := by
  refine List.Perm.eq_of_pairwise (le := fun a b => lt b a = false) ?_ hl hl' hp
  intro a b ha hb h1 h2
  exact ht a ha b (hp.mem_iff.2 hb) h2 h1

/-! ### Maps -/

/-- A Go map: its entries, each key once. The order of the list means nothing: where the
code ranges over a map the model takes an arbitrary rearrangement. -/
abbrev Map (K V : Type) := List (K × V)

section Map
variable {K V : Type} [DecidableEq K]

/-- `v, found := m[k]`. -/
def Map.get (m : Map K V) (k : K) : Option V := (List.find? (fun e => e.1 = k) m).map Prod.snd

/-- `m[k] = v`. -/
def Map.set : Map K V → K → V → Map K V
  | [], k, v => [(k, v)]
  | (k', v') :: m, k, v => if k' = k then (k, v) :: m else (k', v') :: Map.set m k v

/-- `delete(m, k)`. -/
def Map.del (m : Map K V) (k : K) : Map K V := List.filter (fun e => e.1 ≠ k) m

/-- The keys. -/
def Map.keys (m : Map K V) : List K := List.map Prod.fst m

theorem Map.get_nil (k : K) : Map.get ([] : Map K V) k = none := rfl

theorem Map.get_cons (k' : K) (v' : V) (m : Map K V) (k : K) :
    Map.get ((k', v') :: m) k = if k' = k then some v' else Map.get m k := by
  unfold Map.get
  by_cases h : k' = k <;> simp [h]

theorem Map.get_set (m : Map K V) (k : K) (v : V) (x : K) :
    (m.set k v).get x = if x = k then some v else m.get x := by
  induction m with
  | nil => simp only [Map.set, Map.get_cons, Map.get_nil]; grind
  | cons e m ih =>
    obtain ⟨k', v'⟩ := e
    simp only [Map.set]
    split
    · simp only [Map.get_cons]; grind
    · simp only [Map.get_cons, ih]; grind

theorem Map.get_del (m : Map K V) (k x : K) :
    (m.del k).get x = if x = k then none else m.get x := by
  induction m with
  | nil => simp [Map.del, Map.get_nil]
  | cons e m ih =>
    obtain ⟨k', v'⟩ := e
    unfold Map.del at *
    rw [List.filter_cons]
    split
    · simp only [Map.get_cons, ih]; grind
    · rw [ih]; simp only [Map.get_cons]; grind

theorem Map.mem_keys (m : Map K V) (k : K) : k ∈ m.keys ↔ (m.get k).isSome = true := by
  induction m with
  | nil => simp [Map.keys, Map.get_nil]
  | cons e m ih =>
    obtain ⟨k', v'⟩ := e
    rw [Map.get_cons]
    simp only [Map.keys, List.map_cons, List.mem_cons] at *
    split <;> grind

theorem Map.keys_set (m : Map K V) (k : K) (v : V) :
    (m.set k v).keys = if k ∈ m.keys then m.keys else m.keys ++ [k] := by
  induction m with
  | nil => simp [Map.set, Map.keys]
  | cons e m ih =>
    obtain ⟨k', v'⟩ := e
    simp only [Map.set]
    split
    · rename_i h; subst h; simp [Map.keys]
    · simp only [Map.keys, List.map_cons, List.mem_cons] at *
      rw [ih]
      grind

theorem Map.nodup_set {m : Map K V} (h : m.keys.Nodup) (k : K) (v : V) : (m.set k v).keys.Nodup := by
  rw [Map.keys_set]
  split
  · exact h
  · rename_i hk
    rw [List.nodup_append]
    exact ⟨h, by simp, by intro a ha b hb; simp at hb; subst hb; intro e; subst e; exact hk ha⟩

theorem Map.nodup_del {m : Map K V} (h : m.keys.Nodup) (k : K) : (m.del k).keys.Nodup :=
  List.Nodup.sublist (List.Sublist.map _ List.filter_sublist) h

theorem Map.get_of_mem {m : Map K V} (h : m.keys.Nodup) {k : K} {v : V} (hm : (k, v) ∈ m) :
    m.get k = some v := by
  induction m with
  | nil => cases hm
  | cons e m ih =>
    obtain ⟨k', v'⟩ := e
    rw [Map.get_cons]
    simp only [Map.keys, List.map_cons, List.nodup_cons] at h
    rcases List.mem_cons.1 hm with e | hm
    · cases e; simp
    · have : k' ≠ k := by
        intro e; subst e
        exact h.1 (List.mem_map.2 ⟨_, hm, rfl⟩)
      rw [if_neg this]
      exact ih h.2 hm

theorem Map.mem_of_get {m : Map K V} {k : K} {v : V} (h : m.get k = some v) : (k, v) ∈ m := by
  induction m with
  | nil => cases h
  | cons e m ih =>
    obtain ⟨k', v'⟩ := e
    rw [Map.get_cons] at h
    split at h
    · rename_i e; cases h; subst e; simp
    · exact List.mem_cons_of_mem _ (ih h)

end Map

/-! ### Runes -/

/-- `utf8.DecodeRune` on a non-empty string: the rune and how many bytes it takes; a
malformed sequence is U+FFFD of one byte (package unicode/utf8). -/
def decodeRune : Bytes → Option (Nat × Nat)
  | [] => none
  | a :: s =>
    some (if a < 0x80 then (a.toNat, 1)
    else match s with
      | [] => (0xFFFD, 1)
      | b :: s =>
        if Utf8.lead2 a && Utf8.cont b then (a.toNat % 32 * 64 + b.toNat % 64, 2)
        else match s with
          | [] => (0xFFFD, 1)
          | c :: s =>
            if Utf8.lead3 a b && Utf8.cont c then
              ((a.toNat % 16 * 64 + b.toNat % 64) * 64 + c.toNat % 64, 3)
            else match s with
              | [] => (0xFFFD, 1)
              | d :: _ =>
                if Utf8.lead4 a b && Utf8.cont c && Utf8.cont d then
                  (((a.toNat % 8 * 64 + b.toNat % 64) * 64 + c.toNat % 64) * 64 + d.toNat % 64, 4)
                else (0xFFFD, 1))

theorem decodeRune_width {s : Bytes} {r w : Nat} (h : decodeRune s = some (r, w)) :
    1 ≤ w ∧ w ≤ s.length := by
  unfold decodeRune at h
  repeat' split at h
  all_goals first | (cases h; done) | (cases h; simp)

/-- `unicode.IsSpace` (package unicode: the Latin-1 cases and the property
White_Space). -/
def isSpace (r : Nat) : Bool :=
  (0x09 ≤ r && r ≤ 0x0D) || r == 0x20 || r == 0x85 || r == 0xA0 || r == 0x1680 ||
  (0x2000 ≤ r && r ≤ 0x200A) || r == 0x2028 || r == 0x2029 || r == 0x202F || r == 0x205F || r == 0x3000

/-! ### Scanning lines -/

/-- Split at every newline; the text after the last one is the last line unless it is
empty (`bufio.ScanLines`, before the carriage return is dropped). -/
def splitLines : Bytes → List Bytes
  | [] => []
  | b :: s =>
    if b = 0x0A then [] :: splitLines s
    else match splitLines s with
      | [] => [[b]]
      | l :: ls => (b :: l) :: ls

/-- `dropCR` (package bufio): one trailing carriage return is dropped. -/
def dropCR (l : Bytes) : Bytes := if l.getLast? = some 0x0D then l.dropLast else l

/-- The lines a `bufio.Scanner` delivers: it gives up at the first line that does not
fit into the buffer of 64 KB (`bufio.MaxScanTokenSize`), that is a line of 65536 or more
bytes. -/
def scanLines (s : Bytes) : List Bytes :=
  ((splitLines s).takeWhile fun l => l.length < 65536).map dropCR

end Verif.Go
