import Verif.Heap.Slice
import Verif.Flash.Derive

/-
Derivation of flash handlers with Go's slices: /repo/handlers/flash/handler.go
WithAttrs and WithGroup share `prefix`, `suffix` and `groups` with the receiver
and append to them.

Simplifications: prefixes, suffixes and group lists live in three separate
memories (no array is used for two of these purposes); the pieces in which the
composer appends to the buffer are arbitrary (`Fam.chunk`).
-/

set_option linter.unusedSimpArgs false

namespace Verif.Flash
open Slog Heap

/-- What all handlers derived from one `NewHandler` call share
(handlers/flash/handler.go:139-145, 184-190), and the choices of the runtime:
how `append` grows arrays and in which pieces the composer appends. -/
structure Fam where
  env : Env
  options : Options
  extras : Extras
  grow : Nat → Nat → Nat
  chunk : Bytes → List Bytes

/-- What is assumed of the runtime: arrays grow enough, pieces add up. -/
structure Fam.Good (F : Fam) : Prop where
  grow : ∀ c n, n ≤ F.grow c n
  chunk : ∀ b, (F.chunk b).flatten = b

/-- A `*Handler` or `*group` object: its slices, and for a group its name and
the index of the parent handler (handlers/flash/handler.go:20-27, group.go:11-21). -/
structure Node where
  pfx : Slice
  sfx : Slice
  grp : Slice
  parent : Option (Bytes × Nat)

/-- The memories and the handlers made so far. -/
structure Store where
  P : Mem UInt8
  S : Mem UInt8
  G : Mem Bytes
  nodes : List Node

/-- `NewHandler` (handlers/flash/handler.go:32-42). -/
def Store.init : Store :=
  let (P, p) := Mem.alloc [] 512
  let (S, s) := Mem.alloc [] 32
  { P, S, G := [], nodes := [⟨p, s, Slice.nil, none⟩] }

/-- The `*Handler` part of a node as a value. -/
def Store.view (F : Fam) (m : Store) (n : Node) : Handler :=
  { env := F.env, options := F.options, extras := F.extras,
    pfx := m.P.read n.pfx, sfx := m.S.read n.sfx, groups := m.G.read n.grp }

/-- A node as a value; `before` are the values of the nodes made earlier. -/
def Store.value (F : Fam) (m : Store) (before : List H) (n : Node) : H :=
  match n.parent with
  | none => .plain (m.view F n)
  | some (name, p) => .group (m.view F n) name ((before[p]?).getD (.plain (m.view F n)))

/-- All handlers as they would print now. -/
def Store.values (F : Fam) (m : Store) : List H :=
  m.nodes.foldl (fun acc n => acc ++ [m.value F acc n]) []

/-- Reuse the slice if it is not empty, otherwise make a new one
(handlers/flash/handler.go:147-159, 193-206). -/
def reuse (m : Mem α) (s : Slice) (cap : Nat) : Mem α × Slice :=
  if s.len > 0 then (m, s) else m.alloc cap

/-- `WithAttrs` (handlers/flash/handler.go:138-170) on a node: append what the
composer adds to the shared prefix. `none`: stack overflow, the program dies. -/
def Store.withAttrs (F : Fam) (m : Store) (n : Node) (as : List Attr) : Option Store :=
  let (P, p) := reuse m.P n.pfx 512
  let (S, s) := reuse m.S n.sfx 32
  let pfx := m.P.read n.pfx
  let cfg := (m.view F n).cfg
  let add (b : Bytes) : Store :=
    let (P, p) := P.appends F.grow p (F.chunk b)
    { m with P, S, nodes := m.nodes ++ [⟨p, s, n.grp, none⟩] }
  match addAttributes cfg ⟨[], pfx.length > 0 && !endsOpen pfx⟩ as with
  | .ok st => some (add st.buffer)
  | .err st _ => some (add st.buffer)
  | .overflow => none

/-- `WithGroup` (handlers/flash/handler.go:172-213, group.go:55-65) on node
number `i`. The suffix is appended to `h.suffix` itself (line 211), also when
it is empty. -/
def Store.withGroup (F : Fam) (m : Store) (i : Nat) (n : Node) (name : Bytes) : Store :=
  if name = [] then { m with nodes := m.nodes ++ [{ n with parent := none }] }
  else
    let (G, g) := if F.options.replace.isSome then m.G.append F.grow n.grp [name] else (m.G, Slice.nil)
    let pfx := m.P.read n.pfx
    let (P, p) := reuse m.P n.pfx 512
    let (P, p) := P.append F.grow p
      ((if pfx.length > 0 && !endsOpen pfx then [0x2C, 0x20] else []) ++ (0x22 :: (name ++ b!"\": {")))
    let (S, s) := m.S.append F.grow n.sfx [0x7D]
    { P, S, G, nodes := m.nodes ++ [⟨p, s, g, some (name, i)⟩] }

/-- One derivation: `(i, op)` applies `op` to the handler numbered `i`. -/
def Store.step (F : Fam) (m : Store) (d : Nat × Op) : Option Store :=
  match m.nodes[d.1]? with
  | none => some m
  | some n =>
    match d.2 with
    | .attrs as => m.withAttrs F n as
    | .group name => some (m.withGroup F d.1 n name)

/-- A history of derivations. -/
def Store.run (F : Fam) : Store → List (Nat × Op) → Option Store
  | m, [] => some m
  | m, d :: ds => (m.step F d).bind (Store.run F · ds)

/-! ### The same with handlers as values -/

/-- One derivation of immutable handlers. -/
def famStep (fam : List H) (d : Nat × Op) : Option (List H) :=
  match fam[d.1]? with
  | none => some fam
  | some h => (h.step d.2).map fun h' => fam ++ [h']

/-- A history of derivations. -/
def famRun : List H → List (Nat × Op) → Option (List H)
  | fam, [] => some fam
  | fam, d :: ds => (famStep fam d).bind (famRun · ds)

/-- In a history, no handler with a non-empty prefix is derived from twice.
`used` are the handlers derived from before. -/
def Once : List H → List Nat → List (Nat × Op) → Prop
  | _, _, [] => True
  | fam, used, d :: ds =>
    (d.1 ∈ used → ∀ h, fam[d.1]? = some h → h.core.pfx = []) ∧
    ∀ fam', famStep fam d = some fam' → Once fam' (d.1 :: used) ds

/-! ### Invariant -/

/-- A family of slices of one memory: those not `used` are the longest of their
array and alone in it. -/
structure Apart (m : Mem α) (ss : List Slice) (used : List Nat) : Prop where
  valid : ∀ s ∈ ss, Valid m s
  longest : ∀ i s, ss[i]? = some s → i ∉ used → 0 < s.len → ∀ t ∈ ss, SafeFrom s t
  alone : ∀ i j s t, ss[i]? = some s → ss[j]? = some t → i ∉ used → j ∉ used → i ≠ j →
    0 < s.len → 0 < t.len → s.arr ≠ t.arr

theorem arr_lt {m : Mem α} {s : Slice} (v : Valid m s) (h : 0 < s.len) : s.arr < m.length := by
  rcases Nat.lt_or_ge s.arr m.length with h' | h'
  · exact h'
  · have := v.stored
    rw [array_out h'] at this
    simp at this
    omega

/-- Going on to a new memory with one more slice made from slice `i`. -/
theorem Apart.push {m m' : Mem α} {ss : List Slice} {used : List Nat} (a : Apart m ss used)
    {i : Nat} {s s' : Slice} (hi : ss[i]? = some s) (hu : i ∈ used → s.len = 0)
    (v : Valid m' s') (k : Keeps m m' (fun t => t ∈ ss))
    (f : s.len ≤ s'.len ∧ (s'.arr = s.arr ∨ m.length ≤ s'.arr ∨ s'.len = 0))
    (hz : s.len = 0 → s'.len = 0 ∨ m.length ≤ s'.arr) :
    Apart m' (ss ++ [s']) (i :: used) := by
  have hmem : s ∈ ss := List.mem_of_getElem? hi
  refine ⟨?_, ?_, ?_⟩
  · intro t ht
    rcases List.mem_append.1 ht with ht | ht
    · exact k.valid (a.valid t ht)
    · simp at ht; subst ht; exact v
  · intro j t hj hju hpos u hu' harr
    rcases List.mem_append.1 (List.mem_of_getElem? hj) with _ | _
    all_goals
      by_cases hlt : j < ss.length
      · rw [List.getElem?_append_left hlt] at hj
        have hju' : j ∉ used := fun h => hju (List.mem_cons_of_mem _ h)
        have hji : j ≠ i := fun h => hju (by simp [h])
        rcases List.mem_append.1 hu' with hu' | hu'
        · exact a.longest j t hj hju' hpos u hu' harr
        · simp at hu'; subst hu'
          rcases f.2 with e | e | e
          · by_cases hs : 0 < s.len
            · have hiu : i ∉ used := fun h => by have := hu h; omega
              exact absurd (harr.symm.trans e) (a.alone j i t s hj hi hju' hiu hji hpos hs)
            · rcases hz (by omega) with e' | e'
              · omega
              · have := arr_lt (a.valid t (List.mem_of_getElem? hj)) hpos
                omega
          · have := arr_lt (a.valid t (List.mem_of_getElem? hj)) hpos
            omega
          · omega
      · have hjl : j < (ss ++ [s']).length := by
          rcases Nat.lt_or_ge j (ss ++ [s']).length with h | h
          · exact h
          · rw [List.getElem?_eq_none h] at hj; cases hj
        have : j = ss.length := by simp at hjl; omega
        subst this
        simp at hj; subst hj
        rcases List.mem_append.1 hu' with hu' | hu'
        · by_cases hul : u.len = 0
          · omega
          rcases f.2 with e | e | e
          · by_cases hs : 0 < s.len
            · have hiu : i ∉ used := fun h => by have := hu h; omega
              have := a.longest i s hi hiu hs u hu' (harr.trans e)
              omega
            · rcases hz (by omega) with e' | e'
              · omega
              · have := arr_lt (a.valid u hu') (by omega)
                omega
          · have := arr_lt (a.valid u hu') (by omega)
            omega
          · omega
        · simp at hu'; subst hu'; exact Nat.le_refl _
  · -- two slices, one of them possibly new
    have key : ∀ j t, ss[j]? = some t → j ∉ i :: used → 0 < t.len → 0 < s'.len → t.arr ≠ s'.arr := by
      intro j t hj hju hpos hpos' e
      have hju' : j ∉ used := fun h => hju (List.mem_cons_of_mem _ h)
      have hji : j ≠ i := fun h => hju (by simp [h])
      have hlt := arr_lt (a.valid t (List.mem_of_getElem? hj)) hpos
      rcases f.2 with e1 | e1 | e1
      · by_cases hs : 0 < s.len
        · have hiu : i ∉ used := fun h => by have := hu h; omega
          exact a.alone j i t s hj hi hju' hiu hji hpos hs (e.trans e1)
        · rcases hz (by omega) with e' | e' <;> omega
      · omega
      · omega
    intro j l t u hj hl hju hlu hjl hpt hpu
    have cs : ∀ j t, (ss ++ [s'])[j]? = some t → ss[j]? = some t ∨ (j = ss.length ∧ t = s') := by
      intro j t hj
      by_cases hlt : j < ss.length
      · rw [List.getElem?_append_left hlt] at hj; exact .inl hj
      · right
        rw [List.getElem?_append_right (by omega)] at hj
        rcases Nat.eq_zero_or_pos (j - ss.length) with h | h
        · rw [h] at hj; simp at hj; exact ⟨by omega, hj.symm⟩
        · rw [List.getElem?_eq_none (by simp; omega)] at hj; cases hj
    rcases cs j t hj with h1 | ⟨h1, rfl⟩ <;> rcases cs l u hl with h2 | ⟨h2, rfl⟩
    · exact a.alone j l t u h1 h2 (fun h => hju (List.mem_cons_of_mem _ h))
        (fun h => hlu (List.mem_cons_of_mem _ h)) hjl hpt hpu
    · exact key j t h1 hju hpt hpu
    · exact fun e => key l u h2 hlu hpu hpt e.symm
    · omega

/-- A slice that may be appended to spares the others of the family. -/
theorem Apart.spares {m : Mem α} {ss : List Slice} {used : List Nat} (a : Apart m ss used)
    {i : Nat} {s : Slice} (hi : ss[i]? = some s) (hu : i ∈ used → s.len = 0) (hpos : 0 < s.len) :
    ∀ t ∈ ss, SafeFrom s t :=
  a.longest i s hi (fun h => by have := hu h; omega) hpos

theorem Keeps.weaken {m m' : Mem α} {p q : Slice → Prop} (k : Keeps m m' p) (h : ∀ t, q t → p t) :
    Keeps m m' q :=
  ⟨k.longer, k.stored, fun t v s => k.same t v (h t s)⟩

/-- `reuse` and then appending, in one memory. -/
theorem Apart.reuse_appends {grow : Nat → Nat → Nat} (hg : ∀ c n, n ≤ grow c n) {m : Mem α}
    {ss : List Slice} {used : List Nat} (a : Apart m ss used) {i : Nat} {s : Slice}
    (hi : ss[i]? = some s) (hu : i ∈ used → s.len = 0) (cap : Nat) (chunks : List (List α)) :
    let r := (reuse m s cap).1.appends grow (reuse m s cap).2 chunks
    Apart r.1 (ss ++ [r.2]) (i :: used) ∧ r.1.read r.2 = m.read s ++ chunks.flatten ∧
      Keeps m r.1 (fun t => t ∈ ss) := by
  have hv := a.valid s (List.mem_of_getElem? hi)
  unfold reuse
  split
  · rename_i hpos
    obtain ⟨v, rd, k, l, f⟩ := appends_spec hg chunks hv
    have k' := Keeps.weaken k (q := fun t => t ∈ ss) (fun t ht => a.spares hi hu hpos t ht)
    refine ⟨a.push hi hu v k' ⟨f.1, ?_⟩ (fun h => absurd h (by omega)), rd, k'⟩
    rcases f.2 with ⟨e, _⟩ | e
    · exact .inl e
    · exact .inr (.inl e)
  · rename_i hpos
    have h0 : s.len = 0 := by omega
    obtain ⟨v, rd, k, l, f⟩ := appends_spec hg chunks (alloc_valid m cap)
    have ka := alloc_keeps m cap (fun t => t ∈ ss)
    have k' : Keeps m ((m.alloc cap).1.appends grow (m.alloc cap).2 chunks).1 (fun t => t ∈ ss) := by
      refine ka.trans k ?_
      intro t vt _ e
      by_cases ht : 0 < t.len
      · have := arr_lt vt ht
        simp [Mem.alloc] at e
        omega
      · omega
    have hnew : m.length ≤ ((m.alloc cap).1.appends grow (m.alloc cap).2 chunks).2.arr := by
      rcases f.2 with ⟨e, _⟩ | e
      · rw [e]; simp [Mem.alloc]
      · simp [Mem.alloc] at e ⊢; omega
    refine ⟨a.push hi hu v k' ⟨by omega, .inr (.inl hnew)⟩ (fun _ => .inr hnew), ?_, k'⟩
    rw [rd, alloc_read]
    simp [Mem.read, h0]

/-- Handing on the same slice. -/
theorem Apart.same {m : Mem α} {ss : List Slice} {used : List Nat} (a : Apart m ss used) {i : Nat}
    {s : Slice} (hi : ss[i]? = some s) (hu : i ∈ used → s.len = 0) :
    Apart m (ss ++ [s]) (i :: used) :=
  a.push hi hu (a.valid s (List.mem_of_getElem? hi)) (Keeps.refl _ _) ⟨Nat.le_refl _, .inl rfl⟩
    (fun h => .inl h)

/-- Adding a nil slice. -/
theorem Apart.nil {m : Mem α} {ss : List Slice} {used : List Nat} (a : Apart m ss used) (i : Nat) :
    Apart m (ss ++ [Slice.nil]) (i :: used) := by
  have cs : ∀ {j : Nat} {t : Slice}, (ss ++ [Slice.nil])[j]? = some t → 0 < t.len → ss[j]? = some t := by
    intro j t hj hp
    by_cases hlt : j < ss.length
    · rwa [List.getElem?_append_left hlt] at hj
    · rw [List.getElem?_append_right (by omega)] at hj
      rcases Nat.eq_zero_or_pos (j - ss.length) with h | h
      · rw [h] at hj; simp at hj; subst hj; simp [Slice.nil] at hp
      · rw [List.getElem?_eq_none (by simp; omega)] at hj; cases hj
  refine ⟨?_, ?_, ?_⟩
  · intro t ht
    rcases List.mem_append.1 ht with ht | ht
    · exact a.valid t ht
    · simp at ht; subst ht; exact valid_nil m
  · intro j t hj hju hpos u hu
    rcases List.mem_append.1 hu with hu | hu
    · exact a.longest j t (cs hj hpos) (fun h => hju (List.mem_cons_of_mem _ h)) hpos u hu
    · simp at hu; subst hu
      intro _; exact Nat.zero_le _
  · intro j l t u hj hl hju hlu hne hp hq
    exact a.alone j l t u (cs hj hp) (cs hl hq) (fun h => hju (List.mem_cons_of_mem _ h))
      (fun h => hlu (List.mem_cons_of_mem _ h)) hne hp hq

/-- Appending to a slice that may be nil, without making a new one first. -/
theorem Apart.append {grow : Nat → Nat → Nat} (hg : ∀ c n, n ≤ grow c n) {m : Mem α}
    {ss : List Slice} {used : List Nat} (a : Apart m ss used) {i : Nat} {s : Slice}
    (hi : ss[i]? = some s) (hu : i ∈ used → s.len = 0) (hnil : s.len = 0 → s = Slice.nil)
    (x : α) :
    let r := m.append grow s [x]
    Apart r.1 (ss ++ [r.2]) (i :: used) ∧ r.1.read r.2 = m.read s ++ [x] ∧
      Keeps m r.1 (fun t => t ∈ ss) := by
  have hv := a.valid s (List.mem_of_getElem? hi)
  by_cases hpos : 0 < s.len
  · obtain ⟨v, rd, k, l, f⟩ := append_spec hg hv [x]
    have k' := Keeps.weaken k (q := fun t => t ∈ ss) (fun t ht => a.spares hi hu hpos t ht)
    refine ⟨a.push hi hu v k' ⟨f.1, ?_⟩ (fun h => absurd h (by omega)), rd, k'⟩
    rcases f.2 with ⟨e, _⟩ | e
    · exact .inl e
    · exact .inr (.inl e)
  · have h0 : s.len = 0 := by omega
    have hs := hnil h0
    obtain ⟨v, rd, k, l, f⟩ := append_spec hg hv [x]
    have hnew : m.append grow s [x] = (m ++ [m.read s ++ [x]], ⟨m.length, s.len + 1, grow s.cap (s.len + 1)⟩) := by
      unfold Mem.append
      rw [if_neg (by rw [hs]; simp [Slice.nil])]
      rfl
    have k' : Keeps m (m.append grow s [x]).1 (fun t => t ∈ ss) := by
      rw [hnew]; exact keeps_snoc _ _ _
    have harr : m.length ≤ (m.append grow s [x]).2.arr := by rw [hnew]; exact Nat.le_refl _
    exact ⟨a.push hi hu v k' ⟨f.1, .inr (.inl harr)⟩ (fun _ => .inr harr), rd, k'⟩

/-- Suffix memories: arrays hold nothing but closing braces. -/
structure Braced (m : Mem UInt8) (ss : List Slice) : Prop where
  valid : ∀ s ∈ ss, Valid m s
  braces : ∀ i, ∀ b ∈ m.array i, b = 0x7D

theorem Braced.read {m : Mem UInt8} {ss} (b : Braced m ss) {s} (hs : s ∈ ss) :
    m.read s = List.replicate s.len 0x7D := by
  have := (b.valid s hs).stored
  apply List.eq_replicate_iff.2
  refine ⟨by simp [Mem.read]; omega, fun x hx => b.braces _ x (List.mem_of_mem_take hx)⟩

theorem Braced.snoc {m : Mem UInt8} {ss} (b : Braced m ss) {s} (hs : s ∈ ss) :
    Braced m (ss ++ [s]) := by
  refine ⟨?_, b.braces⟩
  intro t ht
  rcases List.mem_append.1 ht with ht | ht
  · exact b.valid t ht
  · simp at ht; subst ht; exact b.valid _ hs

theorem Braced.alloc {m : Mem UInt8} {ss} (b : Braced m ss) (cap) :
    Braced (m.alloc cap).1 (ss ++ [(m.alloc cap).2]) := by
  refine ⟨?_, ?_⟩
  · intro t ht
    rcases List.mem_append.1 ht with ht | ht
    · exact (alloc_keeps m cap (fun _ => True)).valid (b.valid t ht)
    · simp at ht; subst ht; exact alloc_valid _ _
  · intro i x hx
    by_cases h : i < m.length
    · simp only [Mem.alloc, array_append_old h] at hx
      exact b.braces i x hx
    · by_cases h' : i = m.length
      · subst h'; simp only [Mem.alloc, array_append_new] at hx; cases hx
      · rw [Mem.alloc, array_out (by simp; omega)] at hx; cases hx

theorem Braced.append {grow : Nat → Nat → Nat} (hg : ∀ c n, n ≤ grow c n) {m : Mem UInt8} {ss}
    (b : Braced m ss) {s} (hs : s ∈ ss) :
    Braced (m.append grow s [0x7D]).1 (ss ++ [(m.append grow s [0x7D]).2]) ∧
    (m.append grow s [0x7D]).1.read (m.append grow s [0x7D]).2 = m.read s ++ [0x7D] := by
  obtain ⟨v, rd, k, l, f⟩ := append_spec hg (b.valid s hs) [0x7D]
  refine ⟨⟨?_, ?_⟩, rd⟩
  · intro t ht
    rcases List.mem_append.1 ht with ht | ht
    · exact k.valid (b.valid t ht)
    · simp at ht; subst ht; exact v
  · intro i x hx
    unfold Mem.append at hx
    split at hx
    · by_cases h : s.arr < m.length
      · by_cases hi : s.arr = i
        · subst hi
          simp only [array_set_eq h] at hx
          unfold overwrite at hx
          simp only [List.append_assoc, List.mem_append, List.mem_singleton] at hx
          rcases hx with hx | hx | hx
          · exact b.braces _ x (List.mem_of_mem_take hx)
          · exact hx
          · exact b.braces _ x (List.mem_of_mem_drop hx)
        · simp only [array_set_ne hi] at hx
          exact b.braces i x hx
      · simp only [List.set_eq_of_length_le (Nat.le_of_not_lt h)] at hx
        exact b.braces i x hx
    · by_cases h : i < m.length
      · simp only [array_append_old h] at hx
        exact b.braces i x hx
      · by_cases h' : i = m.length
        · subst h'
          simp only [array_append_new] at hx
          rcases List.mem_append.1 hx with hx | hx
          · rw [b.read hs] at hx; exact (List.mem_replicate.1 hx).2
          · simpa using hx
        · rw [array_out (by simp; omega)] at hx; cases hx

/-- The whole invariant. -/
structure Inv (F : Fam) (m : Store) (fam : List H) (used : List Nat) : Prop where
  P : Apart m.P (m.nodes.map Node.pfx) used
  G : Apart m.G (m.nodes.map Node.grp) used
  S : Braced m.S (m.nodes.map Node.sfx)
  nil : ∀ n ∈ m.nodes, (n.pfx.len = 0 → n.grp.len = 0) ∧ (n.grp.len = 0 → n.grp = Slice.nil)
  parent : ∀ n ∈ m.nodes, ∀ x, n.parent = some x → x.2 < m.nodes.length
  values : m.values F = fam

/-! ### Steps -/

/-- Values depend only on what the slices show. -/
theorem value_congr {F : Fam} {m m' : Store} {n : Node} (acc : List H)
    (h : m'.view F n = m.view F n) : m'.value F acc n = m.value F acc n := by
  unfold Store.value
  rw [h]

theorem values_congr {F : Fam} {m m' : Store} {ns : List Node}
    (h : ∀ n ∈ ns, m'.view F n = m.view F n) : ∀ acc : List H,
    ns.foldl (fun acc n => acc ++ [m'.value F acc n]) acc =
      ns.foldl (fun acc n => acc ++ [m.value F acc n]) acc := by
  induction ns with
  | nil => intro acc; rfl
  | cons n ns ih =>
    intro acc
    simp only [List.foldl_cons]
    rw [value_congr acc (h n (by simp)), ih (fun x hx => h x (by simp [hx]))]

theorem values_snoc {F : Fam} {m m' : Store} {n : Node} (hn : m'.nodes = m.nodes ++ [n])
    (h : ∀ x ∈ m.nodes, m'.view F x = m.view F x) :
    m'.values F = m.values F ++ [m'.value F (m.values F) n] := by
  unfold Store.values
  rw [hn, List.foldl_append, values_congr h]
  rfl

theorem values_length (F : Fam) (m : Store) : (m.values F).length = m.nodes.length := by
  have : ∀ (ns : List Node) (acc : List H),
      (ns.foldl (fun acc n => acc ++ [m.value F acc n]) acc).length = acc.length + ns.length := by
    intro ns
    induction ns with
    | nil => intro acc; simp
    | cons n ns ih => intro acc; simp [ih]; omega
  simpa [Store.values] using this m.nodes []

theorem values_core (F : Fam) (m : Store) {i : Nat} {n : Node} (h : m.nodes[i]? = some n) :
    ∃ x, (m.values F)[i]? = some x ∧ x.core = m.view F n := by
  have : ∀ (ns : List Node) (acc : List H) (i : Nat) (n : Node), ns[i]? = some n →
      ∃ x, (ns.foldl (fun acc n => acc ++ [m.value F acc n]) acc)[acc.length + i]? = some x ∧
        x.core = m.view F n := by
    intro ns
    induction ns with
    | nil => intro acc i n h; simp at h
    | cons a ns ih =>
      intro acc i n h
      have pre : ∀ (ns : List Node) (acc : List H), acc <+: ns.foldl (fun acc n => acc ++ [m.value F acc n]) acc := by
        intro ns
        induction ns with
        | nil => intro acc; exact List.prefix_refl _
        | cons a ns ih =>
          intro acc
          exact (List.prefix_append acc _).trans (ih _)
      cases i with
      | zero =>
        simp at h; subst h
        simp only [List.foldl_cons]
        obtain ⟨t, ht⟩ := pre ns (acc ++ [m.value F acc a])
        rw [← ht]
        refine ⟨m.value F acc a, by simp, ?_⟩
        unfold Store.value
        split <;> rfl
      | succ i =>
        simp at h
        have := ih (acc ++ [m.value F acc a]) i n h
        simp only [List.foldl_cons]
        have e : acc.length + (i + 1) = (acc ++ [m.value F acc a]).length + i := by simp; omega
        rw [e]; exact this
  simpa [Store.values] using this m.nodes [] i n h

/-- Old nodes keep their views. -/
theorem view_keeps {F : Fam} {m m' : Store} {used : List Nat} {fam} (inv : Inv F m fam used)
    (kP : Keeps m.P m'.P (fun t => t ∈ m.nodes.map Node.pfx))
    (kG : Keeps m.G m'.G (fun t => t ∈ m.nodes.map Node.grp))
    (bS : ∀ n ∈ m.nodes, m'.S.read n.sfx = m.S.read n.sfx) :
    ∀ n ∈ m.nodes, m'.view F n = m.view F n := by
  intro n hn
  unfold Store.view
  rw [kP.same _ (inv.P.valid _ (List.mem_map_of_mem hn)) (List.mem_map_of_mem hn),
    kG.same _ (inv.G.valid _ (List.mem_map_of_mem hn)) (List.mem_map_of_mem hn), bS n hn]

/-- What the composer adds does not depend on what the buffer holds. -/
theorem addAttributes_before (cfg : Cfg) (b : Bytes) (s : Bool) (as : List Attr) :
    addAttributes cfg ⟨b, s⟩ as = (addAttributes cfg ⟨[], s⟩ as).before b := by
  have h := (addAll_shifts (addAttribute_shifts cfg cfg.env.stack) as).1
  unfold addAttributes
  rw [h ⟨b, s⟩, h ⟨[], s⟩]
  cases addAll (addAttribute cfg cfg.env.stack) st0 as with
  | ok st => simp only [Out.glue, Out.before, glue]; split <;> simp
  | err st m => simp only [Out.glue, Out.before, glue]; split <;> simp
  | overflow => rfl

theorem braced_same {m m' : Mem UInt8} {ss ss'} (b : Braced m ss) (b' : Braced m' (ss ++ ss')) :
    ∀ s ∈ ss, m'.read s = m.read s := by
  intro s hs
  rw [b.read hs, b'.read (by simp [hs])]

/-- The step theorem: a derivation allowed by the guard acts on the heap as on
immutable handlers. -/
theorem step_inv {F : Fam} (hF : F.Good) {m m' : Store} {fam : List H} {used : List Nat}
    (inv : Inv F m fam used) {d : Nat × Op}
    (hg : d.1 ∈ used → ∀ h, fam[d.1]? = some h → h.core.pfx = [])
    (hstep : m.step F d = some m') :
    ∃ fam', famStep fam d = some fam' ∧ Inv F m' fam' (d.1 :: used) := by
  obtain ⟨i, op⟩ := d
  simp only at hg
  unfold Store.step at hstep
  simp only at hstep
  cases hn : m.nodes[i]? with
  | none =>
    rw [hn] at hstep
    simp at hstep; subst hstep
    have hfam : fam[i]? = none := by
      rw [← inv.values, List.getElem?_eq_none_iff, values_length]
      exact List.getElem?_eq_none_iff.1 hn
    refine ⟨fam, by simp [famStep, hfam], ?_⟩
    have out : ∀ {α} {M : Mem α} {ss : List Slice}, ss.length = m.nodes.length → Apart M ss used →
        Apart M ss (i :: used) := by
      intro α M ss _ a
      refine ⟨a.valid, fun j s hj hju => a.longest j s hj (fun h => hju (by simp [h])),
        fun j l s t hj hl hju hlu => a.alone j l s t hj hl (fun h => hju (by simp [h]))
          (fun h => hlu (by simp [h]))⟩
    exact ⟨out (by simp) inv.P, out (by simp) inv.G, inv.S, inv.nil, inv.parent, inv.values⟩
  | some n =>
    rw [hn] at hstep
    simp only at hstep
    have hmem : n ∈ m.nodes := List.mem_of_getElem? hn
    obtain ⟨x, hx, hcore⟩ := values_core F m hn
    rw [inv.values] at hx
    have hP : (m.nodes.map Node.pfx)[i]? = some n.pfx := by simp [hn]
    have hG : (m.nodes.map Node.grp)[i]? = some n.grp := by simp [hn]
    have hSm : n.sfx ∈ m.nodes.map Node.sfx := List.mem_map_of_mem hmem
    have lenP : (m.P.read n.pfx).length = n.pfx.len := by
      have := (inv.P.valid _ (List.mem_map_of_mem hmem)).stored
      simp [Mem.read]; omega
    have huP : i ∈ used → n.pfx.len = 0 := by
      intro h
      have := hg h x hx
      rw [hcore] at this
      simp only [Store.view] at this
      rw [← lenP, this]; rfl
    have huG : i ∈ used → n.grp.len = 0 := fun h => (inv.nil n hmem).1 (huP h)
    cases op with
    | attrs as =>
      simp only [Store.withAttrs] at hstep
      have hb := addAttributes_before (m.view F n).cfg (m.P.read n.pfx)
        ((m.P.read n.pfx).length > 0 && !endsOpen (m.P.read n.pfx)) as
      -- suffix
      have hS : Braced (reuse m.S n.sfx 32).1 (m.nodes.map Node.sfx ++ [(reuse m.S n.sfx 32).2]) ∧
          (reuse m.S n.sfx 32).1.read (reuse m.S n.sfx 32).2 = m.S.read n.sfx := by
        unfold reuse
        split
        · exact ⟨inv.S.snoc hSm, rfl⟩
        · rename_i h
          refine ⟨inv.S.alloc 32, ?_⟩
          rw [alloc_read]
          simp [Mem.read, show n.sfx.len = 0 by omega]
      -- both outcomes that return
      have main : ∀ b : Bytes,
          (h' : Handler) → h' = { (m.view F n) with pfx := m.P.read n.pfx ++ b } →
          (x.withAttrs as = some (.plain h')) →
          m' = { m with
            P := ((reuse m.P n.pfx 512).1.appends F.grow (reuse m.P n.pfx 512).2 (F.chunk b)).1
            S := (reuse m.S n.sfx 32).1
            nodes := m.nodes ++ [⟨((reuse m.P n.pfx 512).1.appends F.grow
              (reuse m.P n.pfx 512).2 (F.chunk b)).2, (reuse m.S n.sfx 32).2, n.grp, none⟩] } →
          ∃ fam', famStep fam (i, .attrs as) = some fam' ∧ Inv F m' fam' (i :: used) := by
        intro b h' hh' hw hm'
        obtain ⟨aP, rP, kP⟩ := inv.P.reuse_appends hF.grow hP huP 512 (F.chunk b)
        have views := view_keeps inv (m' := m') (by rw [hm']; exact kP) (by rw [hm']; exact Keeps.refl _ _)
          (by
            rw [hm']
            intro y hy
            exact braced_same inv.S hS.1 _ (List.mem_map_of_mem hy))
        have hns : m'.nodes = m.nodes ++ [⟨((reuse m.P n.pfx 512).1.appends F.grow
              (reuse m.P n.pfx 512).2 (F.chunk b)).2, (reuse m.S n.sfx 32).2, n.grp, none⟩] := by rw [hm']
        have hvals := values_snoc hns views
        refine ⟨fam ++ [.plain h'], by simp [famStep, hx, H.step, hw], ?_⟩
        refine ⟨?_, ?_, ?_, ?_, ?_, ?_⟩
        · rw [hns, List.map_append, hm']; exact aP
        · rw [hns, List.map_append, hm']; exact inv.G.same hG huG
        · rw [hns, List.map_append, hm']; exact hS.1
        · intro y hy
          rw [hns] at hy
          rcases List.mem_append.1 hy with hy | hy
          · exact inv.nil y hy
          · simp at hy; subst hy
            refine ⟨?_, (inv.nil n hmem).2⟩
            intro h0
            simp only at h0 ⊢
            apply (inv.nil n hmem).1
            have hle : n.pfx.len ≤ ((reuse m.P n.pfx 512).1.appends F.grow (reuse m.P n.pfx 512).2
              (F.chunk b)).2.len := by
              have hv := aP.valid _ (List.mem_append_right _ (List.mem_singleton.2 rfl))
              have hl := congrArg List.length rP
              have := hv.stored
              simp only [Mem.read, List.length_take, List.length_append] at hl
              have := (inv.P.valid _ (List.mem_map_of_mem hmem)).stored
              omega
            omega
        · intro y hy z hz
          rw [hns] at hy ⊢
          rcases List.mem_append.1 hy with hy | hy
          · have := inv.parent y hy z hz; simp; omega
          · simp at hy; subst hy; simp at hz
        · rw [hvals, inv.values]
          congr 1
          simp only [Store.value, hh', hm', Store.view, rP, hF.chunk, hS.2]
      have hw : x.withAttrs as =
          (match addAttributes (m.view F n).cfg ⟨[], (m.P.read n.pfx).length > 0 && !endsOpen (m.P.read n.pfx)⟩ as with
            | .ok st => some (.plain { (m.view F n) with pfx := m.P.read n.pfx ++ st.buffer })
            | .err st _ => some (.plain { (m.view F n) with pfx := m.P.read n.pfx ++ st.buffer })
            | .overflow => none) := by
        rw [H.withAttrs, hcore, Handler.withAttrs]
        simp only
        have e : (m.view F n).pfx = m.P.read n.pfx := rfl
        rw [e, hb]
        cases addAttributes (m.view F n).cfg ⟨[], (m.P.read n.pfx).length > 0 && !endsOpen (m.P.read n.pfx)⟩ as <;> rfl
      cases ho : addAttributes (m.view F n).cfg ⟨[], (m.P.read n.pfx).length > 0 && !endsOpen (m.P.read n.pfx)⟩ as with
      | ok st =>
        rw [ho] at hw hstep
        simp only [Option.some.injEq] at hstep
        exact main st.buffer _ rfl hw hstep.symm
      | err st e =>
        rw [ho] at hw hstep
        simp only [Option.some.injEq] at hstep
        exact main st.buffer _ rfl hw hstep.symm
      | overflow =>
        rw [ho] at hstep
        simp at hstep
    | group name =>
      simp only [Option.some.injEq] at hstep
      by_cases hname : name = []
      · subst hname
        simp only [Store.withGroup, if_pos] at hstep
        have hvals := values_snoc (F := F) (m := m) (m' := m') (n := { n with parent := none })
          (by rw [← hstep]) (by intro y _; rw [← hstep]; rfl)
        refine ⟨fam ++ [.plain x.core], by simp [famStep, hx, H.step, H.withGroup], ?_⟩
        refine ⟨?_, ?_, ?_, ?_, ?_, ?_⟩
        · rw [← hstep, List.map_append]; exact inv.P.same hP huP
        · rw [← hstep, List.map_append]; exact inv.G.same hG huG
        · rw [← hstep, List.map_append]; exact inv.S.snoc hSm
        · intro y hy
          rw [← hstep] at hy
          rcases List.mem_append.1 hy with hy | hy
          · exact inv.nil y hy
          · simp at hy; subst hy; exact inv.nil n hmem
        · intro y hy z hz
          rw [← hstep] at hy ⊢
          rcases List.mem_append.1 hy with hy | hy
          · have := inv.parent y hy z hz; simp; omega
          · simp at hy; subst hy; simp at hz
        · rw [hvals, inv.values, hcore, ← hstep]
          rfl
      · -- a real group
        simp only [Store.withGroup, if_neg hname] at hstep
        generalize htext : ((if (m.P.read n.pfx).length > 0 && !endsOpen (m.P.read n.pfx) then [0x2C, 0x20] else []) ++
          (0x22 :: (name ++ b!"\": {")) : Bytes) = text at hstep
        obtain ⟨aP, rP, kP⟩ := inv.P.reuse_appends hF.grow hP huP 512 [text]
        simp only [Mem.appends, List.flatten_cons, List.flatten_nil, List.append_nil] at aP rP kP
        obtain ⟨bS, rS⟩ := inv.S.append hF.grow hSm
        -- the group list
        have hGr : ∃ G g, (if F.options.replace.isSome = true then m.G.append F.grow n.grp [name] else (m.G, Slice.nil)) = (G, g) ∧
            Apart G (m.nodes.map Node.grp ++ [g]) (i :: used) ∧
            G.read g = (if F.options.replace.isSome then m.G.read n.grp ++ [name] else []) ∧
            Keeps m.G G (fun t => t ∈ m.nodes.map Node.grp) ∧ (g.len = 0 → g = Slice.nil) := by
          split
          · obtain ⟨a, r, k⟩ := inv.G.append hF.grow hG huG (inv.nil n hmem).2 name
            refine ⟨(m.G.append F.grow n.grp [name]).1, (m.G.append F.grow n.grp [name]).2, rfl, a, r, k, ?_⟩
            intro h0
            have hl := congrArg List.length r
            simp only [Mem.read, h0, List.take_zero, List.length_nil, List.length_append, List.length_singleton] at hl
            omega
          · exact ⟨_, _, rfl, inv.G.nil i, by simp [Mem.read, Slice.nil], Keeps.refl _ _, fun _ => rfl⟩
        obtain ⟨G, g, eG, aG, rG, kG, nG⟩ := hGr
        rw [eG] at hstep
        simp only at hstep
        have views := view_keeps inv (m' := m') (by rw [← hstep]; exact kP) (by rw [← hstep]; exact kG)
          (by
            rw [← hstep]
            intro y hy
            exact braced_same inv.S bS _ (List.mem_map_of_mem hy))
        have hns : m'.nodes = m.nodes ++ [⟨((reuse m.P n.pfx 512).1.append F.grow (reuse m.P n.pfx 512).2 text).2,
          (m.S.append F.grow n.sfx [0x7D]).2, g, some (name, i)⟩] := by rw [← hstep]
        have hvals := values_snoc hns views
        refine ⟨fam ++ [x.withGroup name], by simp [famStep, hx, H.step], ?_⟩
        refine ⟨?_, ?_, ?_, ?_, ?_, ?_⟩
        · rw [hns, List.map_append, ← hstep]; exact aP
        · rw [hns, List.map_append, ← hstep]; exact aG
        · rw [hns, List.map_append, ← hstep]; exact bS
        · intro y hy
          rw [hns] at hy
          rcases List.mem_append.1 hy with hy | hy
          · exact inv.nil y hy
          · simp at hy; subst hy
            refine ⟨?_, nG⟩
            intro h0
            have hl := congrArg List.length rP
            have ht : 0 < text.length := by rw [← htext]; simp; omega
            simp only at h0
            simp only [Mem.read, h0, List.take_zero, List.length_nil, List.length_append] at hl
            omega
        · intro y hy z hz
          rw [hns] at hy ⊢
          rcases List.mem_append.1 hy with hy | hy
          · have := inv.parent y hy z hz; simp; omega
          · simp at hy; subst hy; simp at hz; subst hz
            have := (List.getElem?_eq_some_iff.1 hn).1
            simp; omega
        · rw [hvals, inv.values]
          congr 1
          have hview : m'.view F ⟨((reuse m.P n.pfx 512).1.append F.grow (reuse m.P n.pfx 512).2 text).2,
              (m.S.append F.grow n.sfx [0x7D]).2, g, some (name, i)⟩ = (m.view F n).openGroup name := by
            rw [← hstep]
            simp only [Store.view, Handler.openGroup, rP, rS, rG]
            rw [← htext]
            rfl
          simp only [Store.value, hx, hview, H.withGroup, hname, hcore]
          rfl

theorem init_inv (F : Fam) : Inv F Store.init [.plain (newHandler F.env F.options F.extras)] [] := by
  refine ⟨⟨?_, ?_, ?_⟩, ⟨?_, ?_, ?_⟩, ⟨?_, ?_⟩, ?_, ?_, rfl⟩
  · intro s hs
    simp [Store.init, Mem.alloc] at hs; subst hs
    exact ⟨by simp, by simp, by simp [Store.init, Mem.alloc]⟩
  · intro i s hs _ hp
    rcases List.mem_of_getElem? hs with hs
    simp [Store.init, Mem.alloc] at hs; subst hs; simp at hp
  · intro i j s t hs _ _ _ _ hp
    rcases List.mem_of_getElem? hs with hs
    simp [Store.init, Mem.alloc] at hs; subst hs; simp at hp
  · intro s hs
    simp [Store.init, Mem.alloc] at hs; subst hs
    exact valid_nil _
  · intro i s hs _ hp
    rcases List.mem_of_getElem? hs with hs
    simp [Store.init, Mem.alloc] at hs; subst hs; simp [Slice.nil] at hp
  · intro i j s t hs _ _ _ _ hp
    rcases List.mem_of_getElem? hs with hs
    simp [Store.init, Mem.alloc] at hs; subst hs; simp [Slice.nil] at hp
  · intro s hs
    simp [Store.init, Mem.alloc] at hs; subst hs
    exact ⟨by simp, by simp, by simp [Store.init, Mem.alloc]⟩
  · intro i b hb
    cases i with
    | zero => simp [Store.init, Mem.alloc, Mem.array] at hb
    | succ i => simp [Store.init, Mem.alloc, Mem.array] at hb
  · intro n hn
    simp [Store.init, Mem.alloc] at hn; subst hn
    exact ⟨fun _ => rfl, fun _ => rfl⟩
  · intro n hn x hx
    simp [Store.init, Mem.alloc] at hn; subst hn
    simp at hx

/-- Histories. -/
theorem run_inv {F : Fam} (hF : F.Good) : ∀ (ds : List (Nat × Op)) {m m' : Store} {fam used},
    Inv F m fam used → Once fam used ds → m.run F ds = some m' →
    ∃ fam' used', famRun fam ds = some fam' ∧ Inv F m' fam' used' := by
  intro ds
  induction ds with
  | nil =>
    intro m m' fam used inv _ h
    simp [Store.run] at h; subst h
    exact ⟨fam, used, rfl, inv⟩
  | cons d ds ih =>
    intro m m' fam used inv ho h
    simp only [Store.run, Option.bind_eq_some_iff] at h
    obtain ⟨m1, h1, h2⟩ := h
    obtain ⟨fam1, hf1, inv1⟩ := step_inv hF inv ho.1 h1
    obtain ⟨fam', used', hf', inv'⟩ := ih inv1 (ho.2 fam1 hf1) h2
    exact ⟨fam', used', by simp [famRun, hf1, hf'], inv'⟩

theorem famStep_prefix {fam fam' : List H} {d} (h : famStep fam d = some fam') : fam <+: fam' := by
  unfold famStep at h
  split at h
  · simp at h; subst h; exact List.prefix_refl _
  · simp only [Option.map_eq_some_iff] at h
    obtain ⟨x, _, rfl⟩ := h
    exact List.prefix_append _ _

theorem famRun_prefix : ∀ (ds : List (Nat × Op)) {fam fam' : List H}, famRun fam ds = some fam' →
    fam <+: fam' := by
  intro ds
  induction ds with
  | nil => intro fam fam' h; simp [famRun] at h; subst h; exact List.prefix_refl _
  | cons d ds ih =>
    intro fam fam' h
    simp only [famRun, Option.bind_eq_some_iff] at h
    obtain ⟨f1, h1, h2⟩ := h
    exact (famStep_prefix h1).trans (ih h2)

theorem run_append (F : Fam) : ∀ (ds es : List (Nat × Op)) (m : Store),
    m.run F (ds ++ es) = (m.run F ds).bind (·.run F es) := by
  intro ds
  induction ds with
  | nil => intro es m; rfl
  | cons d ds ih =>
    intro es m
    simp only [List.cons_append, Store.run]
    cases m.step F d with
    | none => rfl
    | some m1 => exact ih es m1

theorem famRun_append : ∀ (ds es : List (Nat × Op)) (fam : List H),
    famRun fam (ds ++ es) = (famRun fam ds).bind (famRun · es) := by
  intro ds
  induction ds with
  | nil => intro es m; rfl
  | cons d ds ih =>
    intro es m
    simp only [List.cons_append, famRun]
    cases famStep m d with
    | none => rfl
    | some m1 => exact ih es m1

theorem once_append : ∀ (ds es : List (Nat × Op)) {fam used}, Once fam used (ds ++ es) →
    Once fam used ds := by
  intro ds
  induction ds with
  | nil => intro es fam used _; exact trivial
  | cons d ds ih =>
    intro es fam used h
    exact ⟨h.1, fun f hf => ih es (h.2 f hf)⟩

end Verif.Flash
