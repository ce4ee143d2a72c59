import Verif.Bench.Equal

/-
Lemmas on `finderDeep`: the fields it lists are the last steps of the paths at fault.
-/

namespace Verif.Bench
open Go

variable {F : Type} [DecidableEq F]

omit [DecidableEq F] in
theorem ok_get {m : AMap F} (h : (Any.map m).Ok) {k : Bytes} {a : Any F} (g : Map.get m k = some a) :
    a.Ok := by
  cases h with | map _ h => exact h _ (Map.mem_of_get g)

omit [DecidableEq F] in
theorem ok_getD {m : AMap F} (h : (Any.map m).Ok) (k : Bytes) : ((Map.get m k).getD .nil).Ok := by
  cases g : Map.get m k with
  | none => exact .nil
  | some a => exact ok_get h g

omit [DecidableEq F] in
theorem find_nil (a : Any F) : a.find [] = some a := by cases a <;> rfl

omit [DecidableEq F] in
theorem find_map (m : AMap F) (k : Bytes) (p : List Bytes) :
    (Any.map m).find (k :: p) = (Map.get m k).bind (Any.find · p) := rfl

omit [DecidableEq F] in
theorem find_cons_of_not {a : Any F} (h : a.isMap = false) (k : Bytes) (p : List Bytes) :
    a.find (k :: p) = none := by cases a <;> first | rfl | cases h

/-- A fault whose actual value is the text `json.Marshal` gives for the expected one. -/
def Quoted (L : Lib F) (e a : Any F) (p : List Bytes) : Prop :=
  ∃ v s, e.find p = some v ∧ a.find p = some (.str s) ∧ L.marshal v = some s

omit [DecidableEq F] in
theorem fault_nil (v a : Any F) : Any.Fault v a [] ↔
    ¬ (v.isMap = true ∧ a.isMap = true) ∧ ¬ Any.Same v a := by
  unfold Any.Fault
  simp only [find_nil, Option.some.injEq, Option.getD_some]
  constructor
  · rintro ⟨_, rfl, _, h⟩; exact h
  · intro h
    refine ⟨v, rfl, ?_, h⟩
    intro q hq hne
    exact absurd (List.prefix_nil.1 hq) hne

omit [DecidableEq F] in
theorem fault_cons (e a : AMap F) (k : Bytes) (p : List Bytes) :
    Any.Fault (.map e) (.map a) (k :: p) ↔
      ∃ v, Map.get e k = some v ∧ Any.Fault v ((Map.get a k).getD .nil) p := by
  have key : ((Any.map a).find (k :: p)).getD .nil =
      ((((Map.get a k).getD .nil).find p).getD .nil) := by
    rw [find_map]
    cases g : Map.get a k with
    | some x => rfl
    | none => cases p <;> rfl
  unfold Any.Fault
  rw [key, find_map]
  constructor
  · rintro ⟨v, h1, h2, h3⟩
    obtain ⟨w, g, h1⟩ := Option.bind_eq_some_iff.1 h1
    refine ⟨w, g, v, h1, ?_, h3⟩
    intro q hq hne
    obtain ⟨x, hx, hm⟩ := h2 (k :: q) (by simpa using hq) (by simpa using hne)
    rw [find_map] at hx
    obtain ⟨y, gy, hx⟩ := Option.bind_eq_some_iff.1 hx
    rw [gy]
    exact ⟨x, hx, hm⟩
  · rintro ⟨w, g, v, h1, h2, h3⟩
    refine ⟨v, by rw [g]; exact h1, ?_, h3⟩
    intro q hq hne
    cases q with
    | nil => exact ⟨_, find_nil _, rfl⟩
    | cons k' q =>
      obtain ⟨rfl, hq'⟩ := List.cons_prefix_cons.1 hq
      obtain ⟨x, hx, hm⟩ := h2 q hq' (by rintro rfl; exact hne rfl)
      rw [find_map]
      cases ga : Map.get a k' with
      | some y => rw [ga] at hx; exact ⟨x, hx, hm⟩
      | none =>
        rw [ga] at hx
        cases q with
        | nil => simp only [Option.getD_none, find_nil, Option.some.injEq] at hx; subst hx; cases hm
        | cons => simp only [Option.getD_none] at hx; cases hx

omit [DecidableEq F] in
/-- Not both values are groups, and the path is not empty: no fault below. -/
theorem fault_leaf {v a : Any F} (h : ¬ (v.isMap = true ∧ a.isMap = true)) {k : Bytes} {p : List Bytes} :
    ¬ Any.Fault v a (k :: p) := by
  rintro ⟨w, h1, h2, -⟩
  obtain ⟨x, hx, hm⟩ := h2 [] (by simp) (by simp)
  rw [find_nil] at hx; cases hx
  cases hv : v.isMap with
  | true => exact h ⟨hv, hm⟩
  | false => rw [find_cons_of_not hv] at h1; cases h1

omit [DecidableEq F] in
theorem quoted_cons (L : Lib F) (e a : AMap F) (k : Bytes) (p : List Bytes) {v : Any F}
    (g : Map.get e k = some v) :
    Quoted L (.map e) (.map a) (k :: p) ↔ Quoted L v ((Map.get a k).getD .nil) p := by
  unfold Quoted
  simp only [find_map, g, Option.bind_some]
  cases ga : Map.get a k with
  | some x => simp only [Option.bind_some, Option.getD_some]
  | none =>
    simp only [Option.bind_none, Option.getD_none]
    constructor
    · rintro ⟨_, _, _, h, _⟩; cases h
    · rintro ⟨_, _, _, h, _⟩
      cases p <;> cases h

/-- The name under which a fault at path `p` below `field` is listed. -/
def lastName (field : Bytes) (p : List Bytes) : Bytes := p.getLast?.getD field

theorem lastName_cons (field k : Bytes) (p : List Bytes) : lastName field (k :: p) = lastName k p := by
  unfold lastName
  cases p with
  | nil => rfl
  | cons b p =>
    rw [List.getLast?_cons_cons]
    cases h : (b :: p).getLast? with
    | some x => rfl
    | none => simp at h

omit [DecidableEq F] in
theorem mem_sortStrings (L : Lib F) {x : Bytes} {l : List Bytes} : x ∈ sortStrings L l ↔ x ∈ l :=
  (L.sorter.perm less l).mem_iff

/-- What `differs` lists. -/
theorem differs_spec (L : Lib F) {field : Bytes} {v a : Any F} (hv : v.Ok) (ha : a.Ok)
    (hn : ¬ (v.isMap = true ∧ a.isMap = true)) :
    match differs L field v a with
    | none => Any.Fault v a []
    | some (bf, sf) => ∀ name,
        (name ∈ bf ↔ ∃ p, Any.Fault v a p ∧ ¬ Quoted L v a p ∧ lastName field p = name) ∧
        (name ∈ sf ↔ ∃ p, Any.Fault v a p ∧ Quoted L v a p ∧ lastName field p = name) := by
  have only : ∀ (P : List Bytes → Prop), (∃ p, Any.Fault v a p ∧ P p) ↔ Any.Fault v a [] ∧ P [] := by
    intro P
    constructor
    · rintro ⟨p, h, hp⟩
      cases p with
      | nil => exact ⟨h, hp⟩
      | cons k p => exact absurd h (fault_leaf hn)
    · intro h; exact ⟨[], h⟩
  have q0 : Quoted L v a [] ↔ ∃ s, a = .str s ∧ L.marshal v = some s := by
    unfold Quoted
    simp only [find_nil, Option.some.injEq]
    constructor
    · rintro ⟨_, s, rfl, rfl, h⟩; exact ⟨s, rfl, h⟩
    · rintro ⟨s, rfl, h⟩; exact ⟨v, s, rfl, rfl, h⟩
  have f0 : Any.Fault v a [] ↔ deepEqual v a = false := by
    rw [fault_nil, ← deep_iff v a hv ha, Bool.not_eq_true]
    exact ⟨fun h => h.2, fun h => ⟨hn, h⟩⟩
  have ln : lastName field [] = field := rfl
  simp only [only, ln]
  rw [f0, q0]
  unfold differs
  cases hd : deepEqual v a with
  | true => simp
  | false =>
    simp only [Bool.false_eq_true, if_false, true_and]
    cases a with
    | str s =>
      dsimp only
      cases hm : L.marshal v with
      | none => simp
      | some j =>
        dsimp only
        by_cases e : s = j
        · subst e
          simp [eq_comm]
        · have : (s == j) = false := by simpa using e
          simp only [this, Bool.false_eq_true, if_false, Any.str.injEq, Option.some.injEq]
          intro name
          have e1 : ¬ ∃ s', s = s' ∧ j = s' := by rintro ⟨_, rfl, h⟩; exact e h.symm
          simp [e1, eq_comm]
    | _ => simp [eq_comm]

/-- What is listed for a field that is not compared field by field. -/
theorem leaf_spec (L : Lib F) {field : Bytes} {v a : Any F} (hv : v.Ok) (ha : a.Ok)
    (hn : ¬ (v.isMap = true ∧ a.isMap = true))
    (hf : finderField L field v a = differs L field v a) :
    match finderField L field v a with
    | none => ∃ p, Any.Fault v a p
    | some (bf, sf) => ∀ name,
        (name ∈ bf ↔ ∃ p, Any.Fault v a p ∧ ¬ Quoted L v a p ∧ lastName field p = name) ∧
        (name ∈ sf ↔ ∃ p, Any.Fault v a p ∧ Quoted L v a p ∧ lastName field p = name) := by
  have := differs_spec L (field := field) hv ha hn
  rw [hf]
  revert this
  cases differs L field v a with
  | none => exact fun h => ⟨_, h⟩
  | some r => exact id

omit [DecidableEq F] in
theorem exists_fault_cons {k : Bytes} {v : Any F} {e : List (Bytes × Any F)} {a : AMap F}
    (hn : (Map.keys ((k, v) :: e)).Nodup) (P : Any F → Any F → List Bytes → Prop)
    (hP : ∀ (e : AMap F) k' p w, Map.get e k' = some w →
      (P (.map e) (.map a) (k' :: p) ↔ P w ((Map.get a k').getD .nil) p)) (name : Bytes) :
    (∃ k' p, Any.Fault (.map ((k, v) :: e)) (.map a) (k' :: p) ∧
      P (.map ((k, v) :: e)) (.map a) (k' :: p) ∧ lastName k' p = name) ↔
    (∃ p, Any.Fault v ((Map.get a k).getD .nil) p ∧ P v ((Map.get a k).getD .nil) p ∧
      lastName k p = name) ∨
    ∃ k' p, Any.Fault (.map e) (.map a) (k' :: p) ∧ P (.map e) (.map a) (k' :: p) ∧
      lastName k' p = name := by
  have hk : Map.get e k = none := by
    have : k ∉ Map.keys e := (List.nodup_cons.1 hn).1
    rw [Map.mem_keys] at this
    simpa using this
  have hg : ∀ k', Map.get ((k, v) :: e) k' = if k = k' then some v else Map.get e k' :=
    fun k' => Map.get_cons k v e k'
  constructor
  · rintro ⟨k', p, h1, h2, h3⟩
    obtain ⟨w, g, h1⟩ := (fault_cons _ _ _ _).1 h1
    rw [hP _ _ _ _ g] at h2
    rw [hg] at g
    split at g
    · rename_i e'; subst e'; cases g
      exact .inl ⟨p, h1, h2, h3⟩
    · exact .inr ⟨k', p, (fault_cons _ _ _ _).2 ⟨w, g, h1⟩, (hP _ _ _ _ g).2 h2, h3⟩
  · rintro (⟨p, h1, h2, h3⟩ | ⟨k', p, h1, h2, h3⟩)
    · have g : Map.get ((k, v) :: e) k = some v := by rw [hg, if_pos rfl]
      exact ⟨k, p, (fault_cons _ _ _ _).2 ⟨v, g, h1⟩, (hP _ _ _ _ g).2 h2, h3⟩
    · obtain ⟨w, g, h1⟩ := (fault_cons _ _ _ _).1 h1
      rw [hP _ _ _ _ g] at h2
      have g' : Map.get ((k, v) :: e) k' = some w := by
        rw [hg, if_neg]
        · exact g
        · rintro rfl; rw [hk] at g; cases g
      exact ⟨k', p, (fault_cons _ _ _ _).2 ⟨w, g', h1⟩, (hP _ _ _ _ g').2 h2, h3⟩

mutual
theorem field_spec (L : Lib F) : (v : Any F) → (a : Any F) → v.Ok → a.Ok → (field : Bytes) →
    match finderField L field v a with
    | none => ∃ p, Any.Fault v a p
    | some (bf, sf) => ∀ name,
        (name ∈ bf ↔ ∃ p, Any.Fault v a p ∧ ¬ Quoted L v a p ∧ lastName field p = name) ∧
        (name ∈ sf ↔ ∃ p, Any.Fault v a p ∧ Quoted L v a p ∧ lastName field p = name)
  | .map e, a, hv, ha, field => by
    cases a with
    | map a =>
      have h := loop_spec L e a hv ha
      simp only [finderField]
      have hcons : ∀ (P : List Bytes → Prop),
          (∃ p, Any.Fault (.map e) (.map a) p ∧ P p) ↔
          ∃ k p, Any.Fault (.map e) (.map a) (k :: p) ∧ P (k :: p) := by
        intro P
        constructor
        · rintro ⟨p, h1, h2⟩
          cases p with
          | nil => exact absurd ⟨rfl, rfl⟩ ((fault_nil _ _).1 h1).1
          | cons k p => exact ⟨k, p, h1, h2⟩
        · rintro ⟨k, p, h⟩; exact ⟨_, h⟩
      cases hl : finderLoop L e a with
      | none =>
        rw [hl] at h
        obtain ⟨k, p, h⟩ := h
        exact ⟨_, h⟩
      | some r =>
        obtain ⟨bf, sf⟩ := r
        rw [hl] at h
        intro name
        rw [mem_sortStrings, mem_sortStrings, hcons, hcons]
        simp only [lastName_cons]
        exact h name
    | _ => exact leaf_spec L hv ha (by simp [Any.isMap]) (by simp only [finderField])
  | .nil, a, hv, ha, field => leaf_spec L hv ha (by simp [Any.isMap]) (by simp only [finderField])
  | .bool b, a, hv, ha, field => leaf_spec L hv ha (by simp [Any.isMap]) (by simp only [finderField])
  | .num b, a, hv, ha, field => leaf_spec L hv ha (by simp [Any.isMap]) (by simp only [finderField])
  | .str b, a, hv, ha, field => leaf_spec L hv ha (by simp [Any.isMap]) (by simp only [finderField])
  | .list b, a, hv, ha, field => leaf_spec L hv ha (by simp [Any.isMap]) (by simp only [finderField])
theorem loop_spec (L : Lib F) : (e : List (Bytes × Any F)) → (a : AMap F) → (Any.map e).Ok →
    (Any.map a).Ok →
    match finderLoop L e a with
    | none => ∃ k p, Any.Fault (.map e) (.map a) (k :: p)
    | some (bf, sf) => ∀ name,
        (name ∈ bf ↔ ∃ k p, Any.Fault (.map e) (.map a) (k :: p) ∧
          ¬ Quoted L (.map e) (.map a) (k :: p) ∧ lastName k p = name) ∧
        (name ∈ sf ↔ ∃ k p, Any.Fault (.map e) (.map a) (k :: p) ∧
          Quoted L (.map e) (.map a) (k :: p) ∧ lastName k p = name)
  | [], a, _, _ => by
    simp only [finderLoop]
    simp [fault_cons, Map.get_nil]
  | (k, v) :: e, a, he, ha => by
    have hn : (Map.keys ((k, v) :: e)).Nodup := by cases he with | map h _ => exact h
    have hv : v.Ok := by cases he with | map _ h => exact h _ List.mem_cons_self
    have he' : (Any.map e).Ok := by
      cases he with
      | map h1 h2 => exact .map (List.nodup_cons.1 h1).2 fun x hx => h2 x (List.mem_cons_of_mem _ hx)
    have h1 := field_spec L v ((Map.get a k).getD .nil) hv (ok_getD ha k) k
    have h2 := loop_spec L e a he' ha
    have hq := fun (e : AMap F) k' p w (g : Map.get e k' = some w) => quoted_cons L e a k' p g
    have x1 := exists_fault_cons (a := a) hn (fun v a p => ¬ Quoted L v a p)
      (fun e k' p w g => not_congr (hq e k' p w g))
    have x2 := exists_fault_cons (a := a) hn (Quoted L) hq
    have x3 := exists_fault_cons (a := a) hn (fun _ _ _ => True) (fun _ _ _ _ _ => Iff.rfl)
    simp only [finderLoop]
    cases hf : finderField L k v ((Map.get a k).getD .nil) with
    | none =>
      rw [hf] at h1
      obtain ⟨p, h1⟩ := h1
      obtain ⟨k', p', h, -⟩ := (x3 (lastName k p)).2 (.inl ⟨p, h1, trivial, rfl⟩)
      exact ⟨k', p', h⟩
    | some r =>
      obtain ⟨bf, sf⟩ := r
      rw [hf] at h1
      cases hl : finderLoop L e a with
      | none =>
        rw [hl] at h2
        obtain ⟨k', p, h2⟩ := h2
        obtain ⟨k', p', h, -⟩ := (x3 (lastName k' p)).2 (.inr ⟨k', p, h2, trivial, rfl⟩)
        exact ⟨k', p', h⟩
      | some r =>
        obtain ⟨bfs, sfs⟩ := r
        rw [hl] at h2
        intro name
        obtain ⟨b1, s1⟩ := h1 name
        obtain ⟨b2, s2⟩ := h2 name
        rw [List.mem_append, List.mem_append, b1, b2, s1, s2, x1, x2]
        exact ⟨Iff.rfl, Iff.rfl⟩
end

/-- What `finderDeep` lists. -/
theorem deep_spec (L : Lib F) {e a : AMap F} (he : (Any.map e).Ok) (ha : (Any.map a).Ok) :
    match finderDeep L e a with
    | none => ∃ p, Any.Fault (.map e) (.map a) p
    | some (bf, sf) => ∀ name,
        (name ∈ bf ↔ ∃ p, Any.Fault (.map e) (.map a) p ∧ ¬ Quoted L (.map e) (.map a) p ∧
          p.getLast? = some name) ∧
        (name ∈ sf ↔ ∃ p, Any.Fault (.map e) (.map a) p ∧ Quoted L (.map e) (.map a) p ∧
          p.getLast? = some name) := by
  have h := field_spec L (.map e) (.map a) he ha []
  have e1 : finderDeep L e a = finderField L [] (.map e) (.map a) := by
    simp only [finderDeep, finderField]
  have key : ∀ p name, Any.Fault (.map e) (.map a) p → (lastName [] p = name ↔ p.getLast? = some name) := by
    intro p name hp
    cases p with
    | nil => exact absurd ⟨rfl, rfl⟩ ((fault_nil _ _).1 hp).1
    | cons k p =>
      unfold lastName
      cases h : (k :: p).getLast? with
      | none => simp at h
      | some x => simp
  rw [e1]
  revert h
  cases finderField L [] (.map e) (.map a) with
  | none => exact id
  | some r =>
    intro h name
    obtain ⟨h1, h2⟩ := h name
    rw [h1, h2]
    constructor
    · exact ⟨fun ⟨p, a, b, c⟩ => ⟨p, a, b, (key p name a).1 c⟩, fun ⟨p, a, b, c⟩ => ⟨p, a, b, (key p name a).2 c⟩⟩
    · exact ⟨fun ⟨p, a, b, c⟩ => ⟨p, a, b, (key p name a).1 c⟩, fun ⟨p, a, b, c⟩ => ⟨p, a, b, (key p name a).2 c⟩⟩

end Verif.Bench
