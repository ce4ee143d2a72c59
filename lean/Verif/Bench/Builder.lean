import Verif.Bench.Data
import Verif.Bench.Decode
import Verif.Bench.Group
import Verif.Spec.LogTree

/-
Lemmas on the groups `bigGroupBuilder` makes: their JSON trees, and that they pass
`bigGroupCheck` once decoded.
-/

namespace Verif.Bench
open Go Slog LogTree Json

/-- The trees of big groups with `left` levels below. -/
def BigTree (limit : Nat) : Nat → Bytes → Tree → Prop
  | 0, _, t => ∃ c d : Nat, c ≤ 5 ∧ d ≤ limit ∧
      t = .obj [(b!"count", .num (decInt c)), (b!"depth", .num (decNat d)), (b!"limit", .num (decNat limit))]
  | left + 1, stem, t => ∃ c d : Nat, ∃ kids : List (Bytes × Tree), c ≤ 5 ∧ d ≤ limit ∧
      t = .obj ([(b!"count", .num (decInt c)), (b!"depth", .num (decNat d)),
        (b!"limit", .num (decNat limit))] ++ kids) ∧
      kids ≠ [] ∧ ∀ e ∈ kids, (∃ i, e.1 = stem ++ 0x2D :: decNat i) ∧ BigTree limit left e.1 e.2

theorem list_append (env : Env) (layout : Bytes) (md : Mode) : ∀ {as bs : List Attr} {x y},
    listMembers env layout md as = some x → listMembers env layout md bs = some y →
    listMembers env layout md (as ++ bs) = some (x ++ y)
  | [], bs, x, y, h1, h2 => by
    simp only [listMembers, Option.some.injEq] at h1; subst h1; simpa using h2
  | a :: as, bs, x, y, h1, h2 => by
    simp only [listMembers] at h1
    split at h1
    · rename_i p q hp hq
      cases h1
      rw [List.cons_append]
      simp only [listMembers, hp, list_append env layout md hq h2, List.append_assoc]
    · cases h1

theorem kid_isEmpty (stem : Bytes) (as : List Attr) : (Attr.grp stem as).isEmpty = false := by
  cases stem <;> simp [Attr.grp, Attr.isEmpty]

theorem childLoop_zero (rand : Nat → Fin 5) (limit : Nat) (stem : Bytes) : ∀ (todo i drawn : Nat),
    (childLoop (bigGroupBuilder rand limit 0) stem todo i drawn).1 = []
  | 0, _, _ => rfl
  | todo + 1, i, drawn => by
    have h : (bigGroupBuilder rand limit 0 (stem ++ (0x2D :: decNat i)) drawn).1.isEmpty = true := rfl
    rw [childLoop]
    dsimp only
    rw [if_pos h]
    exact childLoop_zero rand limit stem todo (i + 1) _

theorem builder_shape (rand : Nat → Fin 5) (limit left : Nat) (stem : Bytes) (drawn : Nat) :
    (bigGroupBuilder rand limit (left + 1) stem drawn).1 =
      .grp stem ([.mk b!"count" (.int64 ((rand drawn).val + 1 : Nat)), .mk b!"depth" (.uint64 (limit - left)),
        .mk b!"limit" (.uint64 limit)] ++
        (childLoop (bigGroupBuilder rand limit left) stem ((rand drawn).val + 1) 0 (drawn + 1)).1) := rfl

theorem childLoop_cons (rand : Nat → Fin 5) (limit left : Nat) (stem : Bytes) (todo i drawn : Nat) :
    (childLoop (bigGroupBuilder rand limit (left + 1)) stem (todo + 1) i drawn).1 =
      (bigGroupBuilder rand limit (left + 1) (stem ++ 0x2D :: decNat i) drawn).1 ::
      (childLoop (bigGroupBuilder rand limit (left + 1)) stem todo (i + 1)
        (bigGroupBuilder rand limit (left + 1) (stem ++ 0x2D :: decNat i) drawn).2).1 := by
  have h : ¬ (bigGroupBuilder rand limit (left + 1) (stem ++ (0x2D :: decNat i)) drawn).1.isEmpty = true := by
    rw [builder_shape, kid_isEmpty]; simp
  rw [childLoop]
  dsimp only
  rw [if_neg h]

theorem head_members (env : Env) (layout : Bytes) (md : Mode) (c d l : Nat) :
    listMembers env layout md [.mk b!"count" (.int64 c), .mk b!"depth" (.uint64 d), .mk b!"limit" (.uint64 l)] =
      some [(b!"count", .num (decInt c)), (b!"depth", .num (decNat d)), (b!"limit", .num (decNat l))] := rfl

theorem grp_members {env : Env} {layout : Bytes} {md : Mode} {stem : Bytes} {as : List Attr}
    {e : Bytes × Tree} {ms : List (Bytes × Tree)} (hs : stem ≠ [])
    (h : listMembers env layout md as = some (e :: ms)) :
    attrMembers env layout md (.grp stem as) = some [(stem, .obj (e :: ms))] := by
  cases stem with
  | nil => exact absurd rfl hs
  | cons a s => simp [Attr.grp, attrMembers, valMembers, h, grouped]

/-- The tree of a big group. -/
theorem builder_tree (env : Env) (layout : Bytes) (md : Mode) (rand : Nat → Fin 5) (limit : Nat) :
    ∀ (left : Nat) (stem : Bytes) (drawn : Nat), stem ≠ [] → ∃ t,
      attrMembers env layout md (bigGroupBuilder rand limit (left + 1) stem drawn).1 = some [(stem, t)] ∧
      BigTree limit left stem t := by
  intro left
  induction left with
  | zero =>
    intro stem drawn hs
    rw [builder_shape, childLoop_zero, List.append_nil]
    exact ⟨_, grp_members hs (head_members ..), _, _, (rand drawn).isLt, Nat.sub_le _ _, rfl⟩
  | succ left ih =>
    intro stem drawn hs
    have kids : ∀ (todo i drawn : Nat), ∃ kids,
        listMembers env layout md (childLoop (bigGroupBuilder rand limit (left + 1)) stem todo i drawn).1 =
          some kids ∧ kids.length = todo ∧
        ∀ e ∈ kids, (∃ i, e.1 = stem ++ 0x2D :: decNat i) ∧ BigTree limit left e.1 e.2 := by
      intro todo
      induction todo with
      | zero => intro i drawn; exact ⟨[], rfl, rfl, fun _ h => by cases h⟩
      | succ todo ihk =>
        intro i drawn
        obtain ⟨t, ht, hb⟩ := ih (stem ++ 0x2D :: decNat i) drawn (by simp)
        rw [childLoop_cons]
        obtain ⟨ks, hk, hl, hall⟩ := ihk (i + 1)
          (bigGroupBuilder rand limit (left + 1) (stem ++ 0x2D :: decNat i) drawn).2
        refine ⟨(stem ++ 0x2D :: decNat i, t) :: ks, ?_, by simp [hl], ?_⟩
        · simp only [listMembers, ht, hk]; rfl
        · intro e he
          rcases List.mem_cons.1 he with rfl | he
          · exact ⟨⟨i, rfl⟩, hb⟩
          · exact hall e he
    obtain ⟨ks, hk, hl, hall⟩ := kids ((rand drawn).val + 1) 0 (drawn + 1)
    rw [builder_shape]
    refine ⟨_, grp_members hs (list_append env layout md (head_members ..) hk), _, _, ks,
      (rand drawn).isLt, Nat.sub_le _ _, rfl, ?_, hall⟩
    intro e; subst e; simp at hl

variable {F : Type}

theorem kid_name {stem : Bytes} {i : Nat} : stem ++ 0x2D :: decNat i ∉ nonGroupFields := by
  intro h
  have h1 : (0x2D : UInt8) ∈ stem ++ 0x2D :: decNat i := by simp
  simp only [nonGroupFields, List.mem_cons, List.not_mem_nil, or_false] at h
  rcases h with h | h | h <;> rw [h] at h1 <;> revert h1 <;> decide

theorem bigTree_obj {limit left : Nat} {stem : Bytes} {t : Tree} (h : BigTree limit left stem t) :
    ∃ ms, t = .obj ms := by
  cases left with
  | zero => obtain ⟨_, _, _, _, rfl⟩ := h; exact ⟨_, rfl⟩
  | succ left => obtain ⟨_, _, _, _, _, rfl, _⟩ := h; exact ⟨_, rfl⟩

/-- A decoded big group passes its check. -/
theorem bigTree_check {num : Bytes → Option F} (limit : Nat) : ∀ (left : Nat) (stem : Bytes) (t : Tree) (a : Any F)
    (d : Nat), BigTree limit left stem t → IsAny num t a → bigGroupCheck a d stem = .ok (d + left) := by
  intro left
  induction left with
  | zero =>
    intro stem t a d hb ha
    obtain ⟨c, dd, _, _, rfl⟩ := hb
    cases ha with
    | @obj _ m hn hs hi =>
      rw [bigGroupCheck, loop_iff]
      have key : ∀ e ∈ m, e.2.isMap = false ∧ e.1 ∈ nonGroupFields := by
        intro e he
        have g := Map.get_of_mem hn (k := e.1) (v := e.2) he
        have := hs e.1
        rw [g] at this
        obtain ⟨t, ht⟩ := Option.isSome_iff_exists.1 this.symm
        have hia := hi _ _ _ ht g
        have hm := lastOf_mem ht
        simp only [List.mem_cons, List.not_mem_nil, or_false, Prod.mk.injEq] at hm
        rcases hm with ⟨e1, rfl⟩ | ⟨e1, rfl⟩ | ⟨e1, rfl⟩ <;> rw [e1] <;>
          (cases he2 : e.2 <;> rw [he2] at hia <;> cases hia) <;>
          exact ⟨rfl, by decide⟩
      refine ⟨fun e he => ?_, by omega, fun e he hm => ?_, .inl rfl⟩
      · have := key e he
        simp [entryOk, this]
      · rw [(key e he).1] at hm; cases hm
  | succ left ih =>
    intro stem t a d hb ha
    obtain ⟨c, dd, kids, _, _, rfl, hne, hk⟩ := hb
    cases ha with
    | @obj _ m hn hs hi =>
      rw [bigGroupCheck, loop_iff]
      have key : ∀ e ∈ m, (e.2.isMap = false ∧ e.1 ∈ nonGroupFields) ∨
          (e.2.isMap = true ∧ stem <+: e.1 ∧ bigGroupCheck e.2 (d + 1) e.1 = .ok (d + 1 + left)) := by
        intro e he
        have g := Map.get_of_mem hn (k := e.1) (v := e.2) he
        have := hs e.1
        rw [g] at this
        obtain ⟨t, ht⟩ := Option.isSome_iff_exists.1 this.symm
        have hia := hi _ _ _ ht g
        have hm := lastOf_mem ht
        rcases List.mem_append.1 hm with hm | hm
        · left
          simp only [List.mem_cons, List.not_mem_nil, or_false, Prod.mk.injEq] at hm
          rcases hm with ⟨e1, rfl⟩ | ⟨e1, rfl⟩ | ⟨e1, rfl⟩ <;> rw [e1] <;>
            (cases he2 : e.2 <;> rw [he2] at hia <;> cases hia) <;>
            exact ⟨rfl, by decide⟩
        · right
          obtain ⟨⟨i, hi'⟩, hb⟩ := hk _ hm
          refine ⟨?_, ?_, ih _ _ _ _ hb hia⟩
          · obtain ⟨ms, rfl⟩ := bigTree_obj hb
            cases he2 : e.2 <;> rw [he2] at hia <;> cases hia
            rfl
          · dsimp only at hi'; rw [hi']; exact List.prefix_append _ _
      refine ⟨fun e he => ?_, by omega, fun e he hm x hx => ?_, .inr ?_⟩
      · rcases key e he with h | h
        · simp [entryOk, h]
        · unfold entryOk; rw [if_pos h.1]; exact ⟨h.2.1, _, h.2.2⟩
      · rcases key e he with h | h
        · rw [h.1] at hm; cases hm
        · rw [h.2.2] at hx; cases hx; omega
      · obtain ⟨⟨k, t⟩, kids', rfl⟩ := List.exists_cons_of_ne_nil hne
        obtain ⟨⟨i, hi'⟩, _⟩ := hk (k, t) List.mem_cons_self
        have h1 : (lastOf ([(b!"count", .num (decInt c)), (b!"depth", .num (decNat dd)),
            (b!"limit", .num (decNat limit))] ++ ((k, t) :: kids')) k).isSome = true := by
          rw [lastOf_isSome]; simp
        rw [← hs k] at h1
        obtain ⟨a, ga⟩ := Option.isSome_iff_exists.1 h1
        refine ⟨(k, a), Map.mem_of_get ga, ?_⟩
        rcases key _ (Map.mem_of_get ga) with h | h
        · dsimp only at hi' h; rw [hi'] at h; exact absurd h.2 kid_name
        · exact ⟨h.1, by rw [h.2.2, show d + 1 + left = d + (left + 1) by omega]⟩

end Verif.Bench
