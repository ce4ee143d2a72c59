import Verif.Server.LazyList
import Verif.Props.Keeper

/-
C80: lists made when they are first asked for.
-/

namespace Verif.Props.LazyList

open Verif Verif.Go Verif.Server

variable {α : Type}

/-! ### What is assumed and what is to be shown -/

/-- The map is visited completely, sorting permutes, and what comes of both is in order. -/
structure Setting (srt : List α → List α) (visit : Nat → Nat → List α) (tags : List α) (R : α → α → Prop) : Prop where
  order : ∀ t n, (visit t n).Perm tags
  perm : ∀ l, (srt l).Perm l
  sorted : ∀ t n, (srt (visit t n)).Pairwise R

/-- The list is complete, without repetition, and in order. -/
def Complete (tags : List α) (R : α → α → Prop) (l : List α) : Prop := l.Perm tags ∧ l.Pairwise R

/-- Two requests ask for a list that has not been made and is not empty. -/
def Clash (z : Lazy) (var : Option (List α)) (tags : List α) (calls : Nat → Nat) : Prop :=
  z.cold var = true ∧ tags ≠ [] ∧ ∃ i j, i ≠ j ∧ 0 < calls i ∧ 0 < calls j

theorem cold_getD {z : Lazy} {var : Option (List α)} (h : z.cold var = true) : var.getD [] = [] := by
  cases var with
  | none => rfl
  | some l =>
    cases l with
    | nil => rfl
    | cons a l => simp [Lazy.cold] at h

section
variable (z : Lazy) {srt : List α → List α} {order : Nat → Nat → List α} {tags : List α} {R : α → α → Prop}

@[simp] theorem goto_var (s : ListWorld α) (t : Nat) (p : Listing α) : (s.goto t p).var = s.var := rfl

theorem goto_self (s : ListWorld α) (t : Nat) (p : Listing α) : (s.goto t p).viewers t = { s.viewers t with phase := p } := by
  simp [ListWorld.goto]

theorem goto_ne (s : ListWorld α) {t u : Nat} (p : Listing α) (h : u ≠ t) : (s.goto t p).viewers u = s.viewers u := by
  simp [ListWorld.goto, h]

/-! ### A list that has been made -/

structure Warm (var : Option (List α)) (good : List α → Prop) (s : ListWorld α) : Prop where
  var : s.var = var
  phase : ∀ t, (s.viewers t).phase = .ask ∨ (s.viewers t).phase = .ret
  shown : ∀ t, ∀ l ∈ (s.viewers t).shown, good l

theorem warm_step {var : Option (List α)} {good : List α → Prop} (hw : z.cold var = false) (hg : good (var.getD []))
    {s : ListWorld α} (h : Warm var good s) (t : Nat) : Warm var good (s.step z srt order t) := by
  unfold ListWorld.step
  split
  · exact h
  · rcases h.phase t with hp | hp
    · rw [hp]
      dsimp only
      rw [h.var, if_neg (by simp [hw])]
      refine ⟨h.var, fun u => ?_, fun u => ?_⟩ <;> by_cases hu : u = t
      · subst hu; rw [goto_self]; exact .inr rfl
      · rw [goto_ne _ _ hu]; exact h.phase u
      · subst hu; rw [goto_self]; exact h.shown u
      · rw [goto_ne _ _ hu]; exact h.shown u
    · rw [hp]
      refine ⟨h.var, fun u => ?_, fun u => ?_⟩ <;> by_cases hu : u = t
      · subst hu; simp
      · simp only [Function.update_of_ne hu]; exact h.phase u
      · subst hu
        simp only [Function.update_self]
        intro l hl
        rcases List.mem_append.1 hl with hl | hl
        · exact h.shown u l hl
        · rw [List.mem_singleton.1 hl, h.var]; exact hg
      · simp only [Function.update_of_ne hu]; exact h.shown u

/-! ### Nothing to list -/

structure Void (s : ListWorld α) : Prop where
  var : s.var.getD [] = []
  fill : ∀ t r, (s.viewers t).phase = .fill r → r = []
  shown : ∀ t, ∀ l ∈ (s.viewers t).shown, l = []

theorem void_goto {s s' : ListWorld α} (h : Void s) (hv : s'.var.getD [] = []) (hs : s'.viewers = s.viewers) (t : Nat) (p : Listing α)
    (hp : ∀ r, p = .fill r → r = []) : Void (s'.goto t p) := by
  refine ⟨hv, fun u r hr => ?_, fun u => ?_⟩ <;> by_cases hu : u = t
  · subst hu; rw [goto_self] at hr; exact hp r hr
  · rw [goto_ne _ _ hu, hs] at hr; exact h.fill u r hr
  · subst hu; rw [goto_self, hs]; exact h.shown u
  · rw [goto_ne _ _ hu, hs]; exact h.shown u

theorem void_step (hS : Setting srt order [] R) {s : ListWorld α} (h : Void s) (t : Nat) : Void (s.step z srt order t) := by
  unfold ListWorld.step
  split
  · exact h
  · split
    · refine void_goto h h.var rfl t _ fun r hr => ?_
      split at hr <;> cases hr
    · refine void_goto (s' := { s with var := if z.made then some [] else s.var }) h ?_ rfl t _ fun r hr => ?_
      · dsimp only; split
        · rfl
        · exact h.var
      · cases hr; exact (hS.order _ _).eq_nil
    · exact void_goto h h.var rfl t .sort fun r hr => by cases hr
    · rename_i hp; cases h.fill t _ hp
    · refine void_goto (s' := { s with var := s.var.map srt }) h ?_ rfl t .ret fun r hr => by cases hr
      have := h.var
      cases hv : s.var with
      | none => rfl
      | some l =>
        rw [hv] at this
        simp only [Option.getD_some] at this
        subst this
        exact (hS.perm []).eq_nil
    · refine ⟨h.var, fun u r hr => ?_, fun u => ?_⟩ <;> by_cases hu : u = t
      · subst hu; simp at hr
      · simp only [Function.update_of_ne hu] at hr; exact h.fill u r hr
      · subst hu
        simp only [Function.update_self]
        intro l hl
        rcases List.mem_append.1 hl with hl | hl
        · exact h.shown u l hl
        · rw [List.mem_singleton.1 hl]; exact h.var
      · simp only [Function.update_of_ne hu]; exact h.shown u

/-! ### One request -/

/-- What the variable holds while request `i`, the only one, is somewhere in the function. -/
def Stage (z : Lazy) (order : Nat → Nat → List α) (good : List α → Prop) (i : Nat) (var : Option (List α)) : Listing α → Prop
  | .ask => z.cold var = true ∨ good (var.getD [])
  | .make => z.cold var = true
  | .fill r => ∃ n, var.getD [] ++ r = order i n
  | .sort => ∃ n, var.getD [] = order i n
  | .ret => good (var.getD [])

structure Solo (z : Lazy) (order : Nat → Nat → List α) (good : List α → Prop) (i : Nat) (s : ListWorld α) : Prop where
  others : ∀ j, j ≠ i → (s.viewers j).calls = 0 ∧ (s.viewers j).shown = []
  stage : Stage z order good i s.var (s.viewers i).phase
  shown : ∀ l ∈ (s.viewers i).shown, good l

theorem solo_goto {good : List α → Prop} {i : Nat} {s s' : ListWorld α} (h : Solo z order good i s)
    (hs : s'.viewers = s.viewers) (p : Listing α) (hp : Stage z order good i s'.var p) :
    Solo z order good i (s'.goto i p) := by
  refine ⟨fun j hj => ?_, ?_, ?_⟩
  · rw [goto_ne _ _ hj, hs]; exact h.others j hj
  · rw [goto_self]; exact hp
  · rw [goto_self, hs]; exact h.shown

theorem solo_step (hS : Setting srt order tags R) {i : Nat} {s : ListWorld α} (h : Solo z order (Complete tags R) i s) (t : Nat) :
    Solo z order (Complete tags R) i (s.step z srt order t) := by
  unfold ListWorld.step
  split
  · exact h
  · rename_i hc
    have hti : t = i := by
      by_contra hne
      exact hc (h.others t hne).1
    subst hti
    have hst := h.stage
    split
    · rename_i hp
      rw [hp] at hst
      refine solo_goto z h rfl _ ?_
      cases hcold : z.cold s.var with
      | true => exact hcold
      | false =>
        rcases hst with hst | hst
        · rw [hcold] at hst; cases hst
        · exact hst
    · rename_i hp
      rw [hp] at hst
      refine solo_goto z (s' := { s with var := if z.made then some [] else s.var }) h rfl (.fill _) ⟨(s.viewers t).calls, ?_⟩
      dsimp only
      split
      · rfl
      · rw [cold_getD hst]; rfl
    · rename_i hp
      rw [hp] at hst
      obtain ⟨n, hn⟩ := hst
      exact solo_goto z h rfl .sort ⟨n, by rw [List.append_nil] at hn; exact hn⟩
    · rename_i x rest hp
      rw [hp] at hst
      obtain ⟨n, hn⟩ := hst
      refine solo_goto z (s' := { s with var := some (s.var.getD [] ++ [x]) }) h rfl (.fill rest) ⟨n, ?_⟩
      rw [← hn]; simp
    · rename_i hp
      rw [hp] at hst
      obtain ⟨n, hn⟩ := hst
      refine solo_goto z (s' := { s with var := s.var.map srt }) h rfl .ret ?_
      have e : (s.var.map srt).getD [] = srt (order t n) := by
        cases hv : s.var with
        | none =>
          rw [hv] at hn
          have hn' : order t n = [] := hn.symm
          rw [hn']
          exact (hS.perm []).eq_nil.symm
        | some l =>
          rw [hv] at hn
          have hn' : l = order t n := hn
          rw [hn']; rfl
      show Complete tags R ((s.var.map srt).getD [])
      rw [e]
      exact ⟨(hS.perm _).trans (hS.order t n), hS.sorted t n⟩
    · rename_i hp
      rw [hp] at hst
      refine ⟨fun j hj => ?_, ?_, ?_⟩
      · simp only [Function.update_of_ne hj]; exact h.others j hj
      · simp only [Function.update_self]; exact .inr hst
      · simp only [Function.update_self]
        intro l hl
        rcases List.mem_append.1 hl with hl | hl
        · exact h.shown l hl
        · rw [List.mem_singleton.1 hl]; exact hst

theorem run_inv {P : ListWorld α → Prop} (hP : ∀ s t, P s → P (s.step z srt order t)) {s : ListWorld α} (h : P s) (ts : List Nat) :
    P (s.run z srt order ts) := by
  induction ts generalizing s with
  | nil => exact h
  | cons t ts ih => exact ih (hP s t h)

theorem safe (hS : Setting srt order tags R) {var : Option (List α)} {calls : Nat → Nat}
    (hw : z.cold var = false → Complete tags R (var.getD [])) (hn : ¬ Clash z var tags calls) (ts : List Nat) (t : Nat) :
    ∀ l ∈ (((ListWorld.start var calls).run z srt order ts).viewers t).shown, Complete tags R l := by
  cases hc : z.cold var with
  | false =>
    exact (run_inv z (P := Warm var (Complete tags R)) (fun s t h => warm_step z hc (hw hc) h t)
      (s := .start var calls) ⟨rfl, fun _ => .inl rfl, fun _ l hl => by cases hl⟩ ts).shown t
  | true =>
    by_cases ht : tags = []
    · subst ht
      intro l hl
      rw [(run_inv z (P := Void) (fun s t h => void_step z hS h t)
        (s := .start var calls) ⟨cold_getD hc, fun _ r hr => (by cases hr), fun _ l hl => (by cases hl)⟩ ts).shown t l hl]
      exact ⟨.refl _, .nil⟩
    · obtain ⟨i, hi⟩ : ∃ i, ∀ j, j ≠ i → calls j = 0 := by
        by_contra hno
        simp only [not_exists, not_forall] at hno
        obtain ⟨j, hj0, hj⟩ := hno 0
        obtain ⟨k, hkj, hk⟩ := hno j
        exact hn ⟨hc, ht, j, k, Ne.symm hkj, by omega, by omega⟩
      have h := run_inv z (P := Solo z order (Complete tags R) i) (fun s t h => solo_step z hS h t) (s := .start var calls)
        ⟨fun j hj => ⟨hi j hj, rfl⟩, .inl hc, fun l hl => by cases hl⟩ ts
      by_cases hti : t = i
      · subst hti; exact h.shown
      · rw [(h.others t hti).2]; intro l hl; cases hl

/-! ### Wrong lists -/

theorem run_append (s : ListWorld α) (a b : List Nat) :
    s.run z srt order (a ++ b) = (s.run z srt order a).run z srt order b := List.foldl_append

/-- A request appends all elements. -/
theorem fill_all {i : Nat} : ∀ (r : List α) (s : ListWorld α), (s.viewers i).calls ≠ 0 → (s.viewers i).phase = .fill r →
    s.run z srt order (List.replicate r.length i) =
      { s with var := if r = [] then s.var else some (s.var.getD [] ++ r) }.goto i (.fill [])
  | [], s, _, hp => by
    have : s.viewers = Function.update s.viewers i { s.viewers i with phase := .fill [] } := by
      rw [← hp]; exact (Function.update_eq_self i s.viewers).symm
    cases s
    simp only [ListWorld.run, ListWorld.goto, List.length_nil, List.replicate_zero, List.foldl_nil, if_true]
    congr 1
  | x :: r, s, hc, hp => by
    have e : s.step z srt order i = { s with var := some (s.var.getD [] ++ [x]) }.goto i (.fill r) := by
      unfold ListWorld.step
      rw [if_neg hc, hp]
    rw [List.length_cons, List.replicate_succ]
    show (s.step z srt order i).run z srt order _ = _
    rw [e, fill_all r _ (by rw [goto_self]; exact hc) (by rw [goto_self])]
    simp only [ListWorld.goto, Function.update_self, Function.update_idem, reduceCtorEq, if_false, Option.getD_some]
    cases r <;> simp

theorem wrong (hS : Setting srt order tags R) {var : Option (List α)} {calls : Nat → Nat} (h : Clash z var tags calls) :
    ∃ ts t, ∃ l ∈ (((ListWorld.start var calls).run z srt order ts).viewers t).shown, ¬ l.Perm tags := by
  obtain ⟨hc, ht, i, j, hij, hi, hj⟩ := h
  have hji : j ≠ i := Ne.symm hij
  have hi0 : calls i ≠ 0 := by omega
  have hj0 : calls j ≠ 0 := by omega
  have hv := cold_getD hc
  have hnil : ¬ ([] : List α).Perm tags := fun hp => ht hp.symm.eq_nil
  have hlen : ∀ t n, (order t n).length = tags.length := fun t n => (hS.order t n).length_eq
  have hne : ∀ t n, order t n ≠ [] := fun t n e => ht ((hS.order t n).symm.trans (by rw [e])).eq_nil
  by_cases hm : z.made = true ∧ z.short = false
  · -- the other one finds the list that has just been made
    refine ⟨[i, i, j, j], j, [], ?_, hnil⟩
    have hcold1 : z.cold (some ([] : List α)) = false := by simp [Lazy.cold, hm.2]
    simp [ListWorld.run, ListWorld.start, ListWorld.step, ListWorld.goto, hi0, hj0, hc, hm.1, hji, hcold1]
  · -- both make it
    have hcold2 : z.made = true → z.cold (some ([] : List α)) = true := by
      intro h1
      cases h2 : z.short with
      | true => simp [Lazy.cold, h2]
      | false => exact absurd ⟨h1, h2⟩ hm
    let s1 : ListWorld α := (ListWorld.start var calls).run z srt order [i, j, i]
    have hs1 : s1.viewers i = { calls := calls i, phase := .fill (order i (calls i)) } ∧
        s1.viewers j = { calls := calls j, phase := .make } ∧ s1.var.getD [] = [] := by
      refine ⟨?_, ?_, ?_⟩
      · simp [s1, ListWorld.run, ListWorld.start, ListWorld.step, ListWorld.goto, hi0, hj0, hc, hij, hji]
      · simp [s1, ListWorld.run, ListWorld.start, ListWorld.step, ListWorld.goto, hi0, hj0, hc, hij, hji]
      · simp only [s1, ListWorld.run, ListWorld.start, ListWorld.step, ListWorld.goto, List.foldl_cons, List.foldl_nil,
          Function.update_self, hi0, if_false, hc, if_true, Function.update_of_ne hji, hj0, Function.update_of_ne hij]
        split
        · rfl
        · exact hv
    obtain ⟨hv1, hv2, hv3⟩ := hs1
    let s2 : ListWorld α := s1.run z srt order (List.replicate (order i (calls i)).length i)
    have e2 : s2 = { s1 with var := some (order i (calls i)) }.goto i (.fill []) := by
      show s1.run z srt order _ = _
      rw [fill_all z _ s1 (by rw [hv1]; exact hi0) (by rw [hv1]), if_neg (hne _ _), hv3, List.nil_append]
    have hsplit : ∀ ts, (ListWorld.start var calls).run z srt order ([i, j, i] ++ List.replicate (order i (calls i)).length i ++ ts) =
        s2.run z srt order ts := by
      intro ts; rw [run_append, run_append]
    have hw1 : s2.viewers i = { calls := calls i, phase := .fill [] } := by rw [e2, goto_self]; simp [hv1]
    have hw2 : s2.viewers j = { calls := calls j, phase := .make } := by rw [e2, goto_ne _ _ hji]; exact hv2
    have hw3 : s2.var = some (order i (calls i)) := by rw [e2]; rfl
    clear_value s2
    cases hmade : z.made with
    | true =>
      refine ⟨[i, j, i] ++ List.replicate (order i (calls i)).length i ++ [j, i, i, i], i, srt [], ?_, fun hp => hnil ((hS.perm []).symm.trans hp)⟩
      rw [hsplit]
      simp [ListWorld.run, ListWorld.step, ListWorld.goto, hi0, hj0, hw1, hw2, hmade, hij]
    | false =>
      obtain ⟨x, r, hx⟩ := List.exists_cons_of_ne_nil (hne j (calls j))
      refine ⟨[i, j, i] ++ List.replicate (order i (calls i)).length i ++ [j, j, i, i, i], i, srt (order i (calls i) ++ [x]), ?_, fun hp => ?_⟩
      · rw [hsplit]
        simp [ListWorld.run, ListWorld.step, ListWorld.goto, hi0, hj0, hw1, hw2, hw3, hmade, hij, hx]
      · have := ((hS.perm _).symm.trans hp).length_eq
        rw [List.length_append, hlen] at this
        simp at this

/-! ### Progress -/

/-- How many steps are left, at most, for lists of `n` elements. -/
def left (n : Nat) (v : Viewer α) : Nat :=
  match v.calls with
  | 0 => 0
  | c + 1 => c * (n + 5) + match v.phase with
    | .ask => n + 5
    | .make => n + 4
    | .fill r => r.length + 3
    | .sort => 2
    | .ret => 1

theorem left_step (hS : Setting srt order tags R) (s : ListWorld α) (t u : Nat) :
    left tags.length ((s.step z srt order t).viewers u) ≤ left tags.length (s.viewers u) - if u = t then 1 else 0 := by
  by_cases hut : u = t
  · subst hut
    rw [if_pos rfl]
    unfold ListWorld.step
    cases hc : (s.viewers u).calls with
    | zero => rw [if_pos rfl]; simp [left, hc]
    | succ c =>
      rw [if_neg (by omega)]
      split
      · rename_i hp
        rw [goto_self]
        simp only [left, hc, hp]
        split <;> · rename_i e; split at e <;> first | omega | cases e
      · rename_i hp
        rw [goto_self]
        simp only [left, hc, hp]
        have := (hS.order u (c + 1)).length_eq
        omega
      · rename_i hp
        rw [goto_self]
        simp only [left, hc, hp, List.length_nil]
        omega
      · rename_i hp
        rw [goto_self]
        simp only [left, hc, hp, List.length_cons]
        omega
      · rename_i hp
        rw [goto_self]
        simp only [left, hc, hp]
        omega
      · rename_i hp
        simp only [Function.update_self, left, hc, hp, Nat.add_sub_cancel]
        cases c with
        | zero => simp
        | succ c => simp only [Nat.add_mul]; omega
  · rw [if_neg hut]
    have : (s.step z srt order t).viewers u = s.viewers u := by
      unfold ListWorld.step
      split
      · rfl
      · split <;> first
          | exact goto_ne _ _ hut
          | exact Function.update_of_ne hut _ _
    rw [this]; omega

theorem left_run (hS : Setting srt order tags R) (u : Nat) (ts : List Nat) (s : ListWorld α) :
    left tags.length ((s.run z srt order ts).viewers u) ≤ left tags.length (s.viewers u) - ts.count u := by
  induction ts generalizing s with
  | nil => simp [ListWorld.run]
  | cons t ts ih =>
    have h1 := ih (s.step z srt order t)
    have h2 := left_step z hS s t u
    show left tags.length (((s.step z srt order t).run z srt order ts).viewers u) ≤ _
    rw [List.count_cons]
    have : (t == u) = true ↔ u = t := ⟨fun h => (eq_of_beq h).symm, fun h => by rw [h]; exact beq_self_eq_true t⟩
    by_cases hut : u = t
    · rw [if_pos (this.2 hut)]; rw [if_pos hut] at h2; omega
    · rw [if_neg (fun hc => hut (this.1 hc))]; rw [if_neg hut] at h2; omega

/-- Every call is either still to be made or has brought a list. -/
theorem counted (u : Nat) (ts : List Nat) (s : ListWorld α) :
    ((s.run z srt order ts).viewers u).calls + ((s.run z srt order ts).viewers u).shown.length =
      (s.viewers u).calls + (s.viewers u).shown.length := by
  induction ts generalizing s with
  | nil => rfl
  | cons t ts ih =>
    show (((s.step z srt order t).run z srt order ts).viewers u).calls + _ = _
    refine (ih _).trans ?_
    unfold ListWorld.step
    by_cases hut : u = t
    · subst hut
      split
      · rfl
      · rename_i hc
        split
        all_goals first
          | (rw [goto_self])
          | (simp only [Function.update_self, List.length_append, List.length_singleton]; omega)
    · split
      · rfl
      · split <;> first
          | rw [goto_ne _ _ hut]
          | simp only [Function.update_of_ne hut]

end

/-! ### C80 -/

/-- C80 in full: whoever takes enough steps has got a list for every call, and all lists are complete, without repetition, and
in order. -/
def C80_statement : Prop :=
  ∀ (α : Type) (z : Lazy) (srt : List α → List α) (order : Nat → Nat → List α) (tags : List α) (R : α → α → Prop)
    (var : Option (List α)) (calls : Nat → Nat), Setting srt order tags R →
    (z.cold var = false → Complete tags R (var.getD [])) → ∀ ts t,
      (∀ l ∈ (((ListWorld.start var calls).run z srt order ts).viewers t).shown, Complete tags R l) ∧
      (calls t * (tags.length + 5) ≤ ts.count t →
        (((ListWorld.start var calls).run z srt order ts).viewers t).shown.length = calls t)

/-- C80, exactly when somebody can get a wrong list: if two requests ask for a list that has not been made, and it is
not empty. -/
theorem C80_exact (z : Lazy) {srt : List α → List α} {order : Nat → Nat → List α} {tags : List α} {R : α → α → Prop}
    (hS : Setting srt order tags R) (var : Option (List α)) (calls : Nat → Nat)
    (hw : z.cold var = false → Complete tags R (var.getD [])) :
    (∃ ts t, ∃ l ∈ (((ListWorld.start var calls).run z srt order ts).viewers t).shown, ¬ Complete tags R l) ↔
      Clash z var tags calls := by
  constructor
  · rintro ⟨ts, t, l, hl, hn⟩
    by_contra hc
    exact hn (safe z hS hw hc ts t l hl)
  · intro h
    obtain ⟨ts, t, l, hl, hn⟩ := wrong z hS h
    exact ⟨ts, t, l, hl, fun hc => hn hc.1⟩

/-- C80, in any case: whoever takes enough steps has got a list for every call. -/
theorem C80_answered (z : Lazy) {srt : List α → List α} {order : Nat → Nat → List α} {tags : List α} {R : α → α → Prop}
    (hS : Setting srt order tags R) (var : Option (List α)) (calls : Nat → Nat) (ts : List Nat) (t : Nat)
    (h : calls t * (tags.length + 5) ≤ ts.count t) :
    (((ListWorld.start var calls).run z srt order ts).viewers t).shown.length = calls t := by
  have h1 := left_run z hS t ts (.start var calls)
  have h2 := counted z (srt := srt) (order := order) t ts (.start var calls)
  have h3 : left tags.length ((ListWorld.start var calls).viewers t) = calls t * (tags.length + 5) := by
    simp only [left, ListWorld.start]
    cases calls t with
    | zero => simp
    | succ c => simp only [Nat.add_mul]; omega
  have h4 : (((ListWorld.start var calls).run z srt order ts).viewers t).calls = 0 := by
    cases hc : (((ListWorld.start var calls).run z srt order ts).viewers t).calls with
    | zero => rfl
    | succ c =>
      rw [left, hc] at h1
      dsimp only at h1
      split at h1 <;> omega
  have h5 : ((ListWorld.start var calls).viewers t).calls + ((ListWorld.start var calls).viewers t).shown.length = calls t := rfl
  omega

/-- C80, partial: a list made before pages are served, or asked for by one request only, is always complete, without repetition,
and in order. -/
theorem C80_served_partial (z : Lazy) {srt : List α → List α} {order : Nat → Nat → List α} {tags : List α} {R : α → α → Prop}
    (hS : Setting srt order tags R) (var : Option (List α)) (calls : Nat → Nat)
    (hw : z.cold var = false → Complete tags R (var.getD [])) (hn : ¬ Clash z var tags calls) (ts : List Nat) (t : Nat) :
    (∀ l ∈ (((ListWorld.start var calls).run z srt order ts).viewers t).shown, Complete tags R l) ∧
      (calls t * (tags.length + 5) ≤ ts.count t →
        (((ListWorld.start var calls).run z srt order ts).viewers t).shown.length = calls t) :=
  ⟨safe z hS hw hn ts t, C80_answered z hS var calls ts t⟩

/-! ### The list of keepers -/

open Verif.Score in
/-- The list of keepers meets what is assumed, whatever the tags and however the map is visited. -/
theorem keepers_setting (S : Sorter) (order : Nat → Nat → List Bytes) (tags : List Bytes) (ho : ∀ t n, (order t n).Perm tags) :
    Setting (S.sort tagLess) order tags (fun a b => tagLess b a = false) :=
  ⟨ho, S.perm tagLess, fun _ _ => S.sorted tagLess _ Keeper.tagLess_weak⟩

open Verif.Score in
/-- The list of the keepers of the program, which is not made before pages are served: with two requests, some
interleaving shows one of them a wrong list; if the list has been made, none does. -/
theorem C80_keepers (S : Sorter) (order : Nat → Nat → List Bytes) (ho : ∀ t n, (order t n).Perm configuredTags) (calls : Nat → Nat) :
    ((∃ ts t, ∃ l ∈ (((ListWorld.start none calls).run .keepers (S.sort tagLess) order ts).viewers t).shown,
        ¬ Complete configuredTags (fun a b => tagLess b a = false) l) ↔ ∃ i j, i ≠ j ∧ 0 < calls i ∧ 0 < calls j) ∧
    ∀ ts t, ∀ l ∈ (((ListWorld.start (some (S.sort tagLess configuredTags)) calls).run .keepers (S.sort tagLess) order ts).viewers t).shown,
      Complete configuredTags (fun a b => tagLess b a = false) l := by
  refine ⟨(C80_exact .keepers (keepers_setting S order _ ho) none calls (fun h => by cases h)).trans ?_, fun ts t => ?_⟩
  · exact ⟨fun h => h.2.2, fun h => ⟨rfl, by decide, h⟩⟩
  · refine (C80_served_partial .keepers (keepers_setting S order _ ho) _ calls (fun _ => ?_) (fun h => ?_) ts t).1
    · exact ⟨S.perm _ _, S.sorted _ _ Keeper.tagLess_weak⟩
    · cases h.1

/-! ### Examples -/

/-- Two requests, one call each. -/
def two : Nat → Nat := fun t => if t < 2 then 1 else 0

/-- C80 is false: the second request finds the list that the first one has just made. -/
theorem C80_fails : ¬ C80_statement := by
  intro h
  have := (h Nat .keepers id (fun _ _ => [1, 2]) [1, 2] (· ≤ ·) none two
    ⟨fun _ _ => .refl _, fun _ => .refl _, fun _ _ => by decide⟩ (fun h => by cases h) [0, 0, 1, 1] 1).1 [] (by decide)
  exact absurd this.1.length_eq (by decide)

/-- With all kinds of functions: a wrong list, and the right ones one after the other. -/
example :
    (((ListWorld.start none two).run .keepers id (fun _ _ => [1, 2]) [0, 0, 0, 1, 1]).viewers 1).shown = [[1]] ∧
    (((ListWorld.start none two).run .bench id (fun _ _ => [1, 2]) [0, 1, 0, 0, 0, 1, 1, 0, 0, 0]).viewers 0).shown = [[1, 2, 1]] ∧
    (((ListWorld.start (some []) two).run .warnings id (fun _ _ => [1, 2]) [0, 1, 0, 0, 0, 1, 1, 0, 0, 0]).viewers 0).shown = [[1, 2, 1]] ∧
    (((ListWorld.start none two).run .levels id (fun _ _ => [1, 2]) [0, 1, 0, 0, 0, 1, 0, 0, 0]).viewers 0).shown = [[]] ∧
    (((ListWorld.start none two).run .keepers id (fun _ _ => [1, 2]) [0, 0, 0, 0, 0, 0, 0, 1, 1]).viewers 1).shown = [[1, 2]] ∧
    (((ListWorld.start none two).run .bench id (fun _ _ => [1, 2]) [0, 0, 0, 0, 0, 0, 0, 1, 1]).viewers 1).shown = [[1, 2]] := by
  decide

/-- Clashes and none. -/
example : Clash .keepers none [1, 2] two ∧ ¬ Clash .keepers none [1, 2] (fun t => if t = 3 then 5 else 0) ∧
    ¬ Clash .keepers (some []) [1, 2] two ∧ Clash .warnings (some []) [1, 2] two ∧ ¬ Clash .bench none ([] : List Nat) two := by
  refine ⟨⟨rfl, by decide, 0, 1, by decide, by decide, by decide⟩, ?_, fun h => absurd h.1 (by decide),
    ⟨rfl, by decide, 0, 1, by decide, by decide, by decide⟩, fun h => h.2.1 rfl⟩
  rintro ⟨_, _, i, j, hij, hi, hj⟩
  by_cases h3 : i = 3 <;> by_cases h4 : j = 3 <;> simp_all

end Verif.Props.LazyList
