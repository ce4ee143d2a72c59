import Verif.Server.TagNames

/-
C79: asking for the names of tags while pages are served.
-/

namespace Verif.Props.TagNames

open Verif Verif.Go Verif.Server

variable {α : Type} (name : Bytes → α)

theorem run_append (s : NameWorld α) (a b : List Nat) : s.run name (a ++ b) = (s.run name a).run name b := List.foldl_append

theorem run_snoc (s : NameWorld α) (a : List Nat) (t : Nat) : s.run name (a ++ [t]) = (s.run name a).step name t := by
  simp [NameWorld.run]

/-! ### What a request gets is right -/

/-- Tags got and to be got are those asked for, and names are right. -/
structure Right (asks : Nat → List Bytes) (s : NameWorld α) : Prop where
  cached : ∀ tag n, s.names.get tag = some n → n = name tag
  tags : ∀ t, (s.askers t).got.map Prod.fst ++ (s.askers t).todo = asks t
  got : ∀ t, ∀ e ∈ (s.askers t).got, e.2 = name e.1
  held : ∀ t tag n, (s.askers t).todo.head? = some tag →
    (s.askers t).phase = .store n ∨ (s.askers t).phase = .mid n → n = name tag

theorem right_take {asks : Nat → List Bytes} {s s' : NameWorld α} (h : Right name asks s) {t : Nat} {tag : Bytes} {n : α}
    (ht : (s.askers t).todo.head? = some tag) (hn : n = name tag)
    (hc : ∀ tag n, s'.names.get tag = some n → n = name tag)
    (ha : s'.askers = Function.update s.askers t ((s.askers t).take tag n)) : Right name asks s' := by
  refine ⟨hc, fun u => ?_, fun u e he => ?_, fun u tag' n' hu hp => ?_⟩ <;> by_cases hut : u = t
  · subst hut
    rw [ha, Function.update_self]
    have := h.tags u
    cases hl : (s.askers u).todo with
    | nil => rw [hl] at ht; cases ht
    | cons a l =>
      rw [hl] at this ht
      simp only [List.head?_cons, Option.some.injEq] at ht
      subst ht
      rw [← this]
      simp [Asker.take, hl]
  · rw [ha, Function.update_of_ne hut]; exact h.tags u
  · subst hut
    rw [ha, Function.update_self] at he
    simp only [Asker.take, List.mem_append, List.mem_singleton] at he
    rcases he with he | rfl
    · exact h.got u e he
    · exact hn
  · rw [ha, Function.update_of_ne hut] at he; exact h.got u e he
  · subst hut
    rw [ha, Function.update_self] at hp
    rcases hp with hp | hp <;> cases hp
  · rw [ha, Function.update_of_ne hut] at hu hp
    exact h.held u tag' n' hu hp

theorem right_phase {asks : Nat → List Bytes} {s s' : NameWorld α} (h : Right name asks s) {t : Nat} {tag : Bytes} {n : α} {p : Naming α}
    (ht : (s.askers t).todo.head? = some tag) (hn : n = name tag) (hp : p = .store n ∨ p = .mid n)
    (hc : s'.names = s.names)
    (ha : s'.askers = Function.update s.askers t { s.askers t with phase := p }) : Right name asks s' := by
  refine ⟨by rw [hc]; exact h.cached, fun u => ?_, fun u e he => ?_, fun u tag' n' hu hq => ?_⟩ <;> by_cases hut : u = t
  · subst hut; rw [ha, Function.update_self]; exact h.tags u
  · rw [ha, Function.update_of_ne hut]; exact h.tags u
  · subst hut; rw [ha, Function.update_self] at he; exact h.got u e he
  · rw [ha, Function.update_of_ne hut] at he; exact h.got u e he
  · subst hut
    rw [ha, Function.update_self] at hu hq
    simp only at hu hq
    rw [ht] at hu
    cases hu
    rcases hp with rfl | rfl <;> rcases hq with hq | hq <;> cases hq <;> exact hn
  · rw [ha, Function.update_of_ne hut] at hu hq
    exact h.held u tag' n' hu hq

theorem right_step {asks : Nat → List Bytes} {s : NameWorld α} (h : Right name asks s) (t : Nat) :
    Right name asks (s.step name t) := by
  unfold NameWorld.step
  split
  · exact h
  · cases hl : (s.askers t).todo with
    | nil => exact h
    | cons tag l =>
      have ht : (s.askers t).todo.head? = some tag := by rw [hl]; rfl
      dsimp only
      cases hp : (s.askers t).phase with
      | look =>
        dsimp only
        split
        · exact ⟨h.cached, h.tags, h.got, h.held⟩
        · cases hg : s.names.get tag with
          | some n => exact right_take name h ht (h.cached _ _ hg) h.cached rfl
          | none => exact right_phase name h ht rfl (.inl rfl) rfl rfl
      | store n =>
        dsimp only
        split
        · exact ⟨h.cached, h.tags, h.got, h.held⟩
        · exact right_phase name h ht (h.held t tag n ht (.inl hp)) (.inr rfl) rfl rfl
      | mid n =>
        have hn := h.held t tag n ht (.inr hp)
        refine right_take name h ht hn ?_ rfl
        intro tag' n' hg
        simp only [Map.get_set] at hg
        split at hg
        · rename_i e; cases hg; rw [e]; exact hn
        · exact h.cached _ _ hg

theorem right_run {asks : Nat → List Bytes} {s : NameWorld α} (h : Right name asks s) (ts : List Nat) :
    Right name asks (s.run name ts) := by
  induction ts generalizing s with
  | nil => exact h
  | cons t ts ih => exact ih (right_step name h t)

theorem right_start {names : Map Bytes α} (hc : ∀ tag n, names.get tag = some n → n = name tag) (asks : Nat → List Bytes) :
    Right name asks (.start names asks) :=
  ⟨hc, fun _ => rfl, fun _ _ he => (by cases he), fun _ _ _ _ hp => (by rcases hp with hp | hp <;> cases hp)⟩

/-! ### When the runtime ends the program -/

/-- Someone asks for a name that is not in the cache, and someone else asks for anything. -/
def Clash (names : Map Bytes α) (asks : Nat → List Bytes) : Prop :=
  ∃ i j, i ≠ j ∧ (∃ tag ∈ asks i, names.get tag = none) ∧ asks j ≠ []

/-- All names are in the cache. -/
structure Warm (cache : Map Bytes α) (s : NameWorld α) : Prop where
  names : s.names = cache
  writing : s.writing = none
  dead : s.dead = false
  phase : ∀ t, (s.askers t).phase = .look
  known : ∀ t, ∀ tag ∈ (s.askers t).todo, (cache.get tag).isSome = true

/-- Only one request asks for anything. -/
structure Alone (i : Nat) (s : NameWorld α) : Prop where
  others : ∀ j, j ≠ i → (s.askers j).todo = []
  dead : s.dead = false
  writing : s.writing.isSome = true → ∃ n, (s.askers i).phase = .mid n

theorem warm_step {names : Map Bytes α} {s : NameWorld α} (h : Warm names s) (t : Nat) : Warm names (s.step name t) := by
  unfold NameWorld.step
  rw [if_neg (by simp [h.dead])]
  cases hl : (s.askers t).todo with
  | nil => exact h
  | cons tag l =>
    dsimp only
    rw [h.phase t]
    dsimp only
    rw [if_neg (by simp [h.writing])]
    have hk := h.known t tag (by rw [hl]; simp)
    cases hg : s.names.get tag with
    | none => rw [h.names] at hg; rw [hg] at hk; cases hk
    | some n =>
      refine ⟨h.names, h.writing, h.dead, fun u => ?_, fun u => ?_⟩ <;> by_cases hut : u = t
      · subst hut; simp [Asker.take]
      · simp only [Function.update_of_ne hut]; exact h.phase u
      · subst hut
        intro tag' ht'
        simp only [Function.update_self, Asker.take, hl, List.tail_cons] at ht'
        exact h.known u tag' (by rw [hl]; simp [ht'])
      · simp only [Function.update_of_ne hut]; exact h.known u

theorem alone_step {i : Nat} {s : NameWorld α} (h : Alone i s) (t : Nat) : Alone i (s.step name t) := by
  unfold NameWorld.step
  rw [if_neg (by simp [h.dead])]
  cases hl : (s.askers t).todo with
  | nil => exact h
  | cons tag l =>
    have hti : t = i := by
      by_contra hne
      rw [h.others t hne] at hl
      cases hl
    subst hti
    dsimp only
    cases hp : (s.askers t).phase with
    | look =>
      have hw : s.writing.isSome = false := by
        by_contra hc
        obtain ⟨n, hn⟩ := h.writing (by cases hw : s.writing.isSome with | true => rfl | false => exact absurd hw hc)
        rw [hp] at hn; cases hn
      dsimp only
      rw [if_neg (by simp [hw])]
      cases hg : s.names.get tag with
      | some n =>
        refine ⟨fun j hj => ?_, h.dead, fun hc => ?_⟩
        · simp only [Function.update_of_ne hj]; exact h.others j hj
        · simp [hw] at hc
      | none =>
        refine ⟨fun j hj => ?_, h.dead, fun hc => ?_⟩
        · simp only [Function.update_of_ne hj]; exact h.others j hj
        · simp [hw] at hc
    | store n =>
      have hw : s.writing.isSome = false := by
        by_contra hc
        obtain ⟨n, hn⟩ := h.writing (by cases hw : s.writing.isSome with | true => rfl | false => exact absurd hw hc)
        rw [hp] at hn; cases hn
      dsimp only
      rw [if_neg (by simp [hw])]
      refine ⟨fun j hj => ?_, h.dead, fun _ => ⟨n, by simp⟩⟩
      simp only [Function.update_of_ne hj]; exact h.others j hj
    | mid n =>
      refine ⟨fun j hj => ?_, h.dead, fun hc => by simp at hc⟩
      simp only [Function.update_of_ne hj]; exact h.others j hj

theorem warm_run {names : Map Bytes α} {s : NameWorld α} (h : Warm names s) (ts : List Nat) : Warm names (s.run name ts) := by
  induction ts generalizing s with
  | nil => exact h
  | cons t ts ih => exact ih (warm_step name h t)

theorem alone_run {i : Nat} {s : NameWorld α} (h : Alone i s) (ts : List Nat) : Alone i (s.run name ts) := by
  induction ts generalizing s with
  | nil => exact h
  | cons t ts ih => exact ih (alone_step name h t)

theorem safe {names : Map Bytes α} {asks : Nat → List Bytes} (h : ¬ Clash names asks) (ts : List Nat) :
    ((NameWorld.start names asks).run name ts).dead = false := by
  by_cases hw : ∀ t, ∀ tag ∈ asks t, (names.get tag).isSome = true
  · exact (warm_run name (s := .start names asks) ⟨rfl, rfl, rfl, fun _ => rfl, hw⟩ ts).dead
  · simp only [not_forall] at hw
    obtain ⟨i, tag, hm, hn⟩ := hw
    refine (alone_run name (i := i) (s := .start names asks) ⟨fun j hj => ?_, rfl, fun hc => by cases hc⟩ ts).dead
    by_contra hne
    exact h ⟨i, j, hj.symm, ⟨tag, hm, by simpa using hn⟩, hne⟩

/-- A request asks for names in the cache, one step each. -/
theorem look_steps {i : Nat} (pre : List Bytes) : ∀ (s : NameWorld α) (rest : List Bytes), s.dead = false → s.writing = none →
    (s.askers i).phase = .look → (s.askers i).todo = pre ++ rest → (∀ tag ∈ pre, (s.names.get tag).isSome = true) →
    ∃ a, s.run name (List.replicate pre.length i) = { s with askers := Function.update s.askers i a } ∧
      a.phase = .look ∧ a.todo = rest := by
  induction pre with
  | nil =>
    intro s rest _ _ hp ht _
    exact ⟨s.askers i, by simp [NameWorld.run], hp, ht⟩
  | cons tag pre ih =>
    intro s rest hd hw hp ht hk
    obtain ⟨n, hn⟩ := Option.isSome_iff_exists.1 (hk tag (by simp))
    have e : s.step name i = { s with askers := Function.update s.askers i ((s.askers i).take tag n) } := by
      unfold NameWorld.step
      rw [if_neg (by simp [hd]), ht]
      simp only [List.cons_append, hp]
      rw [if_neg (by simp [hw]), hn]
    obtain ⟨a, h1, h2, h3⟩ := ih { s with askers := Function.update s.askers i ((s.askers i).take tag n) } rest hd hw
      (by simp [Asker.take]) (by simp [Asker.take, ht]) (fun x hx => hk x (by simp [hx]))
    refine ⟨a, ?_, h2, h3⟩
    rw [List.length_cons, List.replicate_succ]
    show NameWorld.run name (s.step name i) _ = _
    rw [e, h1]
    simp [Function.update_idem]

theorem first_missing {names : Map Bytes α} : ∀ l : List Bytes, (∃ tag ∈ l, names.get tag = none) →
    ∃ pre tag post, l = pre ++ tag :: post ∧ (∀ x ∈ pre, (names.get x).isSome = true) ∧ names.get tag = none
  | [], h => by obtain ⟨_, h, _⟩ := h; cases h
  | a :: l, h => by
    cases ha : names.get a with
    | none => exact ⟨[], a, l, rfl, fun _ hx => (by cases hx), ha⟩
    | some n =>
      obtain ⟨tag, hm, hn⟩ := h
      obtain ⟨pre, tag', post, h1, h2, h3⟩ := first_missing (names := names) l (by
        rcases List.mem_cons.1 hm with rfl | hm
        · rw [ha] at hn; cases hn
        · exact ⟨tag, hm, hn⟩)
      refine ⟨a :: pre, tag', post, by rw [h1]; rfl, ?_, h3⟩
      intro x hx
      rcases List.mem_cons.1 hx with rfl | hx
      · rw [ha]; rfl
      · exact h2 x hx

theorem clash_dead {names : Map Bytes α} {asks : Nat → List Bytes} (h : Clash names asks) :
    ∃ ts, ((NameWorld.start names asks).run name ts).dead = true := by
  obtain ⟨i, j, hij, hm, hj⟩ := h
  obtain ⟨pre, tag, post, e, hk, hn⟩ := first_missing (asks i) hm
  obtain ⟨a, h1, h2, h3⟩ := look_steps name (i := i) pre (.start names asks) (tag :: post) rfl rfl rfl e hk
  refine ⟨List.replicate pre.length i ++ [i, i, j], ?_⟩
  rw [run_append, h1]
  obtain ⟨b, l, hbl⟩ := List.exists_cons_of_ne_nil hj
  have hji : j ≠ i := Ne.symm hij
  simp [NameWorld.run, NameWorld.start, NameWorld.step, h2, h3, hn, hbl, Function.update_of_ne hji]

/-! ### Progress -/

/-- How many steps a request has still to take, at most. -/
def left (a : Asker α) : Nat :=
  3 * a.todo.length - match a.phase with
    | .look => 0
    | .store _ => 1
    | .mid _ => 2

theorem left_step {s : NameWorld α} (hd : (s.step name t).dead = false) (u : Nat) :
    left ((s.step name t).askers u) ≤ left (s.askers u) - if u = t then 1 else 0 := by
  unfold NameWorld.step at hd ⊢
  by_cases hdead : s.dead = true
  · rw [if_pos hdead] at hd; rw [hdead] at hd; cases hd
  · rw [if_neg hdead] at hd ⊢
    cases hl : (s.askers t).todo with
    | nil =>
      dsimp only
      split
      · rename_i e; subst e; rw [left, hl]; simp
      · omega
    | cons tag l =>
      rw [hl] at hd
      dsimp only at hd ⊢
      cases hp : (s.askers t).phase with
      | look =>
        rw [hp] at hd
        dsimp only at hd ⊢
        split
        · rename_i hw; rw [if_pos hw] at hd; cases hd
        · cases hg : s.names.get tag with
          | some n =>
            dsimp only
            split
            · rename_i e; subst e; simp [left, hl, hp, Asker.take]; omega
            · rename_i e; rw [Function.update_of_ne e]; omega
          | none =>
            dsimp only
            split
            · rename_i e; subst e; simp [left, hl, hp]
            · rename_i e; rw [Function.update_of_ne e]; omega
      | store n =>
        rw [hp] at hd
        dsimp only at hd ⊢
        split
        · rename_i hw; rw [if_pos hw] at hd; cases hd
        · dsimp only
          split
          · rename_i e; subst e; simp [left, hl, hp]; omega
          · rename_i e; rw [Function.update_of_ne e]; omega
      | mid n =>
        dsimp only
        split
        · rename_i e; subst e; simp [left, hl, hp, Asker.take]; omega
        · rename_i e; rw [Function.update_of_ne e]; omega

theorem dead_stays {s : NameWorld α} (h : s.dead = true) (ts : List Nat) : (s.run name ts).dead = true := by
  induction ts generalizing s with
  | nil => exact h
  | cons t ts ih =>
    have : s.step name t = s := by unfold NameWorld.step; rw [if_pos h]
    show ((s.step name t).run name ts).dead = true
    rw [this]
    exact ih h

theorem left_run {s : NameWorld α} (ts : List Nat) (hd : (s.run name ts).dead = false) (u : Nat) :
    left ((s.run name ts).askers u) ≤ left (s.askers u) - ts.count u := by
  induction ts generalizing s with
  | nil => simp [NameWorld.run]
  | cons t ts ih =>
    have hd' : ((s.step name t).run name ts).dead = false := hd
    have h1 := ih hd'
    have hd1 : (s.step name t).dead = false := by
      by_contra hc
      rw [dead_stays name (by simpa using hc) ts] at hd'
      cases hd'
    have h2 := left_step name hd1 u
    show left (((s.step name t).run name ts).askers u) ≤ _
    rw [List.count_cons]
    have : (t == u) = true ↔ u = t := ⟨fun h => (eq_of_beq h).symm, fun h => by rw [h]; exact beq_self_eq_true t⟩
    by_cases hut : u = t
    · rw [if_pos (this.2 hut)]; rw [if_pos hut] at h2; omega
    · rw [if_neg (fun hc => hut (this.1 hc))]; rw [if_neg hut] at h2; omega

/-! ### C79 -/

/-- C79 in full: no interleaving ends the program, and whoever may take enough steps is served. -/
def C79_statement : Prop :=
  ∀ (name : Bytes → Bytes) (names : Map Bytes Bytes) (asks : Nat → List Bytes),
    (∀ tag n, names.get tag = some n → n = name tag) → ∀ ts,
      ((NameWorld.start names asks).run name ts).dead = false ∧
      ∀ t, 3 * (asks t).length ≤ ts.count t →
        (((NameWorld.start names asks).run name ts).askers t).got = (asks t).map fun tag => (tag, name tag)

/-- C79, exactly when the runtime can end the program: if one request asks for a name that is not in the cache, and
another one asks for any name at all. -/
theorem C79_exact (names : Map Bytes α) (asks : Nat → List Bytes) :
    (∃ ts, ((NameWorld.start names asks).run name ts).dead = true) ↔ Clash names asks := by
  refine ⟨fun ⟨ts, h⟩ => ?_, clash_dead name⟩
  by_contra hc
  rw [safe name hc ts] at h
  cases h

/-- C79, whatever happens: each request has got names for the first tags it asked for, in order, each the right one. -/
theorem C79_names (names : Map Bytes α) (asks : Nat → List Bytes)
    (hc : ∀ tag n, names.get tag = some n → n = name tag) (ts : List Nat) (t : Nat) :
    ∃ k, (((NameWorld.start names asks).run name ts).askers t).got = ((asks t).take k).map fun tag => (tag, name tag) := by
  have h := right_run name (right_start name hc asks) ts
  refine ⟨(((NameWorld.start names asks).run name ts).askers t).got.length, ?_⟩
  have h1 := h.tags t
  have h2 := h.got t
  revert h1 h2
  generalize (((NameWorld.start names asks).run name ts).askers t).got = got
  intro h1 h2
  have h3 : (asks t).take got.length = got.map Prod.fst := by
    rw [← h1]
    have : got.length = (got.map Prod.fst).length := by simp
    rw [this, List.take_left']
    rfl
  rw [h3, List.map_map]
  symm
  conv => rhs; rw [← List.map_id got]
  refine List.map_congr_left fun e he => ?_
  simp only [Function.comp, id]
  rw [← h2 e he]

/-- C79, partial: if all names asked for are in the cache, or only one request asks for names, no interleaving ends the
program, and whoever takes enough steps has all names it asked for, each the right one. -/
theorem C79_served_partial (names : Map Bytes α) (asks : Nat → List Bytes)
    (hc : ∀ tag n, names.get tag = some n → n = name tag) (hn : ¬ Clash names asks) (ts : List Nat) :
    ((NameWorld.start names asks).run name ts).dead = false ∧
      ∀ t, 3 * (asks t).length ≤ ts.count t →
        (((NameWorld.start names asks).run name ts).askers t).got = (asks t).map fun tag => (tag, name tag) := by
  have hd := safe name hn ts
  refine ⟨hd, fun t ht => ?_⟩
  have h1 := left_run name ts hd t
  have h2 : left ((NameWorld.start names asks).askers t) = 3 * (asks t).length := rfl
  have h := right_run name (right_start name hc asks) ts
  have h3 : (((NameWorld.start names asks).run name ts).askers t).todo = [] := by
    have h4 : left (((NameWorld.start names asks).run name ts).askers t) = 0 := by omega
    cases hl : (((NameWorld.start names asks).run name ts).askers t).todo with
    | nil => rfl
    | cons a l =>
      rw [left, hl, List.length_cons] at h4
      split at h4 <;> omega
  obtain ⟨k, hk⟩ := C79_names name names asks hc ts t
  have h5 := h.tags t
  rw [h3, List.append_nil, hk, List.map_map] at h5
  rw [hk]
  have : (asks t).take k = asks t := by
    conv => rhs; rw [← h5]
    conv => lhs; rw [← List.map_id ((asks t).take k)]
    rfl
  rw [this]

/-- Two requests for the page of warnings, each showing the name of the same test. -/
def twice : Nat → List Bytes := fun t => if t < 2 then [b!"Verify.Empty"] else []

/-- One request that shows the names of two tests. -/
def once : Nat → List Bytes := fun t => if t = 0 then [b!"Verify.Empty", b!"Verify.Group"] else []

/-- C79 is false: two requests for a name that is not in the cache. -/
theorem C79_fails : ¬ C79_statement := by
  intro h
  have := (h id [] twice (fun _ _ h => by cases h) [0, 0, 1]).1
  revert this
  decide

/-- The cases of `C79_exact`: a clash, and none although names are missing or although there are two requests. -/
example : Clash ([] : Map Bytes Bytes) twice ∧ ¬ Clash ([] : Map Bytes Bytes) once ∧
    ¬ Clash [(b!"Verify.Empty", b!"Empty")] twice := by
  refine ⟨⟨0, 1, by decide, ⟨b!"Verify.Empty", by decide, rfl⟩, by decide⟩, ?_, ?_⟩
  · rintro ⟨i, j, hij, ⟨tag, hm, _⟩, hj⟩
    unfold once at hm hj
    by_cases hi : i = 0
    · rw [if_neg (fun hc => hij (hi.trans hc.symm))] at hj; exact hj rfl
    · rw [if_neg hi] at hm; cases hm
  · rintro ⟨i, j, hij, ⟨tag, hm, hn⟩, hj⟩
    unfold twice at hm
    split at hm
    · simp only [List.mem_singleton] at hm
      subst hm
      revert hn; decide
    · cases hm

/-- A run of two requests with all names in the cache, and a run of one that fills it. -/
example : (((NameWorld.start [(b!"Verify.Empty", b!"Empty")] twice).run (fun _ => b!"Empty") [0, 1]).askers 1).got =
      [(b!"Verify.Empty", b!"Empty")] ∧
    ((NameWorld.start [] twice).run (fun _ => b!"Empty") [0, 0, 0]).names = [(b!"Verify.Empty", b!"Empty")] := by
  decide

end Verif.Props.TagNames
