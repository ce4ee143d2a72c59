import Verif.Warning.Registry

/-
Properties C27 and C28: the registry of warnings.
-/

set_option linter.unusedSimpArgs false

namespace Verif.Props.WarnRegistry
open Go Verif.Warning

/-! ### Specification -/

/-- The warning a creation asks for. -/
def wanted (level : Nat) (name summary description : Bytes) : Warning :=
  { level, name, summary, description := fixDescription description }

/-- The creations of a history, in order. -/
def creations : List Use → List Warning
  | [] => []
  | .create l n s d :: us => wanted l n s d :: creations us
  | .list _ :: us => creations us

/-- What was first created under a name. -/
def firstNamed (us : List Use) (name : Bytes) : Option Warning :=
  (creations us).find? fun w => w.name = name

/-- The history up to the first listing that came after some creation, if there was
one. -/
def frozen : List Use → List Use → Option (List Use)
  | _, [] => none
  | past, .create l n s d :: us => frozen (past ++ [.create l n s d]) us
  | past, .list l :: us => if creations past = [] then frozen (past ++ [.list l]) us else some past

/-- `ws` lists, sorted by name, what was registered for the level in the history. -/
def Lists (us : List Use) (level : Nat) (ws : List Warning) : Prop :=
  ws.Pairwise (fun a b => less a.name b.name = true) ∧
  ∀ w, w ∈ ws ↔ w.level = level ∧ firstNamed us w.name = some w

/-! ### Lemmas -/

theorem creations_append (us vs : List Use) : creations (us ++ vs) = creations us ++ creations vs := by
  induction us with
  | nil => rfl
  | cons u us ih => cases u <;> simp [creations, ih]

theorem run_append (S : Sorter) (reg : Registry) (us vs : List Use) :
    reg.run S (us ++ vs) = (reg.run S us).run S vs := by
  simp [Registry.run, List.foldl_append]

/-- What holds of the registry after a history. -/
structure Inv (us : List Use) (reg : Registry) : Prop where
  look : ∀ n, reg.byName.get n = firstNamed us n
  nodup : (reg.all.map Warning.name).Nodup
  mem : ∀ w, w ∈ reg.all ↔ firstNamed us w.name = some w

theorem firstNamed_name {us : List Use} {n : Bytes} {w : Warning} (h : firstNamed us n = some w) : w.name = n := by
  unfold firstNamed at h
  simpa using List.find?_some h

theorem inv_nil : Inv [] {} where
  look := fun _ => rfl
  nodup := .nil
  mem := fun w => by simp [firstNamed, creations]

theorem firstNamed_create (us : List Use) (l : Nat) (n s d x : Bytes) :
    firstNamed (us ++ [.create l n s d]) x =
      (firstNamed us x).or (if n = x then some (wanted l n s d) else none) := by
  unfold firstNamed
  rw [creations_append, List.find?_append]
  congr 1
  simp only [creations]
  by_cases h : n = x <;> simp [wanted, h]

theorem inv_create {us : List Use} {reg : Registry} (h : Inv us reg) (l : Nat) (n s d : Bytes) :
    Inv (us ++ [.create l n s d]) (newWarning reg l n s d).1 ∧
    some (newWarning reg l n s d).2 = firstNamed (us ++ [.create l n s d]) n := by
  unfold newWarning
  have e := h.look n
  cases hf : reg.byName.get n with
  | some w =>
    rw [hf] at e
    have same : ∀ x, firstNamed (us ++ [.create l n s d]) x = firstNamed us x := by
      intro x
      rw [firstNamed_create]
      by_cases hx : n = x
      · subst hx; rw [← e]; rfl
      · simp [hx]
    refine ⟨⟨fun x => ?_, h.nodup, fun w => ?_⟩, ?_⟩
    · rw [same]; exact h.look x
    · rw [same]; exact h.mem w
    · rw [same]; exact e
  | none =>
    rw [hf] at e
    have same : ∀ x, firstNamed (us ++ [.create l n s d]) x =
        if x = n then some (wanted l n s d) else firstNamed us x := by
      intro x
      rw [firstNamed_create]
      by_cases hx : n = x
      · subst hx; rw [← e]; simp
      · simp [hx, Ne.symm hx]
    have notin : ∀ w ∈ reg.all, w.name ≠ n := by
      intro w hw hn
      have := (h.mem w).1 hw
      rw [hn, ← e] at this
      cases this
    refine ⟨⟨fun x => ?_, ?_, fun w => ?_⟩, ?_⟩
    · simp only [Map.get_set, same]
      by_cases hx : x = n
      · simp [hx, wanted]
      · simp [hx, h.look]
    · simp only [List.map_append, List.map_cons, List.map_nil]
      rw [List.nodup_append]
      refine ⟨h.nodup, by simp, ?_⟩
      intro a ha b hb
      obtain ⟨w, hw, rfl⟩ := List.mem_map.1 ha
      simp only [List.mem_singleton] at hb
      subst hb
      exact notin w hw
    · simp only [List.mem_append, List.mem_singleton, same]
      by_cases hx : w.name = n
      · simp only [hx, if_true, Option.some.injEq]
        constructor
        · rintro (hw | rfl)
          · exact absurd hx (notin w hw)
          · rfl
        · intro e; exact .inr e.symm
      · simp only [hx, if_false, ← h.mem]
        constructor
        · rintro (hw | rfl)
          · exact hw
          · exact absurd rfl hx
        · exact .inl
    · rw [same]; simp [wanted]

theorem inv_list {us : List Use} {reg : Registry} (h : Inv us reg) (S : Sorter) (l : Nat) :
    Inv (us ++ [.list l]) (warningsForLevel S reg l).1 := by
  have same : ∀ x, firstNamed (us ++ [.list l]) x = firstNamed us x := by
    intro x; unfold firstNamed; rw [creations_append]; simp [creations]
  have e : (warningsForLevel S reg l).1.all = reg.all ∧ (warningsForLevel S reg l).1.byName = reg.byName := by
    unfold warningsForLevel buildTree
    split <;> exact ⟨rfl, rfl⟩
  refine ⟨fun x => ?_, ?_, fun w => ?_⟩
  · rw [e.2, same]; exact h.look x
  · rw [e.1]; exact h.nodup
  · rw [e.1, same]; exact h.mem w

theorem inv_run (S : Sorter) (us : List Use) : Inv us (Registry.run S {} us) := by
  have : ∀ vs past reg, Inv past reg → Inv (past ++ vs) (reg.run S vs) := by
    intro vs
    induction vs with
    | nil => intro past reg h; simpa [Registry.run] using h
    | cons v vs ih =>
      intro past reg h
      have hs : Inv (past ++ [v]) (reg.step S v) := by
        cases v with
        | create l n s d => exact (inv_create h l n s d).1
        | list l => exact inv_list h S l
      have := ih _ _ hs
      simpa [Registry.run] using this
  simpa using this us [] {} inv_nil

/-! ### C27 -/

/-- C27: looking up a name gives the first warning created under it, and nothing if none
was. -/
theorem C27_lookup (S : Sorter) (us : List Use) (name : Bytes) :
    byName (Registry.run S {} us) name = firstNamed us name := (inv_run S us).look name

/-- C27: a creation returns the first warning created under its name, the new one
included. -/
theorem C27_create_returns_first (S : Sorter) (us : List Use) (l : Nat) (n s d : Bytes) :
    some (newWarning (Registry.run S {} us) l n s d).2 = firstNamed (us ++ [.create l n s d]) n :=
  (inv_create (inv_run S us) l n s d).2

/-- C27: creating under a name in use changes nothing at all. -/
theorem C27_create_again_changes_nothing (S : Sorter) (us : List Use) (l : Nat) (n s d : Bytes) (w : Warning)
    (h : firstNamed us n = some w) :
    newWarning (Registry.run S {} us) l n s d = (Registry.run S {} us, w) := by
  have := (inv_run S us).look n
  rw [h] at this
  simp [newWarning, this]

/-- C27: the registered warnings have different names and are those that were first
under their names. -/
theorem C27_registered (S : Sorter) (us : List Use) :
    ((Registry.run S {} us).all.map Warning.name).Nodup ∧
    ∀ w, w ∈ (Registry.run S {} us).all ↔ firstNamed us w.name = some w :=
  ⟨(inv_run S us).nodup, (inv_run S us).mem⟩

/-- A case: the second creation under `A` is refused. -/
example : firstNamed [.create 1 b!"A" b!"one" [], .list 1, .create 2 b!"A" b!"two" [], .create 2 b!"B" [] []] b!"A" =
    some ⟨1, b!"A", b!"one", []⟩ ∧
    firstNamed [.create 1 b!"A" b!"one" []] b!"C" = none := by decide

/-! ### C28 -/

theorem gather_get (t : Map Nat (List Warning)) (ws : List Warning) (l : Nat) :
    ((gather t ws).get l).getD [] = (t.get l).getD [] ++ ws.filter fun w => w.level = l := by
  induction ws generalizing t with
  | nil => simp [gather]
  | cons w ws ih =>
    rw [gather, ih, Map.get_set]
    by_cases h : w.level = l
    · subst h; simp
    · rw [if_neg (Ne.symm h), List.filter_cons, if_neg (by simpa using h)]

theorem gather_empty (t : Map Nat (List Warning)) (ws : List Warning) :
    gather t ws = [] ↔ t = [] ∧ ws = [] := by
  induction ws generalizing t with
  | nil => simp [gather]
  | cons w ws ih =>
    rw [gather, ih]
    constructor
    · rintro ⟨h, _⟩
      cases t with
      | nil => simp [Map.set] at h
      | cons e t => simp only [Map.set] at h; split at h <;> cases h
    · rintro ⟨_, h⟩; cases h

theorem get_map (m : Map Nat (List Warning)) (f : List Warning → List Warning) (k : Nat) :
    Map.get (m.map fun e => (e.1, f e.2)) k = (Map.get m k).map f := by
  induction m with
  | nil => rfl
  | cons e m ih =>
    obtain ⟨k', v⟩ := e
    rw [List.map_cons, Map.get_cons, Map.get_cons, ih]
    split <;> rfl

theorem sort_nil {α : Type} (S : Sorter) (lt : α → α → Bool) : S.sort lt [] = [] :=
  (S.perm lt []).eq_nil

/-- The tree made of some warnings. -/
def treeOf (S : Sorter) (ws : List Warning) : Map Nat (List Warning) :=
  (gather [] ws).map fun e => (e.1, S.sort (fun a b => less a.name b.name) e.2)

theorem treeOf_get (S : Sorter) (ws : List Warning) (l : Nat) :
    ((treeOf S ws).get l).getD [] =
      S.sort (fun a b => less a.name b.name) (ws.filter fun w => w.level = l) := by
  unfold treeOf
  have h := gather_get [] ws l
  rw [get_map]
  cases e : (gather [] ws).get l with
  | none =>
    rw [e] at h
    simp only [Map.get_nil, Option.getD_none, List.nil_append] at h
    rw [← h, sort_nil]; rfl
  | some v =>
    rw [e] at h
    simp only [Map.get_nil, Option.getD_none, List.nil_append, Option.getD_some] at h
    rw [← h]; rfl

/-- The listing made of the registered warnings is right for the history. -/
theorem lists_of_inv {us : List Use} {reg : Registry} (h : Inv us reg) (S : Sorter) (l : Nat) :
    Lists us l (S.sort (fun a b => less a.name b.name) (reg.all.filter fun w => w.level = l)) := by
  have hp := S.perm (fun a b : Warning => less a.name b.name) (reg.all.filter fun w => w.level = l)
  have hs := S.sorted (fun a b : Warning => less a.name b.name) (reg.all.filter fun w => w.level = l)
    (less_weak.comap Warning.name)
  have hn : ((reg.all.filter fun w => w.level = l).map Warning.name).Nodup :=
    h.nodup.sublist (List.Sublist.map _ List.filter_sublist)
  have hn := ((hp.map Warning.name).nodup_iff).2 hn
  refine ⟨?_, fun w => ?_⟩
  · rw [List.Nodup, List.pairwise_map] at hn
    refine List.Pairwise.imp₂ ?_ hs hn
    intro a b h1 h2
    rcases less_total a.name b.name with h | h | h
    · exact h
    · exact absurd h h2
    · rw [h1] at h; cases h
  · rw [hp.mem_iff, List.mem_filter, h.mem]
    simp [and_comm]

/-- The tree after a history. -/
theorem tree_run (S : Sorter) : ∀ (us past : List Use) (reg : Registry), Inv past reg → reg.tree = [] →
    (frozen past us = none ∧ (reg.run S us).tree = []) ∨
    ∃ pre r, frozen past us = some pre ∧ Inv pre r ∧ r.all ≠ [] ∧ (reg.run S us).tree = treeOf S r.all
  | [], _, _, _, ht => .inl ⟨rfl, ht⟩
  | .create l n s d :: us, past, reg, h, ht => by
    have := tree_run S us _ _ (inv_create h l n s d).1 (by
      unfold newWarning
      split <;> exact ht)
    simpa [frozen, Registry.run, Registry.step] using this
  | .list l :: us, past, reg, h, ht => by
    have hstep : (reg.step S (.list l)).tree = treeOf S reg.all := by
      simp only [Registry.step, warningsForLevel, ht, List.length_nil]
      rw [if_pos (by decide)]
      simp [buildTree, ht, treeOf]
    by_cases hc : creations past = []
    · have hall : reg.all = [] := by
        cases e : reg.all with
        | nil => rfl
        | cons w ws =>
          have := (h.mem w).1 (by rw [e]; simp)
          simp [firstNamed, hc] at this
      have := tree_run S us _ _ (inv_list h S l) (by
        show (reg.step S (.list l)).tree = []
        rw [hstep, hall]; rfl)
      simpa [frozen, hc, Registry.run, Registry.step] using this
    · refine .inr ⟨past, reg, by simp [frozen, hc], h, ?_, ?_⟩
      · intro hall
        cases e : creations past with
        | nil => exact hc e
        | cons w ws =>
          have hw : firstNamed past w.name = some w := by simp [firstNamed, e]
          have := (h.mem w).2 hw
          rw [hall] at this
          cases this
      · have hne : (treeOf S reg.all).length ≥ 1 := by
          have : reg.all ≠ [] := by
            intro hall
            cases e : creations past with
            | nil => exact hc e
            | cons w ws =>
              have hw : firstNamed past w.name = some w := by simp [firstNamed, e]
              have := (h.mem w).2 hw
              rw [hall] at this
              cases this
          unfold treeOf
          rw [List.length_map]
          cases e : gather [] reg.all with
          | nil => exact absurd ((gather_empty _ _).1 e).2 this
          | cons x xs => simp
        -- from here on the tree stays
        have stay : ∀ (us : List Use) (r : Registry), r.tree = treeOf S reg.all → (r.run S us).tree = treeOf S reg.all := by
          intro us
          induction us with
          | nil => intro r hr; exact hr
          | cons u us ih =>
            intro r hr
            refine ih (r.step S u) ?_
            cases u with
            | create l n s d =>
              simp only [Registry.step, newWarning]
              split <;> exact hr
            | list l =>
              simp only [Registry.step, warningsForLevel]
              rw [if_neg (by rw [hr]; omega)]
              exact hr
        exact stay us _ hstep

/-- C28, what the code does: a listing shows the warnings registered when the first
listing of a non-empty registry was made (or now, if this is the first). -/
theorem C28_lists_frozen (S : Sorter) (us : List Use) (level : Nat) :
    Lists ((frozen [] us).getD us) level (warningsForLevel S (Registry.run S {} us) level).2 := by
  rcases tree_run S us [] {} inv_nil rfl with ⟨hf, ht⟩ | ⟨pre, r, hf, hi, hne, ht⟩
  · rw [hf]
    simp only [warningsForLevel, ht, List.length_nil]
    rw [if_pos (by decide)]
    have e : (buildTree S (Registry.run S {} us)).tree = treeOf S (Registry.run S {} us).all := by
      simp [buildTree, ht, treeOf]
    simp only [e, treeOf_get]
    exact lists_of_inv (inv_run S us) S level
  · rw [hf]
    have hl : (treeOf S r.all).length ≥ 1 := by
      unfold treeOf
      rw [List.length_map]
      cases e : gather [] r.all with
      | nil => exact absurd ((gather_empty _ _).1 e).2 hne
      | cons x xs => simp
    simp only [warningsForLevel]
    rw [if_neg (by rw [ht]; omega), ht, treeOf_get]
    exact lists_of_inv hi S level

/-- C28 in full: a listing shows what is registered. -/
def C28_statement : Prop := ∀ (S : Sorter) (us : List Use) (level : Nat),
  Lists us level (warningsForLevel S (Registry.run S {} us) level).2

/-- C28 does not hold: a warning created after the first listing is never listed. -/
theorem C28_listing_goes_stale : ¬ C28_statement := by
  intro h
  have h1 := h someSorter [.create 1 b!"A" [] [], .list 1, .create 1 b!"B" [] []] 1
  have h2 := C28_lists_frozen someSorter [.create 1 b!"A" [] [], .list 1, .create 1 b!"B" [] []] 1
  have := (h1.2 ⟨1, b!"B", [], []⟩).2 (by decide)
  have := (h2.2 _).1 this
  revert this
  decide

/-- C28 as long as nothing is created after such a listing. -/
theorem C28_lists_registered_partial (S : Sorter) (us : List Use) (level : Nat)
    (h : ∀ pre, frozen [] us = some pre → creations pre = creations us) :
    Lists us level (warningsForLevel S (Registry.run S {} us) level).2 := by
  have := C28_lists_frozen S us level
  cases e : frozen [] us with
  | none => rw [e] at this; exact this
  | some pre =>
    rw [e] at this
    refine ⟨this.1, fun w => ?_⟩
    rw [this.2 w]
    simp only [Option.getD_some, firstNamed, h pre e]

/-- A case: a listing of the empty registry does no harm, nor do listings at the end. -/
example : ∀ pre, frozen [] [.list 1, .create 1 b!"B" [] [], .create 1 b!"A" [] [], .list 1, .list 2] = some pre →
    creations pre = creations [.list 1, .create 1 b!"B" [] [], .create 1 b!"A" [] [], .list 1, .list 2] := by
  intro pre h
  have : pre = [.list 1, .create 1 b!"B" [] [], .create 1 b!"A" [] []] := by
    simpa [frozen, creations] using h.symm
  subst this; rfl

/-- A listing is told by the specification. -/
theorem C28_lists_unique {us : List Use} {level : Nat} {ws vs : List Warning} (h : Lists us level ws)
    (h' : Lists us level vs) : ws = vs := by
  have nd : ∀ {xs : List Warning}, Lists us level xs → xs.Nodup := by
    intro xs hx
    refine hx.1.imp ?_
    intro a b hab e
    subst e
    rw [less_irrefl] at hab; cases hab
  refine sorted_unique (lt := fun a b => less a.name b.name) ?_ (h.1.imp less_asymm) (h'.1.imp less_asymm) ?_
  · exact (List.perm_ext_iff_of_nodup (nd h) (nd h')).2 fun w => by rw [h.2, h'.2]
  · intro a ha b hb h1 h2
    have ea := ((h.2 a).1 ha).2
    have eb := ((h.2 b).1 hb).2
    have : a.name = b.name := by
      rcases less_total a.name b.name with h | h | h
      · rw [h] at h1; cases h1
      · exact h
      · rw [h] at h2; cases h2
    rw [this, eb] at ea
    exact (Option.some.inj ea).symm

end Verif.Props.WarnRegistry
