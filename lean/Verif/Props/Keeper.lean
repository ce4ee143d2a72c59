import Verif.Score.Keeper
import Mathlib.Tactic.Tauto

/-
C45: score keepers are registered once and listed in order.
-/

namespace Verif.Props.Keeper

open Verif Verif.Go Verif.Score

variable {α : Type}

/-! ### Histories -/

/-- What the program does with the register. -/
inductive Op (α : Type) where
  | add (tag : Bytes) (k : α)
  | list

/-- A history: the variables after it; the error of every registration and the lists returned are not kept
here. `pick n` is the order of the map and `part n` what a panic leaves, at operation `n`. -/
def run (S : Sorter) (pick part : Nat → List Bytes → List Bytes) (s : Keepers α) : List (Op α) → Keepers α
  | [] => s
  | .add t k :: ops => run S (fun n => pick (n + 1)) (fun n => part (n + 1)) (s.add t k).1 ops
  | .list :: ops => run S (fun n => pick (n + 1)) (fun n => part (n + 1)) (s.list S (pick 0) (part 0)).1 ops

/-- The keepers offered for registration, in order. -/
def offered : List (Op α) → List (Bytes × α)
  | [] => []
  | .add t k :: ops => (t, k) :: offered ops
  | .list :: ops => offered ops

/-- The first of them with a tag. -/
def first (tag : Bytes) : List (Bytes × α) → Option α
  | [] => none
  | (t, k) :: l => if tag = t then some k else first tag l

theorem first_isSome (tag : Bytes) (l : List (Bytes × α)) : (first tag l).isSome = true ↔ tag ∈ l.map Prod.fst := by
  induction l with
  | nil => simp [first]
  | cons e l ih =>
    obtain ⟨t, k⟩ := e
    rw [first]
    split
    · rename_i h; simp [h]
    · rename_i h; rw [ih]; simp [h]

theorem first_append (tag : Bytes) (l k : List (Bytes × α)) : first tag (l ++ k) = (first tag l).or (first tag k) := by
  induction l with
  | nil => rfl
  | cons e l ih =>
    obtain ⟨t, x⟩ := e
    rw [List.cons_append, first, first, ih]
    split <;> rfl

/-! ### The order -/

/-- `a` comes before `b`: tags beginning with `+` come after the others, and else the bytes are
compared. -/
def Before (a b : Bytes) : Prop :=
  ((∃ r, b = 0x2B :: r) ∧ ¬ ∃ r, a = 0x2B :: r) ∨ (((∃ r, a = 0x2B :: r) ↔ ∃ r, b = 0x2B :: r) ∧ less a b = true)

theorem head_iff (a : Bytes) : a.head? = some 0x2B ↔ ∃ r, a = 0x2B :: r := by
  cases a with
  | nil => simp
  | cons x r => simp

theorem tagLess_iff (a b : Bytes) : tagLess a b = true ↔ Before a b := by
  unfold tagLess Before
  rw [← head_iff, ← head_iff]
  by_cases h1 : a.head? = some 0x2B <;> by_cases h2 : b.head? = some 0x2B <;> simp [h1, h2]

theorem tagLess_weak : StrictWeak tagLess where
  irrefl a := by
    unfold tagLess
    split
    · simp_all [less_irrefl]
    · exact less_irrefl a
  trans a b c h1 h2 := by
    unfold tagLess at *
    by_cases ha : a.head? = some 0x2B <;> by_cases hb : b.head? = some 0x2B <;> by_cases hc : c.head? = some 0x2B <;>
      simp_all <;> exact less_trans h1 h2
  incomp a b c h1 h2 := by
    unfold tagLess at *
    by_cases ha : a.head? = some 0x2B <;> by_cases hb : b.head? = some 0x2B <;> by_cases hc : c.head? = some 0x2B <;>
      simp_all <;> exact less_weak.incomp _ _ _ h1 h2

theorem before_total (a b : Bytes) (h : a ≠ b) : Before a b ∨ Before b a := by
  have : less a b = true ∨ less b a = true := by
    rcases less_total a b with e | e | e
    · exact .inl e
    · exact absurd e h
    · exact .inr e
  unfold Before
  tauto

theorem not_both {a b : Bytes} (h1 : Before a b) : ¬ Before b a := by
  rw [← tagLess_iff] at *
  intro h2
  have := tagLess_weak.trans _ _ _ h1 h2
  rw [tagLess_weak.irrefl] at this
  cases this

/-! ### The invariant -/

/-- What holds of the variables after keepers `l` were offered and nothing panicked. -/
structure Inv (l : List (Bytes × α)) (s : Keepers α) : Prop where
  nodup : s.keepers.keys.Nodup
  get : ∀ t, s.keepers.get t = first t l

/-- A cached list is a listing of the tags now registered, in order. -/
def CacheOk (s : Keepers α) : Prop :=
  ∀ l, s.tags = some l → l.Pairwise Before ∧ ∀ t, t ∈ l ↔ t ∈ s.keepers.keys

theorem Inv.add {l : List (Bytes × α)} {s : Keepers α} (h : Inv l s) (t : Bytes) (k : α) : Inv (l ++ [(t, k)]) (s.add t k).1 := by
  unfold Keepers.add
  cases e : s.keepers.get t with
  | some x =>
    refine ⟨h.nodup, fun t' => ?_⟩
    rw [first_append, h.get]
    cases e2 : first t' l with
    | some y => rfl
    | none =>
      have : t' ≠ t := by rintro rfl; rw [h.get, e2] at e; cases e
      simp [first, this]
  | none =>
    refine ⟨Map.nodup_set h.nodup _ _, fun t' => ?_⟩
    simp only
    rw [first_append, Map.get_set, h.get]
    split
    · rename_i ht
      subst ht
      rw [← h.get, e]
      simp [first]
    · rename_i ht
      simp [first, ht]

theorem Inv.list {l : List (Bytes × α)} {s : Keepers α} (h : Inv l s) (S : Sorter) (pick part : List Bytes → List Bytes) :
    Inv l (s.list S pick part).1 := by
  unfold Keepers.list
  split
  · exact h
  · dsimp only
    split <;> exact ⟨h.nodup, h.get⟩

theorem CacheOk.add {s : Keepers α} (h : CacheOk s) (t : Bytes) (k : α) : CacheOk (s.add t k).1 := by
  unfold Keepers.add
  split
  · exact h
  · intro l hl; cases hl

theorem pairwise_before {l : List Bytes} (hn : l.Nodup) (h : l.Pairwise fun a b => tagLess b a = false) : l.Pairwise Before := by
  refine (hn.and h).imp fun {a b} hab => ?_
  obtain ⟨h1, h2⟩ := hab
  rcases before_total a b h1 with h3 | h3
  · exact h3
  · rw [← tagLess_iff, h2] at h3; cases h3

theorem CacheOk.list {s : Keepers α} (h : CacheOk s) (hn : s.keepers.keys.Nodup) (S : Sorter) (pick part : List Bytes → List Bytes)
    (hp : ∀ l, (pick l).Perm l) (he : [] ∉ s.keepers.keys) :
    CacheOk (s.list S pick part).1 ∧ ∃ l, (s.list S pick part).2 = some l ∧ l.Pairwise Before ∧ ∀ t, t ∈ l ↔ t ∈ s.keepers.keys := by
  unfold Keepers.list
  split
  · rename_i l hl
    exact ⟨h, l, rfl, h l hl⟩
  · have hc : tagsPanic (pick s.keepers.keys) = false := by
      unfold tagsPanic
      rw [Bool.and_eq_false_iff]
      right
      rw [← Bool.not_eq_true, List.contains_iff_mem, (hp _).mem_iff]
      exact he
    simp only [hc]
    have hn' : (S.sort tagLess (pick s.keepers.keys)).Nodup := ((S.perm _ _).trans (hp _)).nodup_iff.2 hn
    have h1 := pairwise_before hn' (S.sorted tagLess _ tagLess_weak)
    have h2 : ∀ t, t ∈ S.sort tagLess (pick s.keepers.keys) ↔ t ∈ s.keepers.keys := fun t => ((S.perm _ _).trans (hp _)).mem_iff
    refine ⟨?_, _, rfl, h1, h2⟩
    intro l hl
    cases hl
    exact ⟨h1, h2⟩

theorem run_inv (S : Sorter) (ops : List (Op α)) : ∀ (pick part : Nat → List Bytes → List Bytes) (l : List (Bytes × α)) (s : Keepers α),
    Inv l s → Inv (l ++ offered ops) (run S pick part s ops) := by
  induction ops with
  | nil => intro pick part l s h; simpa [offered, run] using h
  | cons op ops ih =>
    intro pick part l s h
    cases op with
    | add t k =>
      have := ih (fun n => pick (n + 1)) (fun n => part (n + 1)) _ _ (h.add t k)
      rw [List.append_assoc] at this
      exact this
    | list => exact ih (fun n => pick (n + 1)) (fun n => part (n + 1)) _ _ (h.list S (pick 0) (part 0))

theorem inv_nil : Inv [] ({} : Keepers α) := ⟨List.nodup_nil, fun _ => rfl⟩

theorem keys_iff {l : List (Bytes × α)} {s : Keepers α} (h : Inv l s) (t : Bytes) : t ∈ s.keepers.keys ↔ t ∈ l.map Prod.fst := by
  rw [Map.mem_keys, h.get, first_isSome]

theorem run_cache (S : Sorter) (ops : List (Op α)) : ∀ (pick part : Nat → List Bytes → List Bytes) (l : List (Bytes × α)) (s : Keepers α),
    (∀ n k, (pick n k).Perm k) → Inv l s → [] ∉ (l ++ offered ops).map Prod.fst → CacheOk s → CacheOk (run S pick part s ops) := by
  induction ops with
  | nil => intro pick part l s _ _ _ h; exact h
  | cons op ops ih =>
    intro pick part l s hp hi he h
    cases op with
    | add t k =>
      refine ih _ _ (l ++ [(t, k)]) _ (fun n => hp (n + 1)) (hi.add t k) ?_ (h.add t k)
      rw [List.append_assoc]
      exact he
    | list =>
      refine ih _ _ l _ (fun n => hp (n + 1)) (hi.list _ _ _) he (h.list hi.nodup S _ _ (hp 0) ?_).1
      rw [keys_iff hi]
      intro hm
      exact he (by rw [List.map_append]; exact List.mem_append_left _ hm)

/-! ### The claims -/

/-- A registration is refused iff a keeper with the tag was offered before, whatever else happened. If it is refused it
changes nothing; else the keeper is registered from then on, and the others stay as they are. -/
theorem C45_once (S : Sorter) (pick part : Nat → List Bytes → List Bytes) (ops : List (Op α)) (t : Bytes) (k : α) :
    (((run S pick part {} ops).add t k).2 = true ↔ ∃ k', (t, k') ∈ offered ops) ∧
      (((run S pick part {} ops).add t k).2 = true → ((run S pick part {} ops).add t k).1 = run S pick part {} ops) ∧
      (((run S pick part {} ops).add t k).2 = false →
        ((run S pick part {} ops).add t k).1.get t = some k ∧
          ∀ t', t' ≠ t → ((run S pick part {} ops).add t k).1.get t' = (run S pick part {} ops).get t') := by
  have h := run_inv S ops pick part [] {} inv_nil
  rw [List.nil_append] at h
  have h1 : ((run S pick part {} ops).keepers.get t).isSome = true ↔ ∃ k', (t, k') ∈ offered ops := by
    rw [h.get, first_isSome, List.mem_map]
    constructor
    · rintro ⟨⟨t', k'⟩, hm, rfl⟩; exact ⟨k', hm⟩
    · rintro ⟨k', hm⟩; exact ⟨_, hm, rfl⟩
  unfold Keepers.add
  cases e : (run S pick part {} ops).keepers.get t with
  | some x =>
    rw [e] at h1
    exact ⟨⟨fun _ => h1.1 rfl, fun _ => rfl⟩, fun _ => rfl, fun hf => by cases hf⟩
  | none =>
    rw [e] at h1
    refine ⟨⟨fun hf => Bool.noConfusion hf, fun hf => Bool.noConfusion (h1.2 hf)⟩, fun hf => Bool.noConfusion hf, fun _ => ⟨?_, fun t' ht => ?_⟩⟩
    · simp only [Keepers.get, Map.get_set, if_true]
    · simp only [Keepers.get, Map.get_set, if_neg ht]

/-- The keeper found under a tag is the first one offered with it. -/
theorem C45_first (S : Sorter) (pick part : Nat → List Bytes → List Bytes) (ops : List (Op α)) (t : Bytes) :
    (run S pick part {} ops).get t = first t (offered ops) := by
  have h := run_inv S ops pick part [] {} inv_nil
  exact h.get t

/-- A listing at the end of a history, if no tag is empty: it does not panic, lists exactly the tags offered until then, each
once, tags beginning with `+` after the others and else in the order of bytes. -/
theorem C45_listing_partial {S : Sorter} {pick part : Nat → List Bytes → List Bytes} (hp : ∀ n l, (pick n l).Perm l)
    {pick' part' : List Bytes → List Bytes} (hp' : ∀ l, (pick' l).Perm l) (ops : List (Op α)) (he : ∀ k, ([], k) ∉ offered ops) :
    ∃ l, ((run S pick part {} ops).list S pick' part').2 = some l ∧ l.Nodup ∧ (∀ t, t ∈ l ↔ ∃ k, (t, k) ∈ offered ops) ∧
      l.Pairwise Before := by
  have hi := run_inv S ops pick part [] {} inv_nil
  rw [List.nil_append] at hi
  have hm : ∀ t, t ∈ (offered ops).map Prod.fst ↔ ∃ k, (t, k) ∈ offered ops := by
    intro t
    rw [List.mem_map]
    constructor
    · rintro ⟨⟨t', k'⟩, hm, rfl⟩; exact ⟨k', hm⟩
    · rintro ⟨k', hm⟩; exact ⟨_, hm, rfl⟩
  have hne : [] ∉ (offered ops).map Prod.fst := by
    rw [hm]
    rintro ⟨k, hk⟩
    exact he k hk
  have hc := run_cache S ops pick part [] {} hp inv_nil (by rw [List.nil_append]; exact hne) (by intro l hl; cases hl)
  obtain ⟨_, l, e, h1, h2⟩ := hc.list hi.nodup S pick' part' hp' (by rw [keys_iff hi]; exact hne)
  refine ⟨l, e, ?_, fun t => by rw [h2, keys_iff hi, hm], h1⟩
  exact h1.imp fun {a b} hab hEq => by subst hEq; exact not_both hab hab

/-- The listing is determined by what was offered: neither the order of the map, nor the way of sorting, nor earlier listings
make a difference. -/
theorem C45_determined_partial {S S' : Sorter} {pick part pick2 part2 : Nat → List Bytes → List Bytes} (hp : ∀ n l, (pick n l).Perm l)
    (hp2 : ∀ n l, (pick2 n l).Perm l) {pick' part' pick2' part2' : List Bytes → List Bytes} (hp' : ∀ l, (pick' l).Perm l)
    (hp2' : ∀ l, (pick2' l).Perm l) (ops ops2 : List (Op α)) (he : ∀ k, ([], k) ∉ offered ops)
    (hs : ∀ t, (∃ k, (t, k) ∈ offered ops) ↔ ∃ k, (t, k) ∈ offered ops2) :
    ((run S pick part {} ops).list S pick' part').2 = ((run S' pick2 part2 {} ops2).list S' pick2' part2').2 := by
  have he2 : ∀ k, ([], k) ∉ offered ops2 := by
    intro k hk
    obtain ⟨k', hk'⟩ := (hs []).2 ⟨k, hk⟩
    exact he k' hk'
  obtain ⟨l1, e1, n1, m1, o1⟩ := C45_listing_partial (S := S) (part := part) (part' := part') hp hp' ops he
  obtain ⟨l2, e2, n2, m2, o2⟩ := C45_listing_partial (S := S') (part := part2) (part' := part2') hp2 hp2' ops2 he2
  rw [e1, e2]
  have hperm : l1.Perm l2 := (List.perm_ext_iff_of_nodup n1 n2).2 fun t => by rw [m1, m2, hs]
  congr 1
  exact hperm.eq_of_pairwise (fun a b _ _ h1 h2 => absurd h2 (not_both h1)) o1 o2

/-- A history with a listing between registrations, and a second registration of a tag. -/
def someOps : List (Op Nat) := [.add b!"Size" 1, .add b!"+Z" 2, .list, .add b!"Default" 3, .add b!"Size" 4, .add b!"+A" 5, .list]

example : ((run someSorter (fun _ => List.reverse) (fun _ => id) {} someOps).list someSorter id id).2 = some [b!"Default", b!"Size", b!"+A", b!"+Z"] ∧
    ((run someSorter (fun _ => List.reverse) (fun _ => id) {} someOps).add b!"Size" 4).2 = true ∧
    (run someSorter (fun _ => List.reverse) (fun _ => id) {} someOps).get b!"Size" = some 1 := by decide +kernel

/-- If the empty tag and another are registered and not yet listed, listing panics; and
the next listing returns the tags in whatever order sorting has left them. -/
theorem C45_empty_tag_panics (S : Sorter) (pick part : List Bytes → List Bytes) (hp : ∀ l, (pick l).Perm l) (s : Keepers α)
    (h1 : s.tags = none) (h2 : [] ∈ s.keepers.keys) (h3 : ∃ t ∈ s.keepers.keys, t ≠ []) :
    (s.list S pick part).2 = none ∧
      ∀ pick' part', ((s.list S pick part).1.list S pick' part').2 = some (part (pick s.keepers.keys)) := by
  have hc : tagsPanic (pick s.keepers.keys) = true := by
    unfold tagsPanic
    rw [Bool.and_eq_true, List.contains_iff_mem, (hp _).mem_iff, decide_eq_true_eq, (hp _).length_eq]
    refine ⟨?_, h2⟩
    obtain ⟨t, ht, hne⟩ := h3
    match hk : s.keepers.keys, h2, ht with
    | [x], h2, ht =>
      rw [List.mem_singleton] at h2 ht
      exact absurd (ht.trans h2.symm) hne
    | _ :: _ :: _, _, _ => simp
  have e : s.list S pick part = ({ s with tags := some (part (pick s.keepers.keys)) }, none) := by
    unfold Keepers.list
    simp only [h1, hc, if_true]
  rw [e]
  exact ⟨rfl, fun _ _ => rfl⟩

example : ((run someSorter (fun _ => id) (fun _ => id) {} [.add b!"b" 1, .add [] 2, .add b!"a" 3]).list someSorter id id).2 = none ∧
    ((run someSorter (fun _ => id) (fun _ => id) {} [.add b!"b" 1, .add [] 2, .add b!"a" 3, .list]).list someSorter id id).2 =
      some [b!"b", [], b!"a"] := by decide +kernel

/-- So the claim needs tags that are not empty. -/
def C45_statement : Prop := ∀ (S : Sorter) (pick part : Nat → List Bytes → List Bytes) (pick' part' : List Bytes → List Bytes)
  (ops : List (Op Nat)), (∀ n l, (pick n l).Perm l) → (∀ n l, (part n l).Perm l) → (∀ l, (pick' l).Perm l) → (∀ l, (part' l).Perm l) →
    ∃ l, ((run S pick part {} ops).list S pick' part').2 = some l ∧ l.Pairwise Before

theorem C45_fails : ¬ C45_statement := by
  intro h
  obtain ⟨l, e, _⟩ := h someSorter (fun _ => id) (fun _ => id) id id [.add b!"b" 1, .add [] 2] (fun _ l => .refl l) (fun _ l => .refl l)
    (fun l => .refl l) (fun l => .refl l)
  have : ((run someSorter (fun _ => id) (fun _ => id) {} ([.add b!"b" 1, .add [] 2] : List (Op Nat))).list someSorter id id).2 = none := by
    decide +kernel
  rw [this] at e
  cases e

theorem addAll_eq (l : List (Bytes × α)) : ∀ s : Keepers α, (l.map Prod.fst).Nodup → (∀ t ∈ l.map Prod.fst, s.keepers.get t = none) →
    ∀ (S : Sorter) (pick part : Nat → List Bytes → List Bytes), s.addAll l = (run S pick part s (l.map fun e => .add e.1 e.2), false) := by
  induction l with
  | nil => intro s _ _ S pick part; rfl
  | cons e l ih =>
    intro s hn hg S pick part
    obtain ⟨t, k⟩ := e
    simp only [List.map_cons, List.nodup_cons] at hn
    have hadd : s.add t k = ({ keepers := s.keepers.set t k, tags := none }, false) := by
      unfold Keepers.add
      rw [hg t (by simp)]
    rw [Keepers.addAll, hadd, List.map_cons, run, hadd]
    refine ih _ hn.2 ?_ S _ _
    intro t' ht'
    simp only
    rw [Map.get_set, if_neg, hg t' (by simp [ht'])]
    rintro rfl
    exact hn.1 ht'

theorem offered_adds (l : List (Bytes × α)) : offered (l.map fun e => Op.add e.1 e.2) = l := by
  induction l with
  | nil => rfl
  | cons e l ih => rw [List.map_cons, offered, ih]

/-- The keepers of the program: registering them succeeds, the listing is this one, whatever the order of
the map; and to register them again is an error. -/
theorem C45_configured (S : Sorter) (pick part : List Bytes → List Bytes) (hp : ∀ l, (pick l).Perm l) (d s r u z : α) :
    let all := [(b!"Default", d), (b!"Simple", s), (b!"+ReplAttr", r), (b!"+Dedup", u), (b!"Size", z)]
    all.map Prod.fst = configuredTags ∧ (({} : Keepers α).addAll all).2 = false ∧
      ((({} : Keepers α).addAll all).1.list S pick part).2 = some [b!"Default", b!"Simple", b!"Size", b!"+Dedup", b!"+ReplAttr"] ∧
      ((({} : Keepers α).addAll all).1.addAll all).2 = true := by
  intro all
  refine ⟨rfl, rfl, ?_, rfl⟩
  have e := addAll_eq all {} (show configuredTags.Nodup by decide +kernel) (by intro t _; rfl) S (fun _ => id) (fun _ => id)
  rw [e]
  have ho : offered (all.map fun e => Op.add e.1 e.2) = all := offered_adds all
  obtain ⟨l, e1, n1, m1, o1⟩ := C45_listing_partial (S := S) (pick := fun _ => id) (part := fun _ => id) (part' := part) (fun _ l => .refl l) hp
    (all.map fun e => Op.add e.1 e.2) (by
      rw [ho]
      intro k hk
      simp only [all, List.mem_cons, Prod.mk.injEq, List.not_mem_nil, or_false] at hk
      simp at hk)
  rw [e1]
  congr 1
  have hsp : ([b!"Default", b!"Simple", b!"Size", b!"+Dedup", b!"+ReplAttr"] : List Bytes).Pairwise Before := by
    have : ([b!"Default", b!"Simple", b!"Size", b!"+Dedup", b!"+ReplAttr"] : List Bytes).Pairwise fun a b => tagLess a b = true := by
      decide +kernel
    exact this.imp fun {a b} h => (tagLess_iff a b).1 h
  refine List.Perm.eq_of_pairwise (fun a b _ _ h1 h2 => absurd h2 (not_both h1)) o1 hsp ?_
  refine (List.perm_ext_iff_of_nodup n1 (by decide +kernel)).2 fun t => ?_
  rw [m1, ho]
  simp only [all, List.mem_cons, Prod.mk.injEq, List.not_mem_nil, or_false]
  constructor
  · rintro ⟨k, h⟩; tauto
  · rintro (h | h | h | h | h)
    · exact ⟨d, by simp [h]⟩
    · exact ⟨s, by simp [h]⟩
    · exact ⟨z, by simp [h]⟩
    · exact ⟨u, by simp [h]⟩
    · exact ⟨r, by simp [h]⟩

end Verif.Props.Keeper
