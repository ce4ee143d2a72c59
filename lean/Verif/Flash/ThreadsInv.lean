import Verif.Flash.Threads
import Verif.Flash.Heap

/-
Invariants of the goroutine model.
-/

set_option linter.unusedSimpArgs false

namespace Verif.Flash
open Heap

/-- The buffer variable of a running call. -/
def Phase.orig : Phase → Option Slice
  | .idle => none
  | .buf o => some o
  | .comp o _ _ => some o
  | .write o _ _ => some o
  | .free o _ => some o
  | .put o => some o

/-- The composer of a running call. -/
def Phase.compId : Phase → Option Nat
  | .comp _ c _ => some c
  | .write _ c _ => some c
  | .free _ c => some c
  | _ => none

/-- The composer of a running call that will still be used. -/
def Phase.active : Phase → Option Nat
  | .comp _ c _ => some c
  | .write _ c _ => some c
  | _ => none

theorem Phase.active_comp {p : Phase} {c} (h : p.active = some c) : p.compId = some c := by
  cases p <;> simp_all [Phase.active, Phase.compId]

/-- Goroutine `t` uses array `a`. -/
def World.owns (s : World) (t a : Nat) : Prop :=
  (∃ o, (s.threads t).phase.orig = some o ∧ o.arr = a) ∨
  (∃ c, (s.threads t).phase.active = some c ∧ (s.cur c).arr = a)

/-- Nobody shares arrays or composers. -/
structure Sep (s : World) : Prop where
  bufs : ∀ o ∈ s.bufs, o.arr < s.M.length
  bufsNodup : (s.bufs.map Slice.arr).Nodup
  comps : ∀ c ∈ s.comps, c < s.C.length
  compsNodup : s.comps.Nodup
  known : ∀ t a, s.owns t a → a < s.M.length
  comp : ∀ t c, (s.threads t).phase.compId = some c → c < s.C.length
  origLen : ∀ t o, (s.threads t).phase.orig = some o → o.len = 0
  curValid : ∀ t c, (s.threads t).phase.active = some c → Valid s.M (s.cur c)
  disj : ∀ t u a, t ≠ u → s.owns t a → ¬ s.owns u a
  pool : ∀ t a, s.owns t a → a ∉ s.bufs.map Slice.arr
  compDisj : ∀ t u c, t ≠ u → (s.threads t).phase.compId = some c →
    (s.threads u).phase.compId ≠ some c
  compPool : ∀ t c, (s.threads t).phase.compId = some c → c ∉ s.comps

theorem mem_erase_arr {l : List Slice} {i : Nat} {o : Slice} (hi : l[i]? = some o)
    (hn : (l.map Slice.arr).Nodup) : o.arr ∉ (l.eraseIdx i).map Slice.arr ∧
      ((l.eraseIdx i).map Slice.arr).Nodup ∧
      ∀ a, a ∈ (l.eraseIdx i).map Slice.arr → a ∈ l.map Slice.arr := by
  induction l generalizing i with
  | nil => simp at hi
  | cons x l ih =>
    simp only [List.map_cons, List.nodup_cons] at hn
    cases i with
    | zero =>
      simp at hi; subst hi
      simp only [List.eraseIdx_cons_zero, List.map_cons]
      exact ⟨hn.1, hn.2, fun a h => List.mem_cons_of_mem _ h⟩
    | succ i =>
      simp at hi
      obtain ⟨h1, h2, h3⟩ := ih hi hn.2
      simp only [List.eraseIdx_cons_succ, List.map_cons, List.mem_cons, List.nodup_cons, not_or]
      refine ⟨⟨?_, h1⟩, ⟨fun h => hn.1 (h3 _ h), h2⟩, ?_⟩
      · intro e
        apply hn.1
        rw [← e]
        exact List.mem_map_of_mem (List.mem_of_getElem? hi)
      · rintro a (h | h)
        · exact .inl h
        · exact .inr (h3 a h)

theorem mem_erase_nat {l : List Nat} {i : Nat} {o : Nat} (hi : l[i]? = some o)
    (hn : l.Nodup) : o ∉ l.eraseIdx i ∧ (l.eraseIdx i).Nodup ∧ ∀ a, a ∈ l.eraseIdx i → a ∈ l := by
  induction l generalizing i with
  | nil => simp at hi
  | cons x l ih =>
    simp only [List.nodup_cons] at hn
    cases i with
    | zero =>
      simp at hi; subst hi
      simp only [List.eraseIdx_cons_zero]
      exact ⟨hn.1, hn.2, fun a h => List.mem_cons_of_mem _ h⟩
    | succ i =>
      simp at hi
      obtain ⟨h1, h2, h3⟩ := ih hi hn.2
      simp only [List.eraseIdx_cons_succ, List.mem_cons, List.nodup_cons, not_or]
      refine ⟨⟨?_, h1⟩, ⟨fun h => hn.1 (h3 _ h), h2⟩, ?_⟩
      · rintro rfl; exact hn.1 (List.mem_of_getElem? hi)
      · rintro a (h | h)
        · exact .inl h
        · exact .inr (h3 a h)

@[simp] theorem go_self (s : World) (t p) : ((s.go t p).threads t) = { s.threads t with phase := p } := by
  simp [World.go]
@[simp] theorem go_other (s : World) {t u} (p) (h : u ≠ t) : (s.go t p).threads u = s.threads u := by
  simp [World.go, h]
@[simp] theorem ret_other (s : World) {t u} (c r p) (h : u ≠ t) : (s.ret t c r p).threads u = s.threads u := by
  simp [World.ret, h]
@[simp] theorem ret_phase (s : World) (t c r p) : ((s.ret t c r p).threads t).phase = p := by
  simp [World.ret]

/-- Only one goroutine moves. -/
theorem step_other (grow) (s : World) (ch : Choice) {u} (h : u ≠ ch.thread) :
    (s.step grow ch).threads u = s.threads u := by
  unfold World.step
  simp only
  split
  · rfl
  split
  · unfold World.getBuf; split <;> simp [h]
  · unfold World.getComp; split <;> simp [h]
  · simp [h]
  · split
    · split <;> simp [h]
    · simp [h]
  · split
    · simp [World.endWrite, h]
    · split <;> simp [World.endWrite, h]
  · simp [h]
  · simp [h]

/-- Ownership of the goroutines that did not move. -/
theorem owns_other {s s' : World} {t : Nat} (hth : ∀ u, u ≠ t → s'.threads u = s.threads u)
    (hC : ∀ c, (∃ u, u ≠ t ∧ (s.threads u).phase.compId = some c) → s'.cur c = s.cur c)
    {u a : Nat} (hu : u ≠ t) : s'.owns u a ↔ s.owns u a := by
  unfold World.owns
  rw [hth u hu]
  constructor
  · rintro (h | ⟨c, h1, h2⟩)
    · exact .inl h
    · exact .inr ⟨c, h1, by rw [← hC c ⟨u, hu, Phase.active_comp h1⟩]; exact h2⟩
  · rintro (h | ⟨c, h1, h2⟩)
    · exact .inl h
    · exact .inr ⟨c, h1, by rw [hC c ⟨u, hu, Phase.active_comp h1⟩]; exact h2⟩

/-- A scheme for all steps: goroutine `t` moves; what has to be checked. -/
theorem Sep.move {s s' : World} (sep : Sep s) (t : Nat)
    (hth : ∀ u, u ≠ t → s'.threads u = s.threads u)
    (hC : ∀ c, (∃ u, u ≠ t ∧ (s.threads u).phase.compId = some c) → s'.cur c = s.cur c)
    (hCl : s.C.length ≤ s'.C.length) (hMl : s.M.length ≤ s'.M.length)
    (hM : ∀ i, (s.M.array i).length ≤ (s'.M.array i).length)
    (bufs : ∀ o ∈ s'.bufs, o.arr < s'.M.length)
    (bufsNodup : (s'.bufs.map Slice.arr).Nodup)
    (comps : ∀ c ∈ s'.comps, c < s'.C.length)
    (compsNodup : s'.comps.Nodup)
    (known : ∀ a, s'.owns t a → a < s'.M.length)
    (comp : ∀ c, (s'.threads t).phase.compId = some c → c < s'.C.length)
    (origLen : ∀ o, (s'.threads t).phase.orig = some o → o.len = 0)
    (curValid : ∀ c, (s'.threads t).phase.active = some c → Valid s'.M (s'.cur c))
    (owned : ∀ a, s'.owns t a → s.owns t a ∨ a ∈ s.bufs.map Slice.arr ∨ s.M.length ≤ a)
    (pool : ∀ a, s'.owns t a → a ∉ s'.bufs.map Slice.arr)
    (poolOld : ∀ a, a ∈ s'.bufs.map Slice.arr → a ∈ s.bufs.map Slice.arr ∨ s.owns t a)
    (compOwned : ∀ c, (s'.threads t).phase.compId = some c →
      (s.threads t).phase.compId = some c ∨ c ∈ s.comps ∨ s.C.length ≤ c)
    (compPool : ∀ c, (s'.threads t).phase.compId = some c → c ∉ s'.comps)
    (compPoolOld : ∀ c ∈ s'.comps, c ∈ s.comps ∨ (s.threads t).phase.compId = some c) :
    Sep s' := by
  have oth : ∀ {u a : Nat}, u ≠ t → (s'.owns u a ↔ s.owns u a) := fun hu => owns_other hth hC hu
  have clash : ∀ u a, u ≠ t → s.owns u a → ¬ s'.owns t a := by
    intro u a hu ho ht
    rcases owned a ht with h | h | h
    · exact sep.disj u t a hu ho h
    · exact sep.pool u a ho h
    · have := sep.known u a ho; omega
  have cclash : ∀ u c, u ≠ t → (s.threads u).phase.compId = some c →
      (s'.threads t).phase.compId ≠ some c := by
    intro u c hu ho ht
    rcases compOwned c ht with h | h | h
    · exact sep.compDisj u t c hu ho h
    · exact sep.compPool u c ho h
    · have := sep.comp u c ho; omega
  refine ⟨bufs, bufsNodup, comps, compsNodup, ?_, ?_, ?_, ?_, ?_, ?_, ?_, ?_⟩
  · intro u a h
    by_cases hu : u = t
    · subst hu; exact known a h
    · exact Nat.lt_of_lt_of_le (sep.known u a ((oth hu).1 h)) hMl
  · intro u c h
    by_cases hu : u = t
    · subst hu; exact comp c h
    · rw [hth u hu] at h
      exact Nat.lt_of_lt_of_le (sep.comp u c h) hCl
  · intro u o h
    by_cases hu : u = t
    · subst hu; exact origLen o h
    · rw [hth u hu] at h; exact sep.origLen u o h
  · intro u c h
    by_cases hu : u = t
    · subst hu; exact curValid c h
    · rw [hth u hu] at h
      rw [hC c ⟨u, hu, Phase.active_comp h⟩]
      have v := sep.curValid u c h
      exact ⟨v.cap, Nat.le_trans v.stored (hM _), fun h => Nat.lt_of_lt_of_le (v.known h) hMl⟩
  · intro u v a huv h1 h2
    by_cases hu : u = t
    · subst hu
      exact clash v a (Ne.symm huv) ((oth (Ne.symm huv)).1 h2) h1
    · by_cases hv : v = t
      · subst hv
        exact clash u a hu ((oth hu).1 h1) h2
      · exact sep.disj u v a huv ((oth hu).1 h1) ((oth hv).1 h2)
  · intro u a h
    by_cases hu : u = t
    · subst hu; exact pool a h
    · intro hm
      rcases poolOld a hm with h' | h'
      · exact sep.pool u a ((oth hu).1 h) h'
      · exact sep.disj u t a hu ((oth hu).1 h) h'
  · intro u v c huv h1 h2
    by_cases hu : u = t
    · subst hu
      rw [hth v (Ne.symm huv)] at h2
      exact cclash v c (Ne.symm huv) h2 h1
    · rw [hth u hu] at h1
      by_cases hv : v = t
      · subst hv; exact cclash u c hu h1 h2
      · rw [hth v hv] at h2; exact sep.compDisj u v c huv h1 h2
  · intro u c h
    by_cases hu : u = t
    · subst hu; exact compPool c h
    · rw [hth u hu] at h
      intro hm
      rcases compPoolOld c hm with h' | h'
      · exact sep.compPool u c h h'
      · exact sep.compDisj u t c hu h h'

theorem cur_set_ne (s : World) {c d : Nat} (x : Slice) (h : d ≠ c) :
    ({ s with C := s.C.set c x } : World).cur d = s.cur d := by
  simp [World.cur, List.getElem?_set_ne (Ne.symm h)]

theorem cur_set_eq (s : World) {c : Nat} (x : Slice) (h : c < s.C.length) :
    ({ s with C := s.C.set c x } : World).cur c = x := by
  simp [World.cur, h]

/-- Appending to a slice nobody else reaches, as far as arrays are concerned. -/
theorem append_arrays {grow : Nat → Nat → Nat} {m : Mem α} {s : Slice} (xs : List α) {i : Nat}
    (hi : i ≠ s.arr) (hk : i < m.length) : (m.append grow s xs).1.array i = m.array i := by
  unfold Mem.append
  split
  · exact array_set_ne (Ne.symm hi) _
  · exact array_append_old hk _

/-- Only the phase of `t` changes, giving up nothing but what is dropped. -/
theorem Sep.step {grow : Nat → Nat → Nat} (hg : ∀ c n, n ≤ grow c n) {s : World} (sep : Sep s)
    (ch : Choice) : Sep (s.step grow ch) := by
  have hth : ∀ u, u ≠ ch.thread → (s.step grow ch).threads u = s.threads u :=
    fun u hu => step_other grow s ch hu
  revert hth
  unfold World.step
  simp only
  generalize ht : ch.thread = t
  split
  · intro _; exact sep
  rename_i call rest hcalls
  split
  · -- logPool.get
    rename_i hph
    unfold World.getBuf
    split
    · rename_i o ho
      intro hth
      obtain ⟨e1, e2, e3⟩ := mem_erase_arr ho sep.bufsNodup
      have hmem := List.mem_of_getElem? ho
      refine sep.move t hth (fun c _ => rfl) (Nat.le_refl _) (Nat.le_refl _) (fun _ => Nat.le_refl _)
        ?_ e2 sep.comps sep.compsNodup ?_ ?_ ?_ ?_ ?_ ?_ ?_ ?_ ?_ ?_
      · intro x hx; exact sep.bufs x (List.mem_of_mem_eraseIdx hx)
      · rintro a (⟨x, h1, h2⟩ | ⟨c, h1, _⟩)
        · simp [Phase.orig] at h1; subst h1; subst h2; exact sep.bufs o hmem
        · simp [Phase.active] at h1
      · intro c h; simp [Phase.compId] at h
      · intro x h; simp [Phase.orig] at h; subst h; rfl
      · intro c h; simp [Phase.active] at h
      · rintro a (⟨x, h1, h2⟩ | ⟨c, h1, _⟩)
        · simp [Phase.orig] at h1; subst h1; subst h2
          exact .inr (.inl (List.mem_map.2 ⟨o, hmem, rfl⟩))
        · simp [Phase.active] at h1
      · rintro a (⟨x, h1, h2⟩ | ⟨c, h1, _⟩)
        · simp [Phase.orig] at h1; subst h1; subst h2; exact e1
        · simp [Phase.active] at h1
      · intro a h; exact .inl (e3 a h)
      · intro c h; simp [Phase.compId] at h
      · intro c h; simp [Phase.compId] at h
      · intro c h; exact .inl h
    · intro hth
      refine sep.move t hth (fun c _ => rfl) (Nat.le_refl _) (alloc_keeps s.M 1024 (fun _ => True)).longer
        (alloc_keeps s.M 1024 (fun _ => True)).stored
        ?_ sep.bufsNodup sep.comps sep.compsNodup ?_ ?_ ?_ ?_ ?_ ?_ ?_ ?_ ?_ ?_
      · intro x hx
        have := sep.bufs x hx
        simp [World.go, Mem.alloc]; omega
      · rintro a (⟨x, h1, h2⟩ | ⟨c, h1, _⟩)
        · simp [Phase.orig, Mem.alloc] at h1; subst h1; subst h2; simp [World.go, Mem.alloc]
        · simp [Phase.active] at h1
      · intro c h; simp [Phase.compId] at h
      · intro x h; simp [Phase.orig, Mem.alloc] at h; subst h; rfl
      · intro c h; simp [Phase.active] at h
      · rintro a (⟨x, h1, h2⟩ | ⟨c, h1, _⟩)
        · simp [Phase.orig, Mem.alloc] at h1; subst h1; subst h2; exact .inr (.inr (Nat.le_refl _))
        · simp [Phase.active] at h1
      · rintro a (⟨x, h1, h2⟩ | ⟨c, h1, _⟩)
        · simp [Phase.orig, Mem.alloc] at h1; subst h1; subst h2
          intro hm
          simp only [World.go] at hm
          obtain ⟨y, hy, e⟩ := List.mem_map.1 hm
          have := sep.bufs y hy
          omega
        · simp [Phase.active] at h1
      · intro a h; exact .inl h
      · intro c h; simp [Phase.compId] at h
      · intro c h; simp [Phase.compId] at h
      · intro c h; exact .inl h
  · -- newComposer
    rename_i o hph
    have horig : (s.threads t).phase.orig = some o := by rw [hph]; rfl
    have how : s.owns t o.arr := .inl ⟨o, horig, rfl⟩
    unfold World.getComp
    split
    · rename_i c hc
      intro hth
      obtain ⟨e1, e2, e3⟩ := mem_erase_nat hc sep.compsNodup
      have hmem := List.mem_of_getElem? hc
      have hcl := sep.comps c hmem
      have hcur : (({ s with comps := s.comps.eraseIdx ch.pick, C := s.C.set c o } : World).go t
          (.comp o c call.chunks)).cur c = o := by
        simp [World.cur, World.go, hcl]
      refine sep.move t hth ?_ (by simp [World.go]) (Nat.le_refl _) (fun _ => Nat.le_refl _)
        sep.bufs sep.bufsNodup ?_ e2 ?_ ?_ ?_ ?_ ?_ ?_ ?_ ?_ ?_ ?_
      · rintro d ⟨u, hu, hd⟩
        have : d ≠ c := by rintro rfl; exact sep.compPool u d hd hmem
        simp [World.cur, World.go, List.getElem?_set_ne (Ne.symm this)]
      · intro x hx
        have := sep.comps x (e3 x hx)
        simpa [World.go] using this
      · rintro a (⟨x, h1, h2⟩ | ⟨d, h1, h2⟩)
        · simp [Phase.orig] at h1; subst h1; subst h2; exact sep.known t _ how
        · simp [Phase.active] at h1; subst h1; rw [hcur] at h2; subst h2; exact sep.known t _ how
      · intro d h; simp [Phase.compId] at h; subst h; simpa [World.go] using hcl
      · intro x h; simp [Phase.orig] at h; subst h; exact sep.origLen t _ horig
      · intro d h
        simp [Phase.active] at h; subst h
        rw [hcur]
        have h0 := sep.origLen t _ horig
        exact ⟨by omega, by omega, fun _ => sep.known t _ how⟩
      · rintro a (⟨x, h1, h2⟩ | ⟨d, h1, h2⟩)
        · simp [Phase.orig] at h1; subst h1; subst h2; exact .inl how
        · simp [Phase.active] at h1; subst h1; rw [hcur] at h2; subst h2; exact .inl how
      · rintro a (⟨x, h1, h2⟩ | ⟨d, h1, h2⟩)
        · simp [Phase.orig] at h1; subst h1; subst h2; exact sep.pool t _ how
        · simp [Phase.active] at h1; subst h1; rw [hcur] at h2; subst h2; exact sep.pool t _ how
      · intro a h; exact .inl h
      · intro d h; simp [Phase.compId] at h; subst h; exact .inr (.inl hmem)
      · intro d h; simp [Phase.compId] at h; subst h; exact e1
      · intro d h; exact .inl (e3 d h)
    · intro hth
      have hcur : (({ s with C := s.C ++ [o] } : World).go t
          (.comp o s.C.length call.chunks)).cur s.C.length = o := by
        simp [World.cur, World.go]
      refine sep.move t hth ?_ (by simp [World.go]) (Nat.le_refl _) (fun _ => Nat.le_refl _)
        sep.bufs sep.bufsNodup ?_ sep.compsNodup ?_ ?_ ?_ ?_ ?_ ?_ ?_ ?_ ?_ ?_
      · rintro d ⟨u, hu, hd⟩
        have := sep.comp u d hd
        simp [World.cur, World.go, List.getElem?_append_left this]
      · intro x hx
        have := sep.comps x hx
        simp [World.go]; omega
      · rintro a (⟨x, h1, h2⟩ | ⟨d, h1, h2⟩)
        · simp [Phase.orig] at h1; subst h1; subst h2; exact sep.known t _ how
        · simp [Phase.active] at h1; subst h1; rw [hcur] at h2; subst h2; exact sep.known t _ how
      · intro d h; simp [Phase.compId] at h; subst h; simp [World.go]
      · intro x h; simp [Phase.orig] at h; subst h; exact sep.origLen t _ horig
      · intro d h
        simp [Phase.active] at h; subst h
        rw [hcur]
        have h0 := sep.origLen t _ horig
        exact ⟨by omega, by omega, fun _ => sep.known t _ how⟩
      · rintro a (⟨x, h1, h2⟩ | ⟨d, h1, h2⟩)
        · simp [Phase.orig] at h1; subst h1; subst h2; exact .inl how
        · simp [Phase.active] at h1; subst h1; rw [hcur] at h2; subst h2; exact .inl how
      · rintro a (⟨x, h1, h2⟩ | ⟨d, h1, h2⟩)
        · simp [Phase.orig] at h1; subst h1; subst h2; exact sep.pool t _ how
        · simp [Phase.active] at h1; subst h1; rw [hcur] at h2; subst h2; exact sep.pool t _ how
      · intro a h; exact .inl h
      · intro d h; simp [Phase.compId] at h; subst h; exact .inr (.inr (Nat.le_refl _))
      · intro d h; simp [Phase.compId] at h; subst h
        intro hm
        have := sep.comps _ hm
        omega
      · intro d h; exact .inl h
  · -- one append
    rename_i o c x todo hph
    intro hth
    have horig : (s.threads t).phase.orig = some o := by rw [hph]; rfl
    have hact : (s.threads t).phase.active = some c := by rw [hph]; rfl
    have hcomp := Phase.active_comp hact
    have how : s.owns t o.arr := .inl ⟨o, horig, rfl⟩
    have how2 : s.owns t (s.cur c).arr := .inr ⟨c, hact, rfl⟩
    have hcl := sep.comp t c hcomp
    obtain ⟨v, rd, k, l, f⟩ := append_spec hg (sep.curValid t c hact) x
    have hcur : (({ s with M := (s.M.append grow (s.cur c) x).1, C := s.C.set c (s.M.append grow (s.cur c) x).2 } : World).go t
          (.comp o c todo)).cur c = (s.M.append grow (s.cur c) x).2 := by
      simp [World.cur, World.go, hcl]
    have harr : s.owns t (s.M.append grow (s.cur c) x).2.arr ∨ s.M.length ≤ (s.M.append grow (s.cur c) x).2.arr := by
      rcases f.2 with ⟨e, _⟩ | e
      · rw [e]; exact .inl how2
      · exact .inr e
    have hknown : (s.M.append grow (s.cur c) x).2.arr < (s.M.append grow (s.cur c) x).1.length := by
      rcases f.2 with ⟨e, _⟩ | e
      · rw [e]; exact Nat.lt_of_lt_of_le (sep.known t _ how2) k.longer
      · by_cases hle : (s.cur c).len + x.length ≤ (s.cur c).cap
        · have : (s.M.append grow (s.cur c) x).2.arr = (s.cur c).arr := by
            unfold Mem.append; rw [if_pos hle]
          rw [this] at e
          have := sep.known t _ how2
          omega
        · unfold Mem.append; rw [if_neg hle]; simp
    refine sep.move t hth ?_ (by simp [World.go]) k.longer k.stored
      (fun x hx => Nat.lt_of_lt_of_le (sep.bufs x hx) k.longer) sep.bufsNodup
      (fun d hd => by have := sep.comps d hd; simpa [World.go] using this) sep.compsNodup ?_ ?_ ?_ ?_ ?_ ?_ ?_ ?_ ?_ ?_
    · rintro d ⟨u, hu, hd⟩
      have : d ≠ c := by rintro rfl; exact sep.compDisj u t d hu hd hcomp
      simp [World.cur, World.go, List.getElem?_set_ne (Ne.symm this)]
    · rintro a (⟨x, h1, h2⟩ | ⟨d, h1, h2⟩)
      · simp [Phase.orig] at h1; subst h1; subst h2
        exact Nat.lt_of_lt_of_le (sep.known t _ how) k.longer
      · simp [Phase.active] at h1; subst h1; rw [hcur] at h2; subst h2; exact hknown
    · intro d h; simp [Phase.compId] at h; subst h; simpa [World.go] using hcl
    · intro x h; simp [Phase.orig] at h; subst h; exact sep.origLen t _ horig
    · intro d h; simp [Phase.active] at h; subst h; rw [hcur]; exact v
    · rintro a (⟨x, h1, h2⟩ | ⟨d, h1, h2⟩)
      · simp [Phase.orig] at h1; subst h1; subst h2; exact .inl how
      · simp [Phase.active] at h1; subst h1; rw [hcur] at h2; subst h2
        rcases harr with h | h
        · exact .inl h
        · exact .inr (.inr h)
    · rintro a (⟨x, h1, h2⟩ | ⟨d, h1, h2⟩)
      · simp [Phase.orig] at h1; subst h1; subst h2; exact sep.pool t _ how
      · simp [Phase.active] at h1; subst h1; rw [hcur] at h2; subst h2
        rcases harr with h | h
        · exact sep.pool t _ h
        · intro hm
          obtain ⟨y, hy, e⟩ := List.mem_map.1 hm
          have := sep.bufs y hy
          omega
    · intro a h; exact .inl h
    · intro d h; simp [Phase.compId] at h; subst h; exact .inl hcomp
    · intro d h; simp [Phase.compId] at h; subst h; exact sep.compPool t _ hcomp
    · intro d h; exact .inl h
  all_goals
    -- nothing but the phase (and the pools) changes
    rename_i hph
  · rename_i o c
    have horig : (s.threads t).phase.orig = some o := by rw [hph]; rfl
    have hact : (s.threads t).phase.active = some c := by rw [hph]; rfl
    have key : ∀ s' : World, (∀ u, u ≠ t → s'.threads u = s.threads u) → s'.M = s.M → s'.C = s.C →
        s'.bufs = s.bufs → s'.comps = s.comps →
        ((s'.threads t).phase = .write o c 0 ∨ (s'.threads t).phase = .free o c) → Sep s' := by
      intro s' hth hM hC hb hc hp
      have hcur : ∀ d, s'.cur d = s.cur d := fun d => by simp [World.cur, hC]
      have hsub : ∀ a, s'.owns t a → s.owns t a := by
        rintro a (⟨x, h1, h2⟩ | ⟨d, h1, h2⟩)
        · rcases hp with hp | hp <;> rw [hp] at h1 <;> simp [Phase.orig] at h1 <;> subst h1 <;>
            exact .inl ⟨_, horig, h2⟩
        · rcases hp with hp | hp <;> rw [hp] at h1 <;> simp [Phase.active] at h1
          subst h1; rw [hcur] at h2; exact .inr ⟨_, hact, h2⟩
      have hcomp : ∀ d, (s'.threads t).phase.compId = some d → (s.threads t).phase.compId = some d := by
        intro d h
        rcases hp with hp | hp <;> rw [hp] at h <;> simp [Phase.compId] at h <;> subst h <;>
          exact Phase.active_comp hact
      refine sep.move t hth (fun d _ => hcur d) (by rw [hC]; exact Nat.le_refl _) (by rw [hM]; exact Nat.le_refl _)
        (fun i => by rw [hM]; exact Nat.le_refl _) (by rw [hb, hM]; exact sep.bufs) (by rw [hb]; exact sep.bufsNodup)
        (by rw [hc, hC]; exact sep.comps) (by rw [hc]; exact sep.compsNodup) ?_ ?_ ?_ ?_ ?_ ?_ ?_ ?_ ?_ ?_
      · intro a h; rw [hM]; exact sep.known t a (hsub a h)
      · intro d h; rw [hC]; exact sep.comp t d (hcomp d h)
      · intro x h
        rcases hp with hp | hp <;> rw [hp] at h <;> simp [Phase.orig] at h <;> subst h <;>
          exact sep.origLen t _ horig
      · intro d h
        rcases hp with hp | hp <;> rw [hp] at h <;> simp [Phase.active] at h
        subst h; rw [hcur, hM]; exact sep.curValid t _ hact
      · intro a h; exact .inl (hsub a h)
      · intro a h; rw [hb]; exact sep.pool t a (hsub a h)
      · intro a h; rw [hb] at h; exact .inl h
      · intro d h; exact .inl (hcomp d h)
      · intro d h; rw [hc]; exact sep.compPool t d (hcomp d h)
      · intro d h; rw [hc] at h; exact .inl h
    split
    · split
      · intro _; exact sep
      · intro hth; exact key _ hth rfl rfl rfl rfl (.inl (by simp))
    · intro hth; exact key _ hth rfl rfl rfl rfl (.inr (by simp))
  · rename_i o c kk
    have horig : (s.threads t).phase.orig = some o := by rw [hph]; rfl
    have hact : (s.threads t).phase.active = some c := by rw [hph]; rfl
    have key : ∀ s' : World, (∀ u, u ≠ t → s'.threads u = s.threads u) → s'.M = s.M → s'.C = s.C →
        s'.bufs = s.bufs → s'.comps = s.comps →
        ((s'.threads t).phase = .write o c (kk + 1) ∨ (s'.threads t).phase = .free o c) → Sep s' := by
      intro s' hth hM hC hb hc hp
      have hcur : ∀ d, s'.cur d = s.cur d := fun d => by simp [World.cur, hC]
      have hsub : ∀ a, s'.owns t a → s.owns t a := by
        rintro a (⟨x, h1, h2⟩ | ⟨d, h1, h2⟩)
        · rcases hp with hp | hp <;> rw [hp] at h1 <;> simp [Phase.orig] at h1 <;> subst h1 <;>
            exact .inl ⟨_, horig, h2⟩
        · rcases hp with hp | hp <;> rw [hp] at h1 <;> simp [Phase.active] at h1
          subst h1; rw [hcur] at h2; exact .inr ⟨_, hact, h2⟩
      have hcomp : ∀ d, (s'.threads t).phase.compId = some d → (s.threads t).phase.compId = some d := by
        intro d h
        rcases hp with hp | hp <;> rw [hp] at h <;> simp [Phase.compId] at h <;> subst h <;>
          exact Phase.active_comp hact
      refine sep.move t hth (fun d _ => hcur d) (by rw [hC]; exact Nat.le_refl _) (by rw [hM]; exact Nat.le_refl _)
        (fun i => by rw [hM]; exact Nat.le_refl _) (by rw [hb, hM]; exact sep.bufs) (by rw [hb]; exact sep.bufsNodup)
        (by rw [hc, hC]; exact sep.comps) (by rw [hc]; exact sep.compsNodup) ?_ ?_ ?_ ?_ ?_ ?_ ?_ ?_ ?_ ?_
      · intro a h; rw [hM]; exact sep.known t a (hsub a h)
      · intro d h; rw [hC]; exact sep.comp t d (hcomp d h)
      · intro x h
        rcases hp with hp | hp <;> rw [hp] at h <;> simp [Phase.orig] at h <;> subst h <;>
          exact sep.origLen t _ horig
      · intro d h
        rcases hp with hp | hp <;> rw [hp] at h <;> simp [Phase.active] at h
        subst h; rw [hcur, hM]; exact sep.curValid t _ hact
      · intro a h; exact .inl (hsub a h)
      · intro a h; rw [hb]; exact sep.pool t a (hsub a h)
      · intro a h; rw [hb] at h; exact .inl h
      · intro d h; exact .inl (hcomp d h)
      · intro d h; rw [hc]; exact sep.compPool t d (hcomp d h)
      · intro d h; rw [hc] at h; exact .inl h
    split
    · intro hth; exact key _ hth rfl rfl rfl rfl (.inr (by simp [World.endWrite]))
    · split
      · intro hth; exact key _ hth rfl rfl rfl rfl (.inl (by simp))
      · intro hth; exact key _ hth rfl rfl rfl rfl (.inr (by simp [World.endWrite]))
  · rename_i o c
    intro hth
    have horig : (s.threads t).phase.orig = some o := by rw [hph]; rfl
    have hcomp : (s.threads t).phase.compId = some c := by rw [hph]; rfl
    have how : s.owns t o.arr := .inl ⟨o, horig, rfl⟩
    refine sep.move t hth (fun d _ => rfl) (Nat.le_refl _) (Nat.le_refl _)
        (fun i => Nat.le_refl _) sep.bufs sep.bufsNodup ?_ ?_ ?_ ?_ ?_ ?_ ?_ ?_ ?_ ?_ ?_ ?_
    · intro d hd
      rcases List.mem_cons.1 hd with rfl | hd
      · exact sep.comp t _ hcomp
      · exact sep.comps d hd
    · exact List.nodup_cons.2 ⟨sep.compPool t c hcomp, sep.compsNodup⟩
    · rintro a (⟨x, h1, h2⟩ | ⟨d, h1, h2⟩)
      · simp [Phase.orig] at h1; subst h1; subst h2; exact sep.known t _ how
      · simp [Phase.active] at h1
    · intro d h; simp [Phase.compId] at h
    · intro x h; simp [Phase.orig] at h; subst h; exact sep.origLen t _ horig
    · intro d h; simp [Phase.active] at h
    · rintro a (⟨x, h1, h2⟩ | ⟨d, h1, h2⟩)
      · simp [Phase.orig] at h1; subst h1; subst h2; exact .inl how
      · simp [Phase.active] at h1
    · rintro a (⟨x, h1, h2⟩ | ⟨d, h1, h2⟩)
      · simp [Phase.orig] at h1; subst h1; subst h2; exact sep.pool t _ how
      · simp [Phase.active] at h1
    · intro a h; exact .inl h
    · intro d h; simp [Phase.compId] at h
    · intro d h; simp [Phase.compId] at h
    · intro d hd
      rcases List.mem_cons.1 hd with rfl | hd
      · exact .inr hcomp
      · exact .inl hd
  · rename_i o
    intro hth
    have horig : (s.threads t).phase.orig = some o := by rw [hph]; rfl
    have how : s.owns t o.arr := .inl ⟨o, horig, rfl⟩
    have none : ∀ a, ¬ ({ s with bufs := o :: s.bufs, threads := upd s.threads t { s.threads t with calls := rest, phase := .idle } } : World).owns t a := by
      rintro a (⟨x, h1, h2⟩ | ⟨d, h1, h2⟩)
      · simp [Phase.orig] at h1
      · simp [Phase.active] at h1
    refine sep.move t hth (fun d _ => rfl) (Nat.le_refl _) (Nat.le_refl _)
        (fun i => Nat.le_refl _) ?_ ?_ sep.comps sep.compsNodup ?_ ?_ ?_ ?_ ?_ ?_ ?_ ?_ ?_ ?_
    · intro x hx
      rcases List.mem_cons.1 hx with rfl | hx
      · exact sep.known t _ how
      · exact sep.bufs x hx
    · simp only [List.map_cons]
      exact List.nodup_cons.2 ⟨sep.pool t _ how, sep.bufsNodup⟩
    · intro a h; exact absurd h (none a)
    · intro d h; simp [Phase.compId] at h
    · intro x h; simp [Phase.orig] at h
    · intro d h; simp [Phase.active] at h
    · intro a h; exact absurd h (none a)
    · intro a h; exact absurd h (none a)
    · intro a h
      simp only [List.map_cons, List.mem_cons] at h
      rcases h with rfl | h
      · exact .inr how
      · exact .inl h
    · intro d h; simp [Phase.compId] at h
    · intro d h; simp [Phase.compId] at h
    · intro d h; exact .inl h

end Verif.Flash
