import Verif.Flash.ThreadsInv

/-
Invariants of the goroutine model: contents, mutex, history.
-/

set_option linter.unusedSimpArgs false

namespace Verif.Flash
open Verif.Heap

/-- Calls whose result is not yet known. -/
def Thread.left (th : Thread) : List Call :=
  match th.phase with
  | .free _ _ => th.calls.tail
  | .put _ => th.calls.tail
  | _ => th.calls

/-- What the finished writes of a family brought to its writer. -/
def World.wrote (s : World) (f : Nat) : Bytes := (s.log f).flatMap Entry.written

/-- Contents, mutex and history. -/
structure Hist (prog : Nat → List Call) (s : World) : Prop where
  prog : ∀ t, prog t = (s.threads t).results.map Prod.fst ++ (s.threads t).left
  comp : ∀ t o c todo, (s.threads t).phase = .comp o c todo →
    ∃ call rest dn, (s.threads t).calls = call :: rest ∧ call.chunks = dn ++ todo ∧
      s.M.read (s.cur c) = dn.flatten
  write : ∀ t o c k, (s.threads t).phase = .write o c k →
    ∃ call rest, (s.threads t).calls = call :: rest ∧ call.ok = true ∧
      s.M.read (s.cur c) = call.line ∧ s.lock call.fam = some t ∧ k ≤ call.line.length ∧
      s.out call.fam = s.wrote call.fam ++ call.line.take k
  lock : ∀ f t, s.lock f = some t → ∃ o c k call rest, (s.threads t).phase = .write o c k ∧
    (s.threads t).calls = call :: rest ∧ call.fam = f
  free : ∀ f, s.lock f = none → s.out f = s.wrote f
  entry : ∀ f, ∀ e ∈ s.log f, e.call.fam = f ∧ e.call.ok = true ∧ e.written <+: e.call.line ∧
    (e.ok = true → e.written = e.call.line)
  results : ∀ t, ∀ x ∈ (s.threads t).results, (x.2 = .composeError ↔ x.1.ok = false)
  order : ∀ t f, ((s.log f).filter (fun e => e.thread == t)).map (fun e => (e.call, e.ok)) =
    ((s.threads t).results.filter (fun x => x.1.fam == f && x.2 != .composeError)).map
      (fun x => (x.1, x.2 == .ok))

/-- Frame: goroutine `t` moves, families whose mutex somebody else holds are
untouched. -/
theorem Hist.move {prog} {s s' : World} (h : Hist prog s) (t : Nat)
    (hth : ∀ u, u ≠ t → s'.threads u = s.threads u)
    (reads : ∀ u c, u ≠ t → (s.threads u).phase.active = some c →
      s'.M.read (s'.cur c) = s.M.read (s.cur c))
    (fams : ∀ f, (s'.lock f = s.lock f ∧ s'.out f = s.out f ∧ s'.log f = s.log f) ∨
      (∀ u, u ≠ t → s.lock f ≠ some u))
    (progT : prog t = (s'.threads t).results.map Prod.fst ++ (s'.threads t).left)
    (compT : ∀ o c todo, (s'.threads t).phase = .comp o c todo →
      ∃ call rest dn, (s'.threads t).calls = call :: rest ∧ call.chunks = dn ++ todo ∧
        s'.M.read (s'.cur c) = dn.flatten)
    (writeT : ∀ o c k, (s'.threads t).phase = .write o c k →
      ∃ call rest, (s'.threads t).calls = call :: rest ∧ call.ok = true ∧
        s'.M.read (s'.cur c) = call.line ∧ s'.lock call.fam = some t ∧ k ≤ call.line.length ∧
        s'.out call.fam = s'.wrote call.fam ++ call.line.take k)
    (lockU : ∀ f u, u ≠ t → s'.lock f = some u → s.lock f = some u)
    (lockT : ∀ f, s'.lock f = some t → ∃ o c k call rest, (s'.threads t).phase = .write o c k ∧
      (s'.threads t).calls = call :: rest ∧ call.fam = f)
    (free : ∀ f, s'.lock f = none → s'.out f = s'.wrote f)
    (entry : ∀ f, ∀ e ∈ s'.log f, e ∈ s.log f ∨ (e.call.fam = f ∧ e.call.ok = true ∧
      e.written <+: e.call.line ∧ (e.ok = true → e.written = e.call.line)))
    (results : ∀ x ∈ (s'.threads t).results, (x.2 = .composeError ↔ x.1.ok = false))
    (orderU : ∀ u f, u ≠ t → (s'.log f).filter (fun e => e.thread == u) =
      (s.log f).filter (fun e => e.thread == u))
    (orderT : ∀ f, ((s'.log f).filter (fun e => e.thread == t)).map (fun e => (e.call, e.ok)) =
      ((s'.threads t).results.filter (fun x => x.1.fam == f && x.2 != .composeError)).map
        (fun x => (x.1, x.2 == .ok))) : Hist prog s' := by
  refine ⟨?_, ?_, ?_, ?_, free, ?_, ?_, ?_⟩
  · intro u
    by_cases hu : u = t
    · subst hu; exact progT
    · rw [hth u hu]; exact h.prog u
  · intro u o c todo hp
    by_cases hu : u = t
    · subst hu; exact compT o c todo hp
    · rw [hth u hu] at hp ⊢
      rw [reads u c hu (by rw [hp]; rfl)]
      exact h.comp u o c todo hp
  · intro u o c k hp
    by_cases hu : u = t
    · subst hu; exact writeT o c k hp
    · rw [hth u hu] at hp ⊢
      rw [reads u c hu (by rw [hp]; rfl)]
      obtain ⟨call, rest, h1, h2, h3, h4, h5, h6⟩ := h.write u o c k hp
      rcases fams call.fam with ⟨e1, e2, e3⟩ | e
      · refine ⟨call, rest, h1, h2, h3, by rw [e1]; exact h4, h5, ?_⟩
        rw [e2, World.wrote, e3]; exact h6
      · exact absurd h4 (e u hu)
  · intro f u hl
    by_cases hu : u = t
    · subst hu; exact lockT f hl
    · rw [hth u hu]; exact h.lock f u (lockU f u hu hl)
  · intro f e he
    rcases entry f e he with h' | h'
    · exact h.entry f e h'
    · exact h'
  · intro u
    by_cases hu : u = t
    · subst hu; exact results
    · rw [hth u hu]; exact h.results u
  · intro u f
    by_cases hu : u = t
    · subst hu; exact orderT f
    · rw [hth u hu, orderU u f hu]; exact h.order u f

/-- Others read the same after an append by `t`. -/
theorem append_reads {grow : Nat → Nat → Nat} (hg : ∀ c n, n ≤ grow c n) {s : World} (sep : Sep s)
    {t c : Nat} (hact : (s.threads t).phase.active = some c) (x : Bytes)
    {u d : Nat} (hu : u ≠ t) (hd : (s.threads u).phase.active = some d) :
    (s.M.append grow (s.cur c) x).1.read (s.cur d) = s.M.read (s.cur d) := by
  obtain ⟨v, rd, k, l, f⟩ := append_spec hg (sep.curValid t c hact) x
  refine k.same _ (sep.curValid u d hd) ?_
  intro e
  exact absurd (Or.inr ⟨c, hact, rfl⟩ : s.owns t (s.cur c).arr)
    (fun h => sep.disj t u _ (Ne.symm hu) h (.inr ⟨d, hd, e⟩))

theorem getElem?_take_succ {l : List α} {k : Nat} {x : α} (h : l[k]? = some x) :
    l.take (k + 1) = l.take k ++ [x] := by
  rw [List.take_add_one, h]; rfl

theorem Hist.step {grow : Nat → Nat → Nat} (hg : ∀ c n, n ≤ grow c n) {prog} {s : World}
    (sep : Sep s) (h : Hist prog s) (ch : Choice) : Hist prog (s.step grow ch) := by
  have hth : ∀ u, u ≠ ch.thread → (s.step grow ch).threads u = s.threads u :=
    fun u hu => step_other grow s ch hu
  revert hth
  unfold World.step
  simp only
  generalize ht : ch.thread = t
  split
  · intro _; exact h
  rename_i call rest hcalls
  -- steps that touch neither mutex nor writer nor results
  have quiet : ∀ s' : World, (∀ u, u ≠ t → s'.threads u = s.threads u) →
      (∀ u c, u ≠ t → (s.threads u).phase.active = some c → s'.M.read (s'.cur c) = s.M.read (s.cur c)) →
      s'.lock = s.lock → s'.out = s.out → s'.log = s.log →
      (s'.threads t).results = (s.threads t).results →
      (s'.threads t).left = (s.threads t).left →
      (∀ o c k, (s.threads t).phase ≠ .write o c k) →
      (∀ o c k, (s'.threads t).phase ≠ .write o c k) →
      (∀ o c todo, (s'.threads t).phase = .comp o c todo →
        ∃ call rest dn, (s'.threads t).calls = call :: rest ∧ call.chunks = dn ++ todo ∧
          s'.M.read (s'.cur c) = dn.flatten) → Hist prog s' := by
    intro s' hth reads hl ho hlog hres hleft nw nw' compT
    have notlock : ∀ f, s.lock f ≠ some t := by
      intro f hf
      obtain ⟨o, c, k, _, _, hp, _⟩ := h.lock f t hf
      exact nw o c k hp
    refine h.move t hth reads (fun f => .inl ⟨by rw [hl], by rw [ho], by rw [hlog]⟩) ?_ compT ?_ ?_ ?_ ?_ ?_ ?_ ?_ ?_
    · rw [hres, hleft]; exact h.prog t
    · intro o c k hp; exact absurd hp (nw' o c k)
    · intro f u _ hf; rw [hl] at hf; exact hf
    · intro f hf; rw [hl] at hf; exact absurd hf (notlock f)
    · intro f hf; rw [hl] at hf; rw [ho, World.wrote, hlog]; exact h.free f hf
    · intro f e he; rw [hlog] at he; exact .inl he
    · rw [hres]; exact h.results t
    · intro u f _; rw [hlog]
    · intro f; rw [hlog, hres]; exact h.order t f
  split
  · rename_i hph
    unfold World.getBuf
    split
    · intro hth
      refine quiet _ hth (fun _ _ _ _ => rfl) rfl rfl rfl (by simp) (by simp [Thread.left, hph]) ?_ ?_ ?_
      · simp [hph]
      · simp
      · simp
    · intro hth
      refine quiet _ hth ?_ rfl rfl rfl (by simp) (by simp [Thread.left, hph]) ?_ ?_ ?_
      · intro u c hu hc
        exact (alloc_keeps s.M 1024 (fun _ => True)).same _ (sep.curValid u c hc) trivial
      · simp [hph]
      · simp
      · simp
  · rename_i o hph
    have horig : (s.threads t).phase.orig = some o := by rw [hph]; rfl
    have h0 := sep.origLen t o horig
    unfold World.getComp
    split
    · rename_i c hc
      have hmem := List.mem_of_getElem? hc
      have hcl := sep.comps c hmem
      intro hth
      refine quiet _ hth ?_ rfl rfl rfl (by simp) (by simp [Thread.left, hph]) ?_ ?_ ?_
      · intro u d hu hd
        have : d ≠ c := by rintro rfl; exact sep.compPool u d (Phase.active_comp hd) hmem
        simp [World.cur, World.go, List.getElem?_set_ne (Ne.symm this)]
      · simp [hph]
      · simp
      · intro o' c' todo hp
        simp only [go_self, Phase.comp.injEq] at hp
        obtain ⟨rfl, rfl, rfl⟩ := hp
        refine ⟨call, rest, [], by simpa using hcalls, rfl, ?_⟩
        simp [World.cur, World.go, hcl, Mem.read, h0]
    · intro hth
      refine quiet _ hth ?_ rfl rfl rfl (by simp) (by simp [Thread.left, hph]) ?_ ?_ ?_
      · intro u d hu hd
        have := sep.comp u d (Phase.active_comp hd)
        simp [World.cur, World.go, List.getElem?_append_left this]
      · simp [hph]
      · simp
      · intro o' c' todo hp
        simp only [go_self, Phase.comp.injEq] at hp
        obtain ⟨rfl, rfl, rfl⟩ := hp
        refine ⟨call, rest, [], by simpa using hcalls, rfl, ?_⟩
        simp [World.cur, World.go, Mem.read, h0]
  · rename_i o c x todo hph
    have hact : (s.threads t).phase.active = some c := by rw [hph]; rfl
    have hcomp := Phase.active_comp hact
    have hcl := sep.comp t c hcomp
    obtain ⟨v, rd, k, l, f⟩ := append_spec hg (sep.curValid t c hact) x
    intro hth
    refine quiet _ hth ?_ rfl rfl rfl (by simp) (by simp [Thread.left, hph]) ?_ ?_ ?_
    · intro u d hu hd
      have : d ≠ c := by
        rintro rfl; exact sep.compDisj u t d hu (Phase.active_comp hd) hcomp
      have e : World.cur (({ s with M := (s.M.append grow (s.cur c) x).1, C := s.C.set c (s.M.append grow (s.cur c) x).2 } : World).go t
          (.comp o c todo)) d = s.cur d := by
        simp [World.cur, World.go, List.getElem?_set_ne (Ne.symm this)]
      rw [e]
      exact append_reads hg sep hact x hu hd
    · simp [hph]
    · simp
    · intro o' c' todo' hp
      simp only [go_self, Phase.comp.injEq] at hp
      obtain ⟨rfl, rfl, rfl⟩ := hp
      obtain ⟨call', rest', dn, e1, e2, e3⟩ := h.comp t o c (x :: todo) hph
      refine ⟨call', rest', dn ++ [x], by simpa using e1, by simpa using e2, ?_⟩
      have e : World.cur (({ s with M := (s.M.append grow (s.cur c) x).1, C := s.C.set c (s.M.append grow (s.cur c) x).2 } : World).go t
          (.comp o c todo)) c = (s.M.append grow (s.cur c) x).2 := by
        simp [World.cur, World.go, hcl]
      rw [e]
      show (s.M.append grow (s.cur c) x).1.read _ = _
      rw [rd, e3]; simp
  all_goals rename_i hph
  · rename_i o c
    obtain ⟨call', rest', dn, e1, e2, e3⟩ := h.comp t o c [] hph
    rw [hcalls] at e1
    simp only [List.cons.injEq] at e1
    obtain ⟨rfl, rfl⟩ := e1
    have nw : ∀ f, s.lock f ≠ some t := by
      intro f hf
      obtain ⟨o, c, k, _, _, hp, _⟩ := h.lock f t hf
      rw [hph] at hp; cases hp
    split
    · rename_i hok
      split
      · intro _; exact h
      · rename_i hlk
        intro hth
        refine h.move t hth (fun _ _ _ _ => rfl) ?_ ?_ ?_ ?_ ?_ ?_ ?_ ?_ ?_ ?_ ?_
        · intro f
          by_cases hf : f = call.fam
          · right; rw [hf]; intro u _; rw [hlk]; simp
          · left; simp [World.go, hf]
        · have := h.prog t
          simpa [Thread.left, hph] using this
        · simp
        · intro o' c' k hp
          simp only [go_self, Phase.write.injEq] at hp
          obtain ⟨rfl, rfl, rfl⟩ := hp
          refine ⟨call, rest, by simpa using hcalls, hok, ?_, by simp [World.go], Nat.zero_le _, ?_⟩
          · show s.M.read (s.cur c) = _
            rw [e3, Call.line, e2]; simp
          · have := h.free _ hlk
            simpa [World.go, World.wrote] using this
        · intro f u hu hl
          by_cases hf : f = call.fam
          · subst hf
            simp [World.go] at hl
            exact absurd hl.symm hu
          · simpa [World.go, hf] using hl
        · intro f hl
          by_cases hf : f = call.fam
          · subst hf; exact ⟨o, c, 0, call, rest, by simp, by simpa using hcalls, rfl⟩
          · simp [World.go, hf] at hl; exact absurd hl (nw f)
        · intro f hl
          by_cases hf : f = call.fam
          · subst hf; simp [World.go] at hl
          · simp [World.go, hf] at hl; exact h.free f hl
        · intro f e he; exact .inl he
        · have := h.results t; simpa using this
        · intro u f _; rfl
        · intro f; have := h.order t f; simpa [World.go] using this
    · rename_i hok
      intro hth
      refine h.move t hth (fun _ _ _ _ => rfl) (fun f => .inl ⟨rfl, rfl, rfl⟩) ?_ ?_ ?_ ?_ ?_ ?_ ?_ ?_ ?_ ?_
      · have := h.prog t
        simpa [Thread.left, hph, World.ret, hcalls] using this
      · simp
      · simp
      · intro f u _ hl; exact hl
      · intro f hl; exact absurd hl (nw f)
      · exact h.free
      · intro f e he; exact .inl he
      · intro x hx
        simp only [World.ret, upd_same, List.mem_append, List.mem_singleton] at hx
        rcases hx with hx | rfl
        · exact h.results t x hx
        · simp [hok]
      · intro u f _; rfl
      · intro f
        have := h.order t f
        simp [World.ret, List.filter_append]
        simpa using this
  · rename_i o c kk
    obtain ⟨call', rest', e1, e2, e3, e4, e5, e6⟩ := h.write t o c kk hph
    rw [hcalls] at e1
    simp only [List.cons.injEq] at e1
    obtain ⟨rfl, rfl⟩ := e1
    have fams : ∀ f, f = call.fam → ∀ u, u ≠ t → s.lock f ≠ some u := by
      rintro f rfl u hu hl
      rw [e4] at hl; simp at hl; exact hu hl.symm
    have ends : ∀ w ok, w <+: call.line → (ok = true → w = call.line) →
        s.out call.fam = s.wrote call.fam ++ w →
        (∀ u, u ≠ t → (s.endWrite t call o c w ok).threads u = s.threads u) →
        Hist prog (s.endWrite t call o c w ok) := by
      intro w ok hw hwok hout hth
      refine h.move t hth (fun _ _ _ _ => rfl) ?_ ?_ ?_ ?_ ?_ ?_ ?_ ?_ ?_ ?_ ?_
      · intro f
        by_cases hf : f = call.fam
        · right; exact fams f hf
        · left; simp [World.endWrite, World.ret, hf]
      · have := h.prog t
        simpa [Thread.left, hph, World.endWrite, World.ret, hcalls] using this
      · simp [World.endWrite]
      · simp [World.endWrite]
      · intro f u hu hl
        by_cases hf : f = call.fam
        · subst hf; simp [World.endWrite, World.ret] at hl
        · simpa [World.endWrite, World.ret, hf] using hl
      · intro f hl
        by_cases hf : f = call.fam
        · subst hf; simp [World.endWrite, World.ret] at hl
        · simp [World.endWrite, World.ret, hf] at hl
          obtain ⟨o', c', k', call', rest', hp, hc, hfam⟩ := h.lock f t hl
          rw [hcalls] at hc
          simp at hc
          rw [← hc.1] at hfam
          exact absurd hfam.symm hf
      · intro f hl
        by_cases hf : f = call.fam
        · subst hf
          simp only [World.wrote, World.endWrite, World.ret, upd_same, List.flatMap_append,
            List.flatMap_singleton]
          exact hout
        · simp [World.endWrite, World.ret, hf, World.wrote] at hl ⊢
          exact h.free f hl
      · intro f e he
        by_cases hf : f = call.fam
        · subst hf
          simp only [World.endWrite, World.ret, upd_same, List.mem_append, List.mem_singleton] at he
          rcases he with he | rfl
          · exact .inl he
          · exact .inr ⟨rfl, e2, hw, hwok⟩
        · simp [World.endWrite, World.ret, hf] at he; exact .inl he
      · intro x hx
        simp only [World.endWrite, World.ret, upd_same, List.mem_append, List.mem_singleton] at hx
        rcases hx with hx | rfl
        · exact h.results t x hx
        · cases ok <;> simp [e2]
      · intro u f hu
        by_cases hf : f = call.fam
        · subst hf
          simp [World.endWrite, World.ret, List.filter_append, Ne.symm hu]
        · simp [World.endWrite, World.ret, hf]
      · intro f
        have := h.order t f
        by_cases hf : f = call.fam
        · subst hf
          simp only [World.endWrite, World.ret, upd_same, List.filter_append, List.map_append, this]
          congr 1
          cases ok <;> simp
        · simp only [World.endWrite, World.ret, upd_same, upd_ne _ _ hf, List.filter_append, List.map_append, this]
          have : (call.fam == f) = false := by simp [Ne.symm hf]
          simp [this]
    split
    · intro hth
      refine ends _ _ ?_ (by simp) ?_ hth
      · rw [e3]; exact List.take_prefix _ _
      · rw [e3]; exact e6
    · split
      · rename_i x hx
        rw [e3] at hx
        intro hth
        refine h.move t hth (fun _ _ _ _ => rfl) ?_ ?_ ?_ ?_ ?_ ?_ ?_ ?_ ?_ ?_ ?_
        · intro f
          by_cases hf : f = call.fam
          · right; exact fams f hf
          · left; simp [World.go, hf]
        · have := h.prog t
          simpa [Thread.left, hph] using this
        · simp
        · intro o' c' k' hp
          simp only [go_self, Phase.write.injEq] at hp
          obtain ⟨rfl, rfl, rfl⟩ := hp
          refine ⟨call, rest, by simpa using hcalls, e2, e3, e4, ?_, ?_⟩
          · exact (List.getElem?_eq_some_iff.1 hx).1
          · rw [getElem?_take_succ hx]
            simp only [World.go, upd_same, World.wrote]
            rw [e6]
            simp [World.wrote]
        · intro f u _ hl; exact hl
        · intro f hl
          obtain ⟨o', c', k', call', rest', hp, hc, hfam⟩ := h.lock f t hl
          exact ⟨o, c, kk + 1, call', rest', by simp, by simpa using hc, hfam⟩
        · intro f hl
          have hne : f ≠ call.fam := by rintro rfl; simp [World.go, e4] at hl
          have := h.free f hl
          simpa [World.go, hne, World.wrote] using this
        · intro f e he; exact .inl he
        · have := h.results t; simpa using this
        · intro u f _; rfl
        · intro f; have := h.order t f; simpa [World.go] using this
      · rename_i hx
        rw [e3] at hx
        have hk : call.line.length ≤ kk := by simpa using hx
        intro hth
        refine ends _ _ ?_ (by simp [e3]) ?_ hth
        · rw [e3]; exact List.prefix_refl _
        · rw [e3, e6, List.take_of_length_le hk]
  · rename_i o c
    intro hth
    refine quiet _ hth (fun _ _ _ _ => rfl) rfl rfl rfl (by simp) (by simp [Thread.left, hph]) ?_ ?_ ?_
    · simp [hph]
    · simp
    · simp
  · rename_i o
    intro hth
    refine quiet _ hth (fun _ _ _ _ => rfl) rfl rfl rfl (by simp) (by simp [Thread.left, hph, hcalls]) ?_ ?_ ?_
    · simp [hph]
    · simp
    · simp

theorem start_sep {s : World} (h : s.Start) : Sep s := by
  have none : ∀ t a, ¬ s.owns t a := by
    rintro t a (⟨o, h1, _⟩ | ⟨o, h1, _⟩) <;> rw [(h.idle t).1] at h1 <;> cases h1
  refine ⟨h.bufs, h.bufsNodup, h.comps, h.compsNodup, ?_, ?_, ?_, ?_, ?_, ?_, ?_, ?_⟩
  · intro t a ha; exact absurd ha (none t a)
  · intro t c hc; rw [(h.idle t).1] at hc; cases hc
  · intro t c hc; rw [(h.idle t).1] at hc; cases hc
  · intro t c hc; rw [(h.idle t).1] at hc; cases hc
  · intro t u a _ ha; exact absurd ha (none t a)
  · intro t a ha; exact absurd ha (none t a)
  · intro t u c _ hc; rw [(h.idle t).1] at hc; cases hc
  · intro t c hc; rw [(h.idle t).1] at hc; cases hc

theorem start_hist {s : World} (h : s.Start) : Hist (fun t => (s.threads t).calls) s := by
  refine ⟨?_, ?_, ?_, ?_, ?_, ?_, ?_, ?_⟩
  · intro t; simp [(h.idle t).2, Thread.left, (h.idle t).1]
  · intro t o c todo hp; rw [(h.idle t).1] at hp; cases hp
  · intro t o c k hp; rw [(h.idle t).1] at hp; cases hp
  · intro f t hl; rw [h.lock] at hl; cases hl
  · intro f _; simp [h.out, World.wrote, h.log]
  · intro f e he; rw [h.log] at he; cases he
  · intro t x hx; rw [(h.idle t).2] at hx; cases hx
  · intro t f; simp [h.log, (h.idle t).2]

theorem run_hist {grow : Nat → Nat → Nat} (hg : ∀ c n, n ≤ grow c n) {prog} :
    ∀ (cs : List Choice) {s : World}, Sep s → Hist prog s →
      Sep (s.run grow cs) ∧ Hist prog (s.run grow cs) := by
  intro cs
  induction cs with
  | nil => intro s a b; exact ⟨a, b⟩
  | cons c cs ih => intro s a b; exact ih (a.step hg c) (b.step hg a c)

end Verif.Flash
