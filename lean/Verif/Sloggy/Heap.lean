import Verif.Flash.Heap
import Verif.Sloggy.Handler

/-
Derivation of sloggy handlers with the shared `groups` slice:
/repo/handlers/sloggy/handler.go WithAttrs hands `h.groups` on and WithGroup
appends to it. Prefix and suffix are copied into new buffers, so they are values.
-/

set_option linter.unusedSimpArgs false

namespace Verif.Sloggy
open Slog Verif.Heap
open Flash (Apart endsOpen)

/-- What all handlers derived from one `NewHandler` call share
(handlers/sloggy/handler.go:109-112, 141-144), and how `append` grows arrays. -/
structure Fam where
  env : Env
  options : Flash.Options
  grow : Nat → Nat → Nat

/-- Arrays grow enough. -/
def Fam.Good (F : Fam) : Prop := ∀ c n, n ≤ F.grow c n

/-- A `*Handler` or `*group` object (handlers/sloggy/handler.go:16-22, group.go:11-21);
the parent is given by its number. -/
structure Node where
  pfx : Bytes
  sfx : Bytes
  grp : Slice
  parent : Option (Bytes × Nat)

/-- The memory of group lists and the handlers made so far. -/
structure Store where
  G : Mem Bytes
  nodes : List Node

/-- `NewHandler` (handlers/sloggy/handler.go:26-33): the group list is nil. -/
def Store.init : Store := { G := [], nodes := [⟨[], [], Slice.nil, none⟩] }

/-- The `*Handler` part of a node as a value. -/
def Store.view (F : Fam) (m : Store) (n : Node) : Handler :=
  { env := F.env, options := F.options, pfx := n.pfx, sfx := n.sfx, groups := m.G.read n.grp }

/-- A node as a value; `before` are the values of the nodes made earlier. -/
def Store.value (F : Fam) (m : Store) (before : List H) (n : Node) : H :=
  match n.parent with
  | none => .plain (m.view F n)
  | some (name, p) => .group (m.view F n) name ((before[p]?).getD (.plain (m.view F n)))

/-- All handlers as they would print now. -/
def Store.values (F : Fam) (m : Store) : List H :=
  m.nodes.foldl (fun acc n => acc ++ [m.value F acc n]) []

/-- `WithAttrs` (handlers/sloggy/handler.go:108-133) on a node; `groups: h.groups`
(line 113). `none`: stack overflow, the program dies. -/
def Store.withAttrs (F : Fam) (m : Store) (n : Node) (as : List Attr) : Option Store :=
  ((m.view F n).withAttrs as).map fun h =>
    { m with nodes := m.nodes ++ [⟨h.pfx, h.sfx, n.grp, none⟩] }

/-- `WithGroup` (handlers/sloggy/handler.go:135-171, group.go:55-65) on node number `i`;
`groups: append(h.groups, name)` (line 147). -/
def Store.withGroup (F : Fam) (m : Store) (i : Nat) (n : Node) (name : Bytes) : Store :=
  if name = [] then { m with nodes := m.nodes ++ [{ n with parent := none }] }
  else
    let (G, g) := m.G.append F.grow n.grp [name]
    let h := (m.view F n).openGroup name
    { G, nodes := m.nodes ++ [⟨h.pfx, h.sfx, g, some (name, i)⟩] }

/-- One derivation: `(i, op)` applies `op` to the handler numbered `i`. -/
def Store.step (F : Fam) (m : Store) (d : Nat × Op) : Option Store :=
  match m.nodes[d.1]? with
  | none => some m
  | some n =>
    match d.2 with
    | .attrs as => m.withAttrs F n as
    | .group name => some (m.withGroup F d.1 n name)

/-- A history of derivations. -/
def Store.run (F : Fam) : Store → List (Nat × Op) → Option Store
  | m, [] => some m
  | m, d :: ds => (m.step F d).bind (Store.run F · ds)

/-! ### The same with handlers as values -/

/-- One derivation of immutable handlers. -/
def famStep (fam : List H) (d : Nat × Op) : Option (List H) :=
  match fam[d.1]? with
  | none => some fam
  | some h => (h.step d.2).map fun h' => fam ++ [h']

/-- A history of derivations. -/
def famRun : List H → List (Nat × Op) → Option (List H)
  | fam, [] => some fam
  | fam, d :: ds => (famStep fam d).bind (famRun · ds)

/-- In a history, no handler with open groups is derived from twice. `used` are
the handlers derived from before. -/
def Once : List H → List Nat → List (Nat × Op) → Prop
  | _, _, [] => True
  | fam, used, d :: ds =>
    (d.1 ∈ used → ∀ h, fam[d.1]? = some h → h.core.groups = []) ∧
    ∀ fam', famStep fam d = some fam' → Once fam' (d.1 :: used) ds

/-! ### Values -/

theorem value_congr {F : Fam} {m m' : Store} {n : Node} (acc : List H)
    (h : m'.view F n = m.view F n) : m'.value F acc n = m.value F acc n := by
  unfold Store.value
  rw [h]

theorem values_congr {F : Fam} {m m' : Store} {ns : List Node}
    (h : ∀ n ∈ ns, m'.view F n = m.view F n) : ∀ acc : List H,
    ns.foldl (fun acc n => acc ++ [m'.value F acc n]) acc =
      ns.foldl (fun acc n => acc ++ [m.value F acc n]) acc := by
  induction ns with
  | nil => intro acc; rfl
  | cons n ns ih =>
    intro acc
    simp only [List.foldl_cons]
    rw [value_congr acc (h n (by simp)), ih (fun x hx => h x (by simp [hx]))]

theorem values_snoc {F : Fam} {m m' : Store} {n : Node} (hn : m'.nodes = m.nodes ++ [n])
    (h : ∀ x ∈ m.nodes, m'.view F x = m.view F x) :
    m'.values F = m.values F ++ [m'.value F (m.values F) n] := by
  unfold Store.values
  rw [hn, List.foldl_append, values_congr h]
  rfl

theorem values_length (F : Fam) (m : Store) : (m.values F).length = m.nodes.length := by
  have : ∀ (ns : List Node) (acc : List H),
      (ns.foldl (fun acc n => acc ++ [m.value F acc n]) acc).length = acc.length + ns.length := by
    intro ns
    induction ns with
    | nil => intro acc; simp
    | cons n ns ih => intro acc; simp [ih]; omega
  simpa [Store.values] using this m.nodes []

theorem values_core (F : Fam) (m : Store) {i : Nat} {n : Node} (h : m.nodes[i]? = some n) :
    ∃ x, (m.values F)[i]? = some x ∧ x.core = m.view F n := by
  have pre : ∀ (ns : List Node) (acc : List H),
      acc <+: ns.foldl (fun acc n => acc ++ [m.value F acc n]) acc := by
    intro ns
    induction ns with
    | nil => intro acc; exact List.prefix_refl _
    | cons a ns ih =>
      intro acc
      exact (List.prefix_append acc _).trans (ih _)
  have : ∀ (ns : List Node) (acc : List H) (i : Nat) (n : Node), ns[i]? = some n →
      ∃ x, (ns.foldl (fun acc n => acc ++ [m.value F acc n]) acc)[acc.length + i]? = some x ∧
        x.core = m.view F n := by
    intro ns
    induction ns with
    | nil => intro acc i n h; simp at h
    | cons a ns ih =>
      intro acc i n h
      cases i with
      | zero =>
        simp at h; subst h
        simp only [List.foldl_cons]
        obtain ⟨t, ht⟩ := pre ns (acc ++ [m.value F acc a])
        rw [← ht]
        refine ⟨m.value F acc a, by simp, ?_⟩
        unfold Store.value
        split <;> rfl
      | succ i =>
        simp at h
        have := ih (acc ++ [m.value F acc a]) i n h
        simp only [List.foldl_cons]
        have e : acc.length + (i + 1) = (acc ++ [m.value F acc a]).length + i := by simp; omega
        rw [e]; exact this
  simpa [Store.values] using this m.nodes [] i n h

/-! ### Under the guard: the group lists behave like values -/

/-- The invariant. -/
structure Inv (F : Fam) (m : Store) (fam : List H) (used : List Nat) : Prop where
  G : Apart m.G (m.nodes.map Node.grp) used
  nil : ∀ n ∈ m.nodes, n.grp.len = 0 → n.grp = Slice.nil
  values : m.values F = fam

theorem step_inv {F : Fam} (hF : F.Good) {m m' : Store} {fam : List H} {used : List Nat}
    (inv : Inv F m fam used) {d : Nat × Op}
    (hg : d.1 ∈ used → ∀ h, fam[d.1]? = some h → h.core.groups = [])
    (hstep : m.step F d = some m') :
    ∃ fam', famStep fam d = some fam' ∧ Inv F m' fam' (d.1 :: used) := by
  obtain ⟨i, op⟩ := d
  simp only at hg
  unfold Store.step at hstep
  simp only at hstep
  cases hn : m.nodes[i]? with
  | none =>
    rw [hn] at hstep
    simp at hstep; subst hstep
    have hfam : fam[i]? = none := by
      rw [← inv.values, List.getElem?_eq_none_iff, values_length]
      exact List.getElem?_eq_none_iff.1 hn
    refine ⟨fam, by simp [famStep, hfam], ⟨?_, inv.nil, inv.values⟩⟩
    have a := inv.G
    exact ⟨a.valid, fun j s hj hju => a.longest j s hj (fun h => hju (by simp [h])),
      fun j l s t hj hl hju hlu => a.alone j l s t hj hl (fun h => hju (by simp [h]))
        (fun h => hlu (by simp [h]))⟩
  | some n =>
    rw [hn] at hstep
    simp only at hstep
    have hmem : n ∈ m.nodes := List.mem_of_getElem? hn
    obtain ⟨x, hx, hcore⟩ := values_core F m hn
    rw [inv.values] at hx
    have hG : (m.nodes.map Node.grp)[i]? = some n.grp := by simp [hn]
    have hv := inv.G.valid _ (List.mem_map_of_mem (f := Node.grp) hmem)
    have hu : i ∈ used → n.grp.len = 0 := by
      intro h
      have := congrArg List.length (hg h x hx)
      rw [hcore] at this
      simp only [Store.view, Mem.read, List.length_take, List.length_nil] at this
      have := hv.stored
      omega
    cases op with
    | attrs as =>
      simp only [Store.withAttrs, Option.map_eq_some_iff] at hstep
      obtain ⟨h', hw, hm'⟩ := hstep
      have hsame : h'.env = F.env ∧ h'.options = F.options ∧ h'.groups = m.G.read n.grp := by
        unfold Handler.withAttrs at hw
        simp only at hw
        split at hw
        · simp at hw; rw [← hw]; exact ⟨rfl, rfl, rfl⟩
        · simp at hw; rw [← hw]; exact ⟨rfl, rfl, rfl⟩
        · cases hw
      have hvals := values_snoc (F := F) (m := m) (m' := m') (n := ⟨h'.pfx, h'.sfx, n.grp, none⟩)
        (by rw [← hm']) (by intro y _; rw [← hm']; rfl)
      refine ⟨fam ++ [.plain h'], by simp [famStep, hx, H.step, H.withAttrs, hcore, hw], ?_, ?_, ?_⟩
      · rw [← hm', List.map_append]; exact inv.G.same hG hu
      · intro y hy
        rw [← hm'] at hy
        rcases List.mem_append.1 hy with hy | hy
        · exact inv.nil y hy
        · simp at hy; subst hy; exact inv.nil n hmem
      · rw [hvals, inv.values]
        congr 1
        rw [← hm']
        obtain ⟨e1, e2, e3⟩ := hsame
        obtain ⟨env, options, pfx, sfx, groups⟩ := h'
        simp only [Store.value, Store.view] at e1 e2 e3 ⊢
        rw [e1, e2, e3]
    | group name =>
      simp only [Option.some.injEq] at hstep
      by_cases hname : name = []
      · subst hname
        simp only [Store.withGroup, if_pos] at hstep
        have hvals := values_snoc (F := F) (m := m) (m' := m') (n := { n with parent := none })
          (by rw [← hstep]) (by intro y _; rw [← hstep]; rfl)
        refine ⟨fam ++ [.plain x.core], by simp [famStep, hx, H.step, H.withGroup], ?_, ?_, ?_⟩
        · rw [← hstep, List.map_append]; exact inv.G.same hG hu
        · intro y hy
          rw [← hstep] at hy
          rcases List.mem_append.1 hy with hy | hy
          · exact inv.nil y hy
          · simp at hy; subst hy; exact inv.nil n hmem
        · rw [hvals, inv.values, hcore, ← hstep]
          rfl
      · simp only [Store.withGroup, if_neg hname] at hstep
        obtain ⟨aG, rG, kG⟩ := inv.G.append hF hG hu (inv.nil n hmem) name
        have hns : m'.nodes = m.nodes ++ [⟨((m.view F n).openGroup name).pfx, ((m.view F n).openGroup name).sfx,
          (m.G.append F.grow n.grp [name]).2, some (name, i)⟩] := by rw [← hstep]
        have hGe : m'.G = (m.G.append F.grow n.grp [name]).1 := by rw [← hstep]
        have views : ∀ y ∈ m.nodes, m'.view F y = m.view F y := by
          intro y hy
          unfold Store.view
          rw [hGe, kG.same _ (inv.G.valid _ (List.mem_map_of_mem hy)) (List.mem_map_of_mem hy)]
        have hvals := values_snoc hns views
        refine ⟨fam ++ [x.withGroup name], by simp [famStep, hx, H.step], ?_, ?_, ?_⟩
        · rw [hns, List.map_append, hGe]; exact aG
        · intro y hy
          rw [hns] at hy
          rcases List.mem_append.1 hy with hy | hy
          · exact inv.nil y hy
          · simp at hy; subst hy
            intro h0
            have hl := congrArg List.length rG
            simp only at h0
            simp only [Mem.read, h0, List.take_zero, List.length_nil, List.length_append,
              List.length_singleton] at hl
            omega
        · rw [hvals, inv.values]
          congr 1
          have hview : m'.view F ⟨((m.view F n).openGroup name).pfx, ((m.view F n).openGroup name).sfx,
              (m.G.append F.grow n.grp [name]).2, some (name, i)⟩ = (m.view F n).openGroup name := by
            simp only [Store.view, hGe, rG]
            rfl
          simp only [Store.value, hx, hview, H.withGroup, hname, hcore]
          rfl

theorem init_inv (F : Fam) : Inv F Store.init [.plain (newHandler F.env F.options)] [] := by
  refine ⟨⟨?_, ?_, ?_⟩, ?_, rfl⟩
  · intro s hs
    simp [Store.init] at hs; subst hs
    exact valid_nil _
  · intro i s hs _ hp
    rcases List.mem_of_getElem? hs with hs
    simp [Store.init] at hs; subst hs; simp [Slice.nil] at hp
  · intro i j s t hs _ _ _ _ hp
    rcases List.mem_of_getElem? hs with hs
    simp [Store.init] at hs; subst hs; simp [Slice.nil] at hp
  · intro n hn
    simp [Store.init] at hn; subst hn
    exact fun _ => rfl

theorem run_inv {F : Fam} (hF : F.Good) : ∀ (ds : List (Nat × Op)) {m m' : Store} {fam used},
    Inv F m fam used → Once fam used ds → m.run F ds = some m' →
    ∃ fam' used', famRun fam ds = some fam' ∧ Inv F m' fam' used' := by
  intro ds
  induction ds with
  | nil =>
    intro m m' fam used inv _ h
    simp [Store.run] at h; subst h
    exact ⟨fam, used, rfl, inv⟩
  | cons d ds ih =>
    intro m m' fam used inv ho h
    simp only [Store.run, Option.bind_eq_some_iff] at h
    obtain ⟨m1, h1, h2⟩ := h
    obtain ⟨fam1, hf1, inv1⟩ := step_inv hF inv ho.1 h1
    obtain ⟨fam', used', hf', inv'⟩ := ih inv1 (ho.2 fam1 hf1) h2
    exact ⟨fam', used', by simp [famRun, hf1, hf'], inv'⟩

theorem famStep_prefix {fam fam' : List H} {d} (h : famStep fam d = some fam') : fam <+: fam' := by
  unfold famStep at h
  split at h
  · simp at h; subst h; exact List.prefix_refl _
  · simp only [Option.map_eq_some_iff] at h
    obtain ⟨x, _, rfl⟩ := h
    exact List.prefix_append _ _

theorem famRun_prefix : ∀ (ds : List (Nat × Op)) {fam fam' : List H}, famRun fam ds = some fam' →
    fam <+: fam' := by
  intro ds
  induction ds with
  | nil => intro fam fam' h; simp [famRun] at h; subst h; exact List.prefix_refl _
  | cons d ds ih =>
    intro fam fam' h
    simp only [famRun, Option.bind_eq_some_iff] at h
    obtain ⟨f1, h1, h2⟩ := h
    exact (famStep_prefix h1).trans (ih h2)

theorem run_append (F : Fam) : ∀ (ds es : List (Nat × Op)) (m : Store),
    m.run F (ds ++ es) = (m.run F ds).bind (·.run F es) := by
  intro ds
  induction ds with
  | nil => intro es m; rfl
  | cons d ds ih =>
    intro es m
    simp only [List.cons_append, Store.run]
    cases m.step F d with
    | none => rfl
    | some m1 => exact ih es m1

theorem famRun_append : ∀ (ds es : List (Nat × Op)) (fam : List H),
    famRun fam (ds ++ es) = (famRun fam ds).bind (famRun · es) := by
  intro ds
  induction ds with
  | nil => intro es m; rfl
  | cons d ds ih =>
    intro es m
    simp only [List.cons_append, famRun]
    cases famStep m d with
    | none => rfl
    | some m1 => exact ih es m1

theorem once_append : ∀ (ds es : List (Nat × Op)) {fam used}, Once fam used (ds ++ es) →
    Once fam used ds := by
  intro ds
  induction ds with
  | nil => intro es fam used _; exact trivial
  | cons d ds ih =>
    intro es fam used h
    exact ⟨h.1, fun f hf => ih es (h.2 f hf)⟩

/-! ### Without ReplaceAttr the group lists do not matter -/

/-- Two settings that differ in the group list only, without ReplaceAttr. -/
def Cfg.alike (c c' : Cfg) : Prop :=
  c.env = c'.env ∧ c.replace = none ∧ c'.replace = none ∧ c.writer = c'.writer

theorem addAttribute_alike {c c' : Cfg} (h : c.alike c') (n : Nat) :
    addAttribute c n = addAttribute c' n := by
  obtain ⟨env, rep, gs, w⟩ := c
  obtain ⟨env', rep', gs', w'⟩ := c'
  obtain ⟨h1, h2, h3, h4⟩ := h
  simp only at h1 h2 h3 h4
  subst h1 h2 h3 h4
  induction n with
  | zero => rfl
  | succ n ih =>
    funext st a
    unfold addAttribute
    rw [ih]
    rfl

theorem addAttributes_alike {c c' : Cfg} (h : c.alike c') : addAttributes c = addAttributes c' := by
  funext as st
  unfold addAttributes
  rw [addAttribute_alike h, h.1]

/-- Forget the group list. -/
def Handler.bare (h : Handler) : Handler := { h with groups := [] }

/-- Forget the group lists. -/
def H.bare : H → H
  | .plain h => .plain h.bare
  | .group h name p => .group h.bare name p.bare

theorem bare_core (h : H) : h.bare.core = h.core.bare := by cases h <;> rfl

theorem handler_bare_handle (h : Handler) (hr : h.options.replace = none) (w : Writer) (r : Record) :
    h.bare.handle w r = h.handle w r := by
  have e : addAttributes (h.bare.cfg w) = addAttributes (h.cfg w) :=
    addAttributes_alike ⟨rfl, hr, hr, rfl⟩
  unfold Handler.handle
  simp only [e]
  rfl

/-- All handlers of a chain of parents have no ReplaceAttr. -/
def H.NoReplace : H → Prop
  | .plain h => h.options.replace = none
  | .group h _ p => h.options.replace = none ∧ p.NoReplace

theorem bare_handle : ∀ (h : H), h.NoReplace → ∀ ctx w r, h.bare.handle ctx w r = h.handle ctx w r
  | .plain h, hr, _, w, r => handler_bare_handle h hr w r
  | .group h name p, hr, ctx, w, r => by
    simp only [H.bare, H.handle]
    split
    · exact bare_handle p hr.2 _ w r
    · exact handler_bare_handle h hr.1 w r

theorem noReplace_core {h : H} (hr : h.NoReplace) : h.core.options.replace = none := by
  cases h with
  | plain h => exact hr
  | group h n p => exact hr.1

theorem bare_withAttrs (h : Handler) (hr : h.options.replace = none) (as : List Attr) :
    h.bare.withAttrs as = (h.withAttrs as).map Handler.bare := by
  have e : addAttributes (h.bare.cfg sure) = addAttributes (h.cfg sure) :=
    addAttributes_alike ⟨rfl, hr, hr, rfl⟩
  unfold Handler.withAttrs
  simp only [e]
  have e2 : h.bare.pfx = h.pfx := rfl
  rw [e2]
  generalize addAttributes (h.cfg sure) as _ = o
  cases o <;> rfl

theorem bare_bare (h : H) : h.bare.bare = h.bare := by
  induction h with
  | plain h => rfl
  | group h n p ih => simp only [H.bare, ih]; rfl

/-- Derivation of what prints the same gives what prints the same. -/
theorem bare_step (h : H) (hr : h.NoReplace) (op : Op) :
    (h.bare.step op).map H.bare = (h.step op).map H.bare := by
  cases op with
  | attrs as =>
    simp only [H.step, H.withAttrs, bare_core, bare_withAttrs _ (noReplace_core hr)]
    cases h.core.withAttrs as <;> rfl
  | group name =>
    simp only [H.step, H.withGroup, Option.map_some, Option.some.injEq, bare_core]
    split
    · rfl
    · simp only [H.bare, bare_bare]
      rfl

theorem bare_step_congr {h h' : H} (hr : h.NoReplace) (hr' : h'.NoReplace) (e : h.bare = h'.bare) (op : Op) :
    (h.step op).map H.bare = (h'.step op).map H.bare := by
  rw [← bare_step h hr, ← bare_step h' hr', e]

theorem noReplace_step {h h' : H} (hr : h.NoReplace) {op : Op} (e : h.step op = some h') : h'.NoReplace := by
  have hc := noReplace_core hr
  cases op with
  | attrs as =>
    simp only [H.step, H.withAttrs, Option.map_eq_some_iff] at e
    obtain ⟨x, hx, rfl⟩ := e
    unfold Handler.withAttrs at hx
    simp only at hx
    split at hx
    · simp at hx; rw [← hx]; exact hc
    · simp at hx; rw [← hx]; exact hc
    · cases hx
  | group name =>
    simp only [H.step, H.withGroup, Option.some.injEq] at e
    subst e
    split
    · exact hc
    · exact ⟨hc, hr⟩

/-- The values, without group lists, are told by the objects alone. -/
theorem values_bare (F : Fam) (m m' : Store) (h : m.nodes = m'.nodes) :
    (m.values F).map H.bare = (m'.values F).map H.bare := by
  have hv : ∀ n, (m.view F n).bare = (m'.view F n).bare := fun n => rfl
  have hval : ∀ (acc acc' : List H) n, acc.map H.bare = acc'.map H.bare →
      (m.value F acc n).bare = (m'.value F acc' n).bare := by
    intro acc acc' n e
    unfold Store.value
    split
    · simp only [H.bare, hv n]
    · rename_i name p _
      have ep := congrArg (fun l => l[p]?) e
      simp only [List.getElem?_map] at ep
      cases h1 : acc[p]? <;> cases h2 : acc'[p]? <;> rw [h1, h2] at ep
      · simp only [H.bare, Option.getD_none, hv n]
      · cases ep
      · cases ep
      · simp only [Option.map_some, Option.some.injEq] at ep
        simp only [H.bare, Option.getD_some, ep, hv n]
  have main : ∀ (ns : List Node) (acc acc' : List H), acc.map H.bare = acc'.map H.bare →
      (ns.foldl (fun acc n => acc ++ [m.value F acc n]) acc).map H.bare =
        (ns.foldl (fun acc n => acc ++ [m'.value F acc n]) acc').map H.bare := by
    intro ns
    induction ns with
    | nil => intro _ _ e; exact e
    | cons n ns ih =>
      intro acc acc' e
      simp only [List.foldl_cons]
      apply ih
      simp [e, hval acc acc' n e]
  unfold Store.values
  rw [h]
  exact main _ [] [] rfl

/-- The invariant without ReplaceAttr. -/
structure Loose (F : Fam) (m : Store) (fam : List H) : Prop where
  values : (m.values F).map H.bare = fam.map H.bare
  none : ∀ h ∈ fam, h.NoReplace

theorem values_noReplace {F : Fam} (hr : F.options.replace = none) (m : Store) :
    ∀ h ∈ m.values F, h.NoReplace := by
  have : ∀ (ns : List Node) (acc : List H), (∀ h ∈ acc, h.NoReplace) →
      ∀ h ∈ ns.foldl (fun acc n => acc ++ [m.value F acc n]) acc, h.NoReplace := by
    intro ns
    induction ns with
    | nil => intro acc h; exact h
    | cons n ns ih =>
      intro acc h
      simp only [List.foldl_cons]
      apply ih
      intro x hx
      rcases List.mem_append.1 hx with hx | hx
      · exact h x hx
      · simp at hx; subst hx
        unfold Store.value
        split
        · exact hr
        · rename_i name p _
          refine ⟨hr, ?_⟩
          cases hp : acc[p]? with
          | none => exact hr
          | some y => exact h y (List.mem_of_getElem? hp)
  exact this m.nodes [] (by simp)

theorem step_loose {F : Fam} (hr : F.options.replace = none) {m m' : Store} {fam : List H}
    (inv : Loose F m fam) {d : Nat × Op} (hstep : m.step F d = some m') :
    ∃ fam', famStep fam d = some fam' ∧ Loose F m' fam' := by
  obtain ⟨i, op⟩ := d
  unfold Store.step at hstep
  simp only at hstep
  have hlen : fam.length = m.nodes.length := by
    have := congrArg List.length inv.values
    simp only [List.length_map, values_length] at this
    exact this.symm
  cases hn : m.nodes[i]? with
  | none =>
    rw [hn] at hstep
    simp at hstep; subst hstep
    have hfam : fam[i]? = none := by
      rw [List.getElem?_eq_none_iff, hlen]
      exact List.getElem?_eq_none_iff.1 hn
    exact ⟨fam, by simp [famStep, hfam], inv⟩
  | some n =>
    rw [hn] at hstep
    simp only at hstep
    have hmem : n ∈ m.nodes := List.mem_of_getElem? hn
    obtain ⟨x, hx, hcore⟩ := values_core F m hn
    have hxr : x.NoReplace := values_noReplace hr m x (List.mem_of_getElem? hx)
    have hy : ∃ y, fam[i]? = some y ∧ x.bare = y.bare := by
      have e := congrArg (fun l => l[i]?) inv.values
      simp only [List.getElem?_map, hx, Option.map_some] at e
      cases hy : fam[i]? with
      | none => rw [hy] at e; cases e
      | some y => rw [hy] at e; exact ⟨y, rfl, by simpa using e⟩
    obtain ⟨y, hy, hxy⟩ := hy
    have hyr := inv.none y (List.mem_of_getElem? hy)
    -- what the step adds
    have added : ∀ (m1 : Store) (node : Node) (z : H), m'.nodes = m.nodes ++ [node] →
        m1.nodes = m'.nodes → m1.G = m.G →
        (m1.value F (m1.values F |>.take m.nodes.length) node).bare = z.bare →
        (m'.values F).map H.bare = (m.values F).map H.bare ++ [z.bare] := by
      intro m1 node z h1 h2 h3 h4
      have hview : ∀ n, m1.view F n = m.view F n := fun n => by unfold Store.view; rw [h3]
      have hs := values_snoc (F := F) (m := m) (m' := m1) (n := node) (h2.trans h1) (fun n _ => hview n)
      rw [values_bare F m' m1 h2.symm, hs, List.map_append, List.map_singleton]
      rw [hs, List.take_left' (values_length F m)] at h4
      rw [h4]
    have finish : ∀ (z z' : H), x.step op = some z → y.step op = some z' →
        (m'.values F).map H.bare = (m.values F).map H.bare ++ [z.bare] →
        ∃ fam', famStep fam (i, op) = some fam' ∧ Loose F m' fam' := by
      intro z z' hz hz' hm
      refine ⟨fam ++ [z'], by simp [famStep, hy, hz'], ⟨?_, ?_⟩⟩
      · have := bare_step_congr hxr hyr hxy op
        rw [hz, hz'] at this
        simp only [Option.map_some, Option.some.injEq] at this
        rw [hm, inv.values, this]
        simp
      · intro w hw
        rcases List.mem_append.1 hw with hw | hw
        · exact inv.none w hw
        · simp at hw; subst hw; exact noReplace_step hyr hz'
    have other : ∀ z, x.step op = some z → ∃ z', y.step op = some z' := by
      intro z hz
      have := bare_step_congr hxr hyr hxy op
      rw [hz] at this
      cases hz' : y.step op with
      | none => rw [hz'] at this; cases this
      | some z' => exact ⟨z', rfl⟩
    cases op with
    | attrs as =>
      simp only [Store.withAttrs, Option.map_eq_some_iff] at hstep
      obtain ⟨h', hw, hm'⟩ := hstep
      have hz : x.step (.attrs as) = some (.plain h') := by simp [H.step, H.withAttrs, hcore, hw]
      obtain ⟨z', hz'⟩ := other _ hz
      refine finish _ z' hz hz' (added m' ⟨h'.pfx, h'.sfx, n.grp, none⟩ _ (by rw [← hm']) rfl (by rw [← hm']) ?_)
      have hsame : h'.env = F.env ∧ h'.options = F.options := by
        unfold Handler.withAttrs at hw
        simp only at hw
        split at hw
        · simp at hw; rw [← hw]; exact ⟨rfl, rfl⟩
        · simp at hw; rw [← hw]; exact ⟨rfl, rfl⟩
        · cases hw
      obtain ⟨e1, e2⟩ := hsame
      obtain ⟨env, options, pfx, sfx, groups⟩ := h'
      simp only at e1 e2
      simp only [Store.value, Store.view, H.bare, Handler.bare, e1, e2]
    | group name =>
      simp only [Option.some.injEq] at hstep
      have hz : x.step (.group name) = some (x.withGroup name) := rfl
      obtain ⟨z', hz'⟩ := other _ hz
      by_cases hname : name = []
      · subst hname
        simp only [Store.withGroup, if_pos] at hstep
        refine finish _ z' hz hz' (added m' { n with parent := none } _ (by rw [← hstep]) rfl (by rw [← hstep]) ?_)
        simp only [Store.value, H.withGroup, if_pos, H.bare, hcore]
        rfl
      · simp only [Store.withGroup, if_neg hname] at hstep
        have hi : i < m.nodes.length := (List.getElem?_eq_some_iff.1 hn).1
        refine finish _ z' hz hz' (added { m' with G := m.G }
          ⟨((m.view F n).openGroup name).pfx, ((m.view F n).openGroup name).sfx,
            (m.G.append F.grow n.grp [name]).2, some (name, i)⟩ _ (by rw [← hstep]) rfl rfl ?_)
        have hs := values_snoc (F := F) (m := m) (m' := { m' with G := m.G }) (n := _)
          (by rw [← hstep]) (fun n _ => rfl)
        rw [hs, List.take_left' (values_length F m)]
        simp only [Store.value, hx, H.withGroup, hname, if_false, H.bare, Option.getD_some]
        simp only [hcore]
        rfl

theorem run_loose {F : Fam} (hr : F.options.replace = none) : ∀ (ds : List (Nat × Op)) {m m' : Store} {fam},
    Loose F m fam → m.run F ds = some m' → ∃ fam', famRun fam ds = some fam' ∧ Loose F m' fam' := by
  intro ds
  induction ds with
  | nil =>
    intro m m' fam inv h
    simp [Store.run] at h; subst h
    exact ⟨fam, rfl, inv⟩
  | cons d ds ih =>
    intro m m' fam inv h
    simp only [Store.run, Option.bind_eq_some_iff] at h
    obtain ⟨m1, h1, h2⟩ := h
    obtain ⟨fam1, hf1, inv1⟩ := step_loose hr inv h1
    obtain ⟨fam', hf', inv'⟩ := ih inv1 h2
    exact ⟨fam', by simp [famRun, hf1, hf'], inv'⟩

end Verif.Sloggy
