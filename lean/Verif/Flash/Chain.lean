import Verif.Flash.Render

/-
Lemmas: what a derived flash handler prints, in terms of the handler it was
derived from.
-/

set_option linter.unusedSimpArgs false

namespace Verif.Flash
open Slog

/-- The line up to the final brace, from the state after the built-in fields
and the member texts of the record. -/
def Handler.finish (h : Handler) (st : St) (ts : List Bytes) : Bytes :=
  ((h.addPrefix st).addTexts ts).buffer ++ h.sfx

/-- The suffix consists of closing braces. -/
def Handler.Braces (h : Handler) : Prop := ∀ b ∈ h.sfx, b = 0x7D

/-- Text of a key printed without escaping. -/
def rawKey (n : Bytes) : Bytes := 0x22 :: (n ++ [0x22, 0x3A, 0x20])

/-- Member texts that do not look like an opened group and are not empty. -/
def Shut (ts : List Bytes) : Prop := ∀ t ∈ ts, t ≠ [] ∧ endsOpen t = false

theorem endsOpen_append {a b : Bytes} (hb : b ≠ []) : endsOpen (a ++ b) = endsOpen b := by
  simp [endsOpen, List.getLast?_append]
  cases h : b.getLast? with
  | none => simp at h; exact absurd h hb
  | some x => simp

theorem sepText_ends : ∀ (ts : List Bytes) (s : Bool), Shut ts → ts ≠ [] →
    sepText s ts ≠ [] ∧ endsOpen (sepText s ts) = false := by
  intro ts
  induction ts with
  | nil => intro s _ h; exact absurd rfl h
  | cons t ts ih =>
    intro s hs _
    have ht := hs t (by simp)
    have hs' : Shut ts := fun x hx => hs x (by simp [hx])
    by_cases hne : ts = []
    · subst hne
      cases s with
      | false => simpa [sepText] using ht
      | true =>
        simp only [sepText, List.append_nil]
        refine ⟨by simp, ?_⟩
        have := endsOpen_append (a := [0x2C, 0x20]) ht.1
        simpa [ht.2] using this
    · obtain ⟨h1, h2⟩ := ih true hs' hne
      cases s with
      | false =>
        simp only [sepText]
        exact ⟨by simp [h1], by rw [endsOpen_append h1, h2]⟩
      | true =>
        simp only [sepText]
        refine ⟨by simp, ?_⟩
        have := endsOpen_append (a := 0x2C :: 0x20 :: t) h1
        simpa [h2] using this

/-- Rendering attributes into the prefix or into the line is the same. -/
theorem addPrefix_withTexts (h : Handler) (st : St) (ts : List Bytes) (hs : Shut ts) :
    ({ h with pfx := (St.addTexts ⟨h.pfx, h.pfx.length > 0 && !endsOpen h.pfx⟩ ts).buffer } :
      Handler).addPrefix st = (h.addPrefix st).addTexts ts := by
  by_cases hne : ts = []
  · subst hne
    simp [St.addTexts_nil]
  · obtain ⟨b, s⟩ := st
    simp only [St.addTexts]
    by_cases hp : h.pfx = []
    · obtain ⟨h1, h2⟩ := sepText_ends ts false hs hne
      have h3 : (sepText false ts).length > 0 := List.length_pos_iff.2 h1
      simp only [Handler.addPrefix, hp, List.length_nil, gt_iff_lt, Nat.lt_irrefl, decide_false,
        Bool.false_and, List.nil_append, h3, if_true, h2, Bool.false_eq_true, if_false]
      cases s <;> cases ts <;> simp_all [St.addSeparator, St.add, sepText]
    · have hp' : h.pfx.length > 0 := List.length_pos_iff.2 hp
      cases ho : endsOpen h.pfx with
      | true =>
        obtain ⟨h1, h2⟩ := sepText_ends ts false hs hne
        have h4 : endsOpen (h.pfx ++ sepText false ts) = false := by rw [endsOpen_append h1, h2]
        simp only [Handler.addPrefix, hp', decide_true, ho, Bool.not_true, Bool.and_false,
          List.length_append, gt_iff_lt, Nat.add_pos_left, if_true, h4, Bool.false_eq_true,
          if_false]
        cases s <;> cases ts <;> simp_all [St.addSeparator, St.add, sepText]
      | false =>
        obtain ⟨h1, h2⟩ := sepText_ends ts true hs hne
        have h4 : endsOpen (h.pfx ++ sepText true ts) = false := by rw [endsOpen_append h1, h2]
        simp only [Handler.addPrefix, hp', decide_true, ho, Bool.not_false, Bool.and_true,
          List.length_append, gt_iff_lt, Nat.add_pos_left, if_true, h4, Bool.false_eq_true,
          if_false]
        cases s <;> simp_all [St.addSeparator, St.add, sepText]

theorem finish_withTexts (h : Handler) (st : St) (as ts : List Bytes) (hs : Shut as) :
    ({ h with pfx := (St.addTexts ⟨h.pfx, h.pfx.length > 0 && !endsOpen h.pfx⟩ as).buffer } :
      Handler).finish st ts = h.finish st (as ++ ts) := by
  rw [Handler.finish, addPrefix_withTexts h st as hs, St.addTexts_append, Handler.finish]

theorem braces_append {s : Bytes} (h : ∀ b ∈ s, b = 0x7D) : s ++ [0x7D] = 0x7D :: s := by
  induction s with
  | nil => rfl
  | cons a s ih =>
    have ha := h a (by simp); subst ha
    simp [ih fun b hb => h b (by simp [hb])]

/-- Opening a group and rendering into it is the same as rendering one member
with an object value. -/
theorem finish_openGroup (h : Handler) (hb : h.Braces) (st : St) (name : Bytes) (ts : List Bytes) :
    (h.openGroup name).finish st ts =
      h.finish st [rawKey name ++ objText ts] := by
  have hopen : ∀ x : Bytes, endsOpen (x ++ b!"\": {") = true := by
    intro x; rw [endsOpen_append (by simp)]; decide
  have hopen' : ∀ x : Bytes, endsOpen (x ++ 0x22 :: (name ++ b!"\": {")) = true := by
    intro x
    have := hopen (x ++ 0x22 :: name)
    simpa using this
  have h0 := hopen' []
  have h2 : ∀ x : Bytes, endsOpen (x ++ 0x2C :: 0x20 :: 0x22 :: (name ++ b!"\": {")) = true := by
    intro x
    have := hopen' (x ++ [0x2C, 0x20])
    simpa using this
  rw [List.nil_append] at h0
  have hbr := braces_append hb
  obtain ⟨b, s⟩ := st
  simp only [Handler.finish, Handler.openGroup, Handler.addPrefix, ← List.append_assoc]
  simp only [List.append_assoc, hopen']
  by_cases hp : h.pfx = []
  · cases s <;> simp [hp, St.addSeparator, St.add, St.addTexts, sepText, rawKey, objText, hbr, h0]
  · have hp' : h.pfx.length > 0 := List.length_pos_iff.2 hp
    cases ho : endsOpen h.pfx <;> cases s <;>
      simp [hp, hp', ho, St.addSeparator, St.add, St.addTexts, sepText, rawKey, objText, hbr, hopen', h2,
        Nat.add_pos_left hp']

/-! ### Derivation chains -/

/-- A derivation step with the member texts its attributes give. -/
inductive TOp
  | texts (ts : List Bytes)
  | group (n : Bytes)

/-- One step. -/
def TStep (h : H) (h' : H) : TOp → Prop
  | .texts ts => Shut ts ∧ h' = .plain { h.core with
      pfx := (St.addTexts ⟨h.core.pfx, h.core.pfx.length > 0 && !endsOpen h.core.pfx⟩ ts).buffer }
  | .group n => h' = h.withGroup n

/-- A chain of steps. -/
inductive Derived : H → List TOp → H → Prop
  | nil (h : H) : Derived h [] h
  | cons {h h1 h' : H} {op : TOp} {ops : List TOp} :
      TStep h h1 op → Derived h1 ops h' → Derived h (op :: ops) h'

/-- Nothing but named groups. -/
def tGroupsOnly (ops : List TOp) : Bool :=
  ops.all fun | .group n => !n.isEmpty | .texts _ => false

/-- Member texts at the level of the original handler. `quiet`: trailing groups
are left out. -/
def chain (quiet : Bool) : List TOp → List Bytes → List Bytes
  | [], ts => ts
  | .texts as :: ops, ts => as ++ chain quiet ops ts
  | .group n :: ops, ts =>
    if n.isEmpty then chain quiet ops ts
    else if quiet && tGroupsOnly ops then ts
    else [rawKey n ++ objText (chain quiet ops ts)]

theorem chain_groupsOnly {ops : List TOp} (h : tGroupsOnly ops = true) (ts : List Bytes) :
    chain true ops ts = ts := by
  match ops with
  | [] => rfl
  | .texts as :: ops => simp [tGroupsOnly] at h
  | .group n :: ops =>
    simp only [tGroupsOnly, List.all_cons, Bool.and_eq_true] at h
    have h2 : tGroupsOnly ops = true := h.2
    have h1 : n.isEmpty = false := by simpa using h.1
    simp [chain, h1, h2]

/-- The handler that takes records without attributes. -/
def H.root : H → Handler
  | .plain h => h
  | .group _ _ p => p.root

theorem TStep.braces {h h' : H} {op : TOp} (hs : TStep h h' op) (hb : h.core.Braces) :
    h'.core.Braces := by
  cases op with
  | texts ts => obtain ⟨_, rfl⟩ := hs; exact hb
  | group n =>
    simp only [TStep] at hs; subst hs
    unfold H.withGroup
    split
    · exact hb
    · intro b hm
      simp [H.core, Handler.openGroup] at hm
      rcases hm with hm | hm
      · exact hb b hm
      · exact hm

theorem finish_core {h h' : H} {ops : List TOp} (hd : Derived h ops h') (hb : h.core.Braces)
    (st : St) (ts : List Bytes) :
    h'.core.finish st ts = h.core.finish st (chain false ops ts) := by
  induction hd with
  | nil => rfl
  | @cons h h1 h' op ops hs _ ih =>
    rw [ih (hs.braces hb)]
    cases op with
    | texts as =>
      obtain ⟨hsh, rfl⟩ := hs
      exact finish_withTexts _ _ _ _ hsh
    | group n =>
      simp only [TStep] at hs; subst hs
      unfold H.withGroup
      split
      · rename_i hn; simp [chain, hn, H.core]
      · rename_i hn
        simp only [H.core, chain, List.isEmpty_iff, hn, if_false, Bool.false_and,
          Bool.false_eq_true]
        exact finish_openGroup _ hb _ _ _

theorem finish_root {h h' : H} {ops : List TOp} (hd : Derived h ops h') (hb : h.core.Braces)
    (st : St) (ts : List Bytes) :
    h'.root.finish st ts = if tGroupsOnly ops then h.root.finish st ts
      else h.core.finish st (chain true ops ts) := by
  induction hd with
  | nil => simp [tGroupsOnly]
  | @cons h h1 h' op ops hs _ ih =>
    rw [ih (hs.braces hb)]
    cases op with
    | texts as =>
      obtain ⟨hsh, rfl⟩ := hs
      have e : tGroupsOnly (TOp.texts as :: ops) = false := by simp [tGroupsOnly]
      simp only [e, Bool.false_eq_true, if_false, H.root, H.core, chain]
      rw [← finish_withTexts _ _ _ _ hsh]
      split
      · rename_i hg; rw [chain_groupsOnly hg]; rfl
      · rfl
    | group n =>
      simp only [TStep] at hs; subst hs
      by_cases hn : n = []
      · subst hn
        have e0 : h.withGroup [] = .plain h.core := rfl
        rw [e0]
        have e : tGroupsOnly (TOp.group [] :: ops) = false := by simp [tGroupsOnly]
        simp only [e, Bool.false_eq_true, if_false, H.root, H.core, chain, List.isEmpty_nil, if_true]
        split
        · rename_i hg; rw [chain_groupsOnly hg]
        · rfl
      · have e0 : h.withGroup n = .group (h.core.openGroup n) n h := by simp [H.withGroup, hn]
        rw [e0]
        have e : tGroupsOnly (TOp.group n :: ops) = tGroupsOnly ops := by
          simp [tGroupsOnly, hn]
        rw [e]
        split
        · rfl
        · rename_i hg
          simp only [H.core, chain, List.isEmpty_iff, hn, if_false, Bool.true_and, hg]
          exact finish_openGroup _ hb _ _ _

/-! ### Handle -/

theorem handle_texts {h : Handler} {r : Record} {st : St} {ts : List Bytes}
    (hb : h.basics r = .ok st)
    (ht : allTexts (attrTexts h.cfg h.cfg.env.stack) r.attrs = some ts) :
    h.handle r = .line (h.finish st ts ++ [0x7D, 0x0A]) := by
  rw [Handler.handle, hb]
  simp only [Out.bind]
  rw [addAttributes_eq ht]
  simp only [Handler.finish]
  split
  · rfl
  · rename_i hl
    have : h.sfx = [] := by simpa using hl
    simp [this]

theorem firstNonEmpty_none {as : List Attr} : firstNonEmpty as = none ↔ as.all Attr.isEmpty = true := by
  simp [firstNonEmpty]

theorem H.handle_quiet (h : H) (ctx : Ctx) (r : Record) (hq : r.attrs.all Attr.isEmpty = true) :
    h.handle ctx r = h.root.handle r := by
  induction h generalizing ctx with
  | plain h => rfl
  | group h n p ih =>
    simp [H.handle, skipGroup, firstNonEmpty_none.2 hq, H.root, ih]

theorem H.handle_loud (h : H) (r : Record) (hq : r.attrs.all Attr.isEmpty = false) :
    h.handle none r = h.core.handle r := by
  cases h with
  | plain h => rfl
  | group h n p =>
    have : firstNonEmpty r.attrs ≠ none := fun e => by
      rw [firstNonEmpty_none.1 e] at hq; cases hq
    obtain ⟨a, ha⟩ := Option.ne_none_iff_exists'.1 this
    simp [H.handle, skipGroup, ha, H.core]

theorem finish_new (env : Env) (o : Options) (x : Extras) (bs ts : List Bytes) :
    (newHandler env o x).finish (St.addTexts ⟨[0x7B], false⟩ bs) ts ++ [0x7D, 0x0A] =
      objText (bs ++ ts) ++ [0x0A] := by
  simp [Handler.finish, newHandler, Handler.addPrefix, St.addTexts, objText, sepText_append]

end Verif.Flash
