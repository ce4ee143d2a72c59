import Verif.Spec.Hollow
import Verif.Spec.JsonJam
import Verif.Flash.Replace

/-
Lemmas: what flash prints when a ReplaceAttr function is in force that may empty groups.
-/

set_option linter.unusedSimpArgs false

namespace Verif.Flash
open Slog Json LogTree

/-! ### Pieces of text -/

/-- The text of a member, and whether the composer forgets that it has written something. -/
structure Piece where
  text : Bytes
  lost : Bool

/-- Appending pieces. -/
def St.addPieces : St → List Piece → St
  | st, [] => st
  | st, p :: ps => St.addPieces { (st.addSeparator.add p.text) with started := !p.lost } ps

/-- The text appended. -/
def piecesText (s : Bool) (ps : List Piece) : Bytes := (St.addPieces ⟨[], s⟩ ps).buffer

theorem addPieces_append (st : St) (xs ys : List Piece) : (st.addPieces xs).addPieces ys = st.addPieces (xs ++ ys) := by
  induction xs generalizing st with
  | nil => rfl
  | cons x xs ih => simp only [St.addPieces, List.cons_append, ih]

theorem addPieces_buffer (c b : Bytes) (s : Bool) (ps : List Piece) :
    St.addPieces ⟨c ++ b, s⟩ ps = ⟨c ++ (St.addPieces ⟨b, s⟩ ps).buffer, (St.addPieces ⟨b, s⟩ ps).started⟩ := by
  induction ps generalizing b s with
  | nil => rfl
  | cons p ps ih =>
    cases s <;> simp only [St.addPieces, St.addSeparator, St.add, Bool.not_false, Bool.not_true, if_true, if_false,
      Bool.false_eq_true, List.append_assoc] <;> exact ih _ _

theorem addPieces_eq (st : St) (ps : List Piece) :
    st.addPieces ps = ⟨st.buffer ++ piecesText st.started ps, (St.addPieces ⟨[], st.started⟩ ps).started⟩ := by
  have := addPieces_buffer st.buffer [] st.started ps
  rw [List.append_nil] at this
  exact this

theorem piecesText_nil (s : Bool) : piecesText s [] = [] := rfl

theorem piecesText_false (p : Piece) (ps : List Piece) :
    piecesText false (p :: ps) = p.text ++ piecesText (!p.lost) ps := by
  rw [piecesText, St.addPieces]
  simp only [St.addSeparator, St.add, Bool.not_false, if_true, List.nil_append]
  rw [addPieces_eq]

theorem piecesText_true (p : Piece) (ps : List Piece) :
    piecesText true (p :: ps) = 0x2C :: 0x20 :: piecesText false (p :: ps) := by
  rw [piecesText_false, piecesText, St.addPieces]
  simp only [St.addSeparator, St.add, Bool.not_true, Bool.false_eq_true, if_false, List.nil_append]
  rw [addPieces_eq]
  simp

/-- A piece stands for a member. -/
structure Fits (p : Piece) (m : Bytes × Shape) : Prop where
  lost : p.lost = m.2.hollow
  quote : ∃ b, p.text = 0x22 :: b
  shut : endsOpen p.text = false
  good : m.2.sound = true → MemberText p.text (m.1, m.2.tree)
  bad : m.2.sound = false → Jam p.text

theorem pieces_started {ps : List Piece} {ms : List (Bytes × Shape)} (h : List.Forall₂ Fits ps ms) :
    ∀ (b : Bytes) (s : Bool), (St.addPieces ⟨b, s⟩ ps).started = !endsHollow (!s) ms := by
  induction h with
  | nil => intro b s; simp [St.addPieces, endsHollow]
  | @cons p m ps ms h1 _ ih =>
    intro b s
    obtain ⟨k, sh⟩ := m
    simp only [St.addPieces, endsHollow]
    have e : ∀ st : St, ({ (st.addSeparator.add p.text) with started := !p.lost } : St) =
        ⟨(st.addSeparator.add p.text).buffer, !p.lost⟩ := fun _ => rfl
    rw [e, ih, h1.lost, Bool.not_not]

theorem pieces_quote {ps : List Piece} {ms : List (Bytes × Shape)} (h : List.Forall₂ Fits ps ms) (hne : ms ≠ []) :
    (∃ b, piecesText false ps = 0x22 :: b) ∧ piecesText true ps = 0x2C :: 0x20 :: piecesText false ps := by
  cases h with
  | nil => exact absurd rfl hne
  | cons h1 _ =>
    obtain ⟨b, hb⟩ := h1.quote
    exact ⟨⟨b ++ _, by rw [piecesText_false, hb]; rfl⟩, piecesText_true _ _⟩

theorem pieces_shut {ps : List Piece} {ms : List (Bytes × Shape)} (h : List.Forall₂ Fits ps ms) (hne : ms ≠ []) :
    ∀ s, piecesText s ps ≠ [] ∧ endsOpen (piecesText s ps) = false := by
  have key : piecesText false ps ≠ [] ∧ endsOpen (piecesText false ps) = false := by
    induction h with
    | nil => exact absurd rfl hne
    | @cons p m ps ms h1 h2 ih =>
      obtain ⟨b, hb⟩ := h1.quote
      rw [piecesText_false]
      refine ⟨by simp [hb], ?_⟩
      by_cases hm : ms = []
      · subst hm; cases h2; rw [piecesText_nil, List.append_nil]; exact h1.shut
      · obtain ⟨i1, i2⟩ := ih hm
        cases p.lost with
        | false =>
          rw [Bool.not_false, (pieces_quote h2 hm).2, endsOpen_append (by simp)]
          have := endsOpen_append (a := [0x2C, 0x20]) i1
          simpa [i2] using this
        | true => rw [Bool.not_true, endsOpen_append i1, i2]
  intro s
  cases s with
  | false => exact key
  | true =>
    rw [(pieces_quote h hne).2]
    have := endsOpen_append (a := [0x2C, 0x20]) key.1
    exact ⟨by simp, by simpa [key.2] using this⟩

theorem pieces_good {ps : List Piece} {ms : List (Bytes × Shape)} (h : List.Forall₂ Fits ps ms) (hs : soundList ms = true) :
    ∃ ts, List.Forall₂ MemberText ts (shapeTrees ms) ∧ ∀ s, piecesText s ps = sepText s ts := by
  induction h with
  | nil => exact ⟨[], .nil, fun _ => rfl⟩
  | @cons p m ps ms h1 h2 ih =>
    obtain ⟨k, sh⟩ := m
    simp only [soundList, Bool.and_eq_true] at hs
    obtain ⟨ts, i1, i2⟩ := ih hs.2
    have e : piecesText false (p :: ps) = sepText false (p.text :: ts) := by
      rw [piecesText_false, sepText]
      cases h2 with
      | nil => cases i1; rfl
      | cons h3 h4 =>
        have hl : p.lost = false := by
          rw [h1.lost]
          simpa using hs.1.2
        rw [hl, Bool.not_false, i2]
    refine ⟨p.text :: ts, .cons (h1.good hs.1.1) i1, fun s => ?_⟩
    cases s with
    | false => exact e
    | true => rw [piecesText_true, e]; rfl

theorem pieces_bad {ps : List Piece} {ms : List (Bytes × Shape)} (h : List.Forall₂ Fits ps ms) (hs : soundList ms = false) :
    Jam (piecesText false ps) := by
  induction h with
  | nil => cases hs
  | @cons p m ps ms h1 h2 ih =>
    obtain ⟨k, sh⟩ := m
    rw [piecesText_false]
    cases hsh : sh.sound with
    | false => exact (h1.bad hsh).append _
    | true =>
      have hm := h1.good hsh
      have hne : ms ≠ [] := by
        rintro rfl
        simp [soundList, hsh] at hs
      obtain ⟨⟨b, hb⟩, hc⟩ := pieces_quote h2 hne
      cases hh : sh.hollow with
      | true =>
        have hl : p.lost = true := by rw [h1.lost]; exact hh
        rw [hl, Bool.not_true, hb]
        exact jam_next hm b
      | false =>
        have hl : p.lost = false := by rw [h1.lost]; exact hh
        rw [hl, Bool.not_false, hc]
        refine jam_cons hm (ih ?_)
        simpa [soundList, hsh, hh] using hs

/-- The piece for a group. -/
theorem group_fits {k : Bytes} (hk : Utf8.Valid k) {ps : List Piece} {ms : List (Bytes × Shape)}
    (h : List.Forall₂ Fits ps ms) :
    Fits ⟨keyText k ++ (0x7B :: (piecesText false ps ++ [0x7D])), !(St.addPieces ⟨[], false⟩ ps).started⟩ (k, .group ms) where
  lost := by rw [pieces_started h]; simp [Shape.hollow]
  quote := ⟨_, rfl⟩
  shut := by
    have : keyText k ++ (0x7B :: (piecesText false ps ++ [0x7D])) =
        (keyText k ++ (0x7B :: piecesText false ps)) ++ [0x7D] := by simp
    rw [this, endsOpen_append (by simp)]
    decide
  good := by
    intro hs
    simp only [Shape.sound] at hs
    obtain ⟨ts, h1, h2⟩ := pieces_good h hs
    rw [h2]
    exact keyText_member hk (by simp only [Shape.tree]; exact objText_text h1)
  bad := by
    intro hs
    simp only [Shape.sound] at hs
    have hne : ms ≠ [] := by rintro rfl; cases hs
    obtain ⟨⟨b, hb⟩, _⟩ := pieces_quote h hne
    have hj := pieces_bad h hs
    rw [hb] at hj ⊢
    obtain ⟨kb, _, e, ⟨hk1, _⟩, _⟩ := keyText_member hk (b := b!"null") (t := .null) ⟨⟨.null, .null, rfl⟩, by decide⟩
    have hkb : keyText k = 0x22 :: (addEscaped k ++ [0x22, 0x3A, 0x20]) := by simp [keyText, strText]
    have hbo : BodyOk (addEscaped k) := (addEscaped_body hk).ok
    have := jam_object hbo (hj.append [0x7D])
    rw [hkb]
    simpa using this

/-- The piece for anything else. -/
theorem leaf_fits {k : Bytes} (hk : Utf8.Valid k) {b : Bytes} {t : Tree} (h : LineText b t) :
    Fits ⟨keyText k ++ b, false⟩ (k, .leaf t) where
  lost := rfl
  quote := ⟨_, rfl⟩
  shut := (keyText_member hk h).shut.2
  good := fun _ => by simp only [Shape.tree]; exact keyText_member hk h
  bad := by intro h; cases h

/-! ### Attributes -/

theorem sepKey_piece (st : St) (k t : Bytes) (l : Bool) :
    ({ ((st.addSeparator.addKey k).add t) with started := !l } : St) = st.addPieces [⟨keyText k ++ t, l⟩] := by
  obtain ⟨b, s⟩ := st
  cases s <;> simp [St.addSeparator, St.addKey, addString_eq, St.add, St.addPieces, keyText]

mutual
theorem lattr_pieces {R : Repl} {cfg : Cfg} {gs : List Bytes} {n : Nat} {a : Attr}
    {ms : List (Bytes × Shape)} (hm : Matches R gs cfg) (hr : LAttr R gs n a ms) (m : Nat) (hn : n < m) :
    ∃ ps, (∀ st, addAttribute cfg m st a = .ok (st.addPieces ps)) ∧ List.Forall₂ Fits ps ms := by
  obtain ⟨m, rfl⟩ : ∃ k, m = k + 1 := ⟨m - 1, by omega⟩
  match hr with
  | .gone h => exact ⟨[], by simp [addAttribute, prep_apply hm, h, St.addPieces], .nil⟩
  | .hollow (k := k) (as := as) h h2 =>
    have hem : (Attr.mk k (.group as)).isEmpty = false := by cases k <;> rfl
    exact ⟨[], by simp [addAttribute, prep_apply hm, h, hem, emptyGroup_hasLeaf, h2, Attr.value, St.addPieces], .nil⟩
  | .inline (n := n) (as := as) h h2 h3 =>
    obtain ⟨ps, e1, e2⟩ := llist_pieces hm h3 m (by omega)
    have hem : (Attr.mk [] (.group as)).isEmpty = false := rfl
    exact ⟨ps, by simp [addAttribute, prep_apply hm, h, hem, emptyGroup_hasLeaf, h2, Attr.value, Attr.key, e1], e2⟩
  | .group (n := n) (k := k) (as := as) (ms := ms) h hk hv h2 h3 =>
    have hin : R.inner gs k = gs := by simp [Repl.inner, hm.nest]
    obtain ⟨ps, e1, e2⟩ := llist_pieces (by rw [hin]; exact hm) h3 m (by omega)
    have hem : (Attr.mk k (.group as)).isEmpty = false := by cases k <;> rfl
    refine ⟨_, fun st => ?_, .cons (group_fits hv e2) .nil⟩
    rw [← sepKey_piece]
    simp only [addAttribute, prep_apply hm, h, hem, emptyGroup_hasLeaf, h2, Attr.value, Attr.key, e1, hk,
      Bool.false_eq_true, if_false, Bool.not_true]
    rw [addPieces_eq]
    simp [St.add]
  | .leaf (k := k) (v := v) (t := t) h h2 h3 h4 =>
    rw [← hm.env, ← hm.layout] at h4
    obtain ⟨g, b, e1, e2⟩ := shown_text h4
    refine ⟨_, fun st => ?_, .cons (leaf_fits h3 e2) .nil⟩
    rw [← sepKey_piece]
    have hl : addLeaf cfg false (st.addSeparator.addKey k) v = .ok ((st.addSeparator.addKey k).add b) := addLeaf_eq e1
    have hs : ({ ((st.addSeparator.addKey k).add b) with started := !false } : St) = (st.addSeparator.addKey k).add b := by
      obtain ⟨c, s⟩ := st
      cases s <;> simp [St.addSeparator, St.addKey, addString_eq, St.add]
    rw [hs]
    simp only [addAttribute, prep_apply hm, h, h2, Bool.false_eq_true, if_false, Attr.key_mk, Attr.value_mk]
    cases v <;> simp_all [Value.isGroup]
theorem llist_pieces {R : Repl} {cfg : Cfg} {gs : List Bytes} {n : Nat} {as : List Attr}
    {ms : List (Bytes × Shape)} (hm : Matches R gs cfg) (hr : LList R gs n as ms) (m : Nat) (hn : n < m) :
    ∃ ps, (∀ st, addAll (addAttribute cfg m) st as = .ok (st.addPieces ps)) ∧ List.Forall₂ Fits ps ms := by
  match hr with
  | .nil => exact ⟨[], fun _ => rfl, .nil⟩
  | .cons h1 h2 =>
    obtain ⟨t1, e1, f1⟩ := lattr_pieces hm h1 m hn
    obtain ⟨t2, e2, f2⟩ := llist_pieces hm h2 m hn
    exact ⟨t1 ++ t2, fun st => by simp only [addAll, e1, e2, addPieces_append], forall2_append f1 f2⟩
end

/-! ### Derivation -/

/-- What a derived handler appends to the line of the handler it was derived from; the flag tells
whether a comma is needed. -/
structure PlaceText (T : Bool → Bytes) (pl : List (Bytes × Tree)) (ok : Bool) : Prop where
  none : pl = [] → ∀ s, T s = []
  some : pl ≠ [] → (∃ b, T false = 0x22 :: b) ∧ T true = 0x2C :: 0x20 :: T false
  good : ok = true → ∃ ts, List.Forall₂ MemberText ts pl ∧ ∀ s, T s = sepText s ts
  bad : ok = false → Jam (T false)

theorem shapeTrees_nil {ms : List (Bytes × Shape)} : shapeTrees ms = [] ↔ ms = [] := by
  cases ms with
  | nil => simp [shapeTrees]
  | cons m ms => obtain ⟨k, s⟩ := m; simp [shapeTrees]

theorem pieces_place {ps : List Piece} {ms : List (Bytes × Shape)} (h : List.Forall₂ Fits ps ms) :
    PlaceText (piecesText · ps) (shapeTrees ms) (soundList ms) where
  none := by intro he s; rw [shapeTrees_nil] at he; subst he; cases h; rfl
  some := fun he => pieces_quote h fun h' => he (shapeTrees_nil.2 h')
  good := pieces_good h
  bad := pieces_bad h

theorem jam_tail {ts : List Bytes} {ms : List (Bytes × Tree)} (h : List.Forall₂ MemberText ts ms) (hne : ts ≠ [])
    {b : Bytes} : Jam (sepText false ts ++ 0x22 :: b) ∧ (Jam b → Jam (sepText false ts ++ 0x2C :: 0x20 :: b)) := by
  induction h with
  | nil => exact absurd rfl hne
  | @cons t m ts ms h1 h2 ih =>
    cases h2 with
    | nil => simp only [sepText, List.append_nil]; exact ⟨jam_next h1 b, jam_cons h1⟩
    | @cons t' m' ts ms h3 h4 =>
      obtain ⟨i1, i2⟩ := ih (by simp)
      have e : ∀ c, sepText false (t :: t' :: ts) ++ c = t ++ 0x2C :: 0x20 :: (sepText false (t' :: ts) ++ c) := by
        intro c; simp [sepText]
      rw [e, e]
      exact ⟨jam_cons h1 i1, fun hb => jam_cons h1 (i2 hb)⟩

theorem sep_jam {T : Bool → Bytes} {pl : List (Bytes × Tree)} {ok : Bool} (h : PlaceText T pl ok)
    (hok : ok = false) : pl ≠ [] := by
  rintro rfl
  have h1 := h.bad hok
  rw [h.none rfl] at h1
  have h2 := h1 2 (0x22 :: 0x22 :: 0x3A :: 0x31 :: [0x7D]) (by simp)
  revert h2
  decide +kernel

/-- Attributes, then the rest. -/
theorem place_attrs {ps : List Piece} {ms : List (Bytes × Shape)} (h : List.Forall₂ Fits ps ms)
    {T : Bool → Bytes} {pl : List (Bytes × Tree)} {ok : Bool} (hT : PlaceText T pl ok) :
    PlaceText (fun s => piecesText s ps ++ T (s || !ms.isEmpty)) (shapeTrees ms ++ pl) (soundList ms && ok) where
  none := by
    intro he s
    simp only [List.append_eq_nil_iff, shapeTrees_nil] at he
    obtain ⟨rfl, rfl⟩ := he
    cases h
    simp [piecesText_nil, hT.none]
  some := by
    intro hne
    by_cases hm : ms = []
    · subst hm
      cases h
      simp only [shapeTrees, List.nil_append] at hne
      simpa [piecesText_nil] using hT.some hne
    · obtain ⟨⟨b, hb⟩, hc⟩ := pieces_quote h hm
      have : ms.isEmpty = false := by simpa using hm
      simp only [this, Bool.not_false, Bool.or_true]
      exact ⟨⟨b ++ T true, by rw [hb]; rfl⟩, by rw [hc]; rfl⟩
  good := by
    intro hok
    simp only [Bool.and_eq_true] at hok
    obtain ⟨t1, a1, a2⟩ := pieces_good h hok.1
    obtain ⟨t2, b1, b2⟩ := hT.good hok.2
    refine ⟨t1 ++ t2, forall2_append a1 b1, fun s => ?_⟩
    rw [sepText_append, ← a2, ← b2]
    have : ms.isEmpty = t1.isEmpty := by
      cases ms with
      | nil => cases a1; rfl
      | cons m ms => obtain ⟨k, s⟩ := m; cases a1; rfl
    rw [this]
  bad := by
    intro hok
    cases hs : soundList ms with
    | false => exact (pieces_bad h hs).append _
    | true =>
      rw [hs, Bool.true_and] at hok
      have hj := hT.bad hok
      have hpl := sep_jam hT hok
      obtain ⟨t1, a1, a2⟩ := pieces_good h hs
      by_cases hm : ms = []
      · subst hm; cases h; simpa [piecesText_nil] using hj
      · have : ms.isEmpty = false := by simpa using hm
        simp only [this, Bool.not_false, Bool.or_true]
        rw [a2, (hT.some hpl).2]
        refine (jam_tail a1 ?_).2 hj
        rintro rfl
        cases ms with
        | nil => exact hm rfl
        | cons m ms => obtain ⟨k, s⟩ := m; cases a1

/-- A group, then the rest inside it. -/
theorem place_group {g : Bytes} (hg : decodeBody g = some g) {T : Bool → Bytes} {pl : List (Bytes × Tree)} {ok : Bool}
    (hT : PlaceText T pl ok) :
    PlaceText (fun s => (if s then [0x2C, 0x20] else []) ++ (rawKey g ++ (0x7B :: (T false ++ [0x7D]))))
      [(g, .obj pl)] ok where
  none := by intro h; cases h
  some := fun _ => ⟨⟨_, rfl⟩, rfl⟩
  good := by
    intro hok
    obtain ⟨ts, h1, h2⟩ := hT.good hok
    refine ⟨[rawKey g ++ objText ts], .cons (rawKey_member hg (objText_text h1)) .nil, fun s => ?_⟩
    rw [h2]
    cases s <;> simp [sepText, objText]
  bad := by
    intro hok
    have hj := hT.bad hok
    obtain ⟨⟨b, hb⟩, _⟩ := hT.some (sep_jam hT hok)
    rw [hb] at hj ⊢
    have hbo : BodyOk g := by simp [BodyOk, hg]
    have := jam_object hbo (hj.append [0x7D])
    simpa [rawKey] using this

theorem addPrefix_pieces (h : Handler) (st : St) {ps : List Piece} {ms : List (Bytes × Shape)} (hp : List.Forall₂ Fits ps ms) :
    ({ h with pfx := (St.addPieces ⟨h.pfx, h.pfx.length > 0 && !endsOpen h.pfx⟩ ps).buffer } : Handler).addPrefix st =
      ⟨(h.addPrefix st).buffer ++ piecesText (h.addPrefix st).started ps, (h.addPrefix st).started || !ms.isEmpty⟩ := by
  by_cases hm : ms = []
  · subst hm
    cases hp
    simp [piecesText_nil, St.addPieces]
  · have hme : ms.isEmpty = false := by simpa using hm
    have hc := (pieces_quote hp hm).2
    obtain ⟨f1, f2⟩ := pieces_shut hp hm false
    obtain ⟨t1, t2⟩ := pieces_shut hp hm true
    have f3 : 0 < (piecesText false ps).length := List.length_pos_iff.2 f1
    obtain ⟨b, s⟩ := st
    rw [addPieces_eq]
    by_cases hpf : h.pfx = []
    · simp only [Handler.addPrefix, hpf, List.length_nil, gt_iff_lt, Nat.lt_irrefl, decide_false,
        Bool.false_and, List.nil_append, f3, if_true, f2, Bool.false_eq_true, if_false, hme]
      cases s <;> simp [St.addSeparator, St.add, hc]
    · have hp' : h.pfx.length > 0 := List.length_pos_iff.2 hpf
      cases ho : endsOpen h.pfx with
      | true =>
        have h4 : endsOpen (h.pfx ++ piecesText false ps) = false := by rw [endsOpen_append f1, f2]
        simp only [Handler.addPrefix, hp', decide_true, ho, Bool.not_true, Bool.and_false,
          List.length_append, gt_iff_lt, Nat.add_pos_left, if_true, h4, Bool.false_eq_true,
          if_false, hme]
        cases s <;> simp [St.addSeparator, St.add]
      | false =>
        have h4 : endsOpen (h.pfx ++ piecesText true ps) = false := by rw [endsOpen_append t1, t2]
        simp only [Handler.addPrefix, hp', decide_true, ho, Bool.not_false, Bool.and_true,
          List.length_append, gt_iff_lt, Nat.add_pos_left, if_true, h4, Bool.false_eq_true,
          if_false, hme]
        cases s <;> simp [St.addSeparator, St.add]

theorem addPrefix_group (h : Handler) (st : St) (name : Bytes) :
    (h.openGroup name).addPrefix st =
      ⟨(h.addPrefix st).buffer ++ ((if (h.addPrefix st).started then [0x2C, 0x20] else []) ++ (rawKey name ++ [0x7B])), false⟩ := by
  have hopen : ∀ x : Bytes, endsOpen (x ++ b!"\": {") = true := by
    intro x; rw [endsOpen_append (by simp)]; decide
  have hopen' : ∀ x : Bytes, endsOpen (x ++ 0x22 :: (name ++ b!"\": {")) = true := by
    intro x
    have := hopen (x ++ 0x22 :: name)
    simpa using this
  have h0 := hopen' []
  have h2 : ∀ x : Bytes, endsOpen (x ++ 0x2C :: 0x20 :: 0x22 :: (name ++ b!"\": {")) = true := by
    intro x
    have := hopen' (x ++ [0x2C, 0x20])
    simpa using this
  rw [List.nil_append] at h0
  obtain ⟨b, s⟩ := st
  simp only [Handler.openGroup, Handler.addPrefix, ← List.append_assoc]
  simp only [List.append_assoc, hopen']
  by_cases hp : h.pfx = []
  · cases s <;> simp [hp, St.addSeparator, St.add, rawKey, h0]
  · have hp' : h.pfx.length > 0 := List.length_pos_iff.2 hp
    cases ho : endsOpen h.pfx <;> cases s <;>
      simp [hp, hp', ho, St.addSeparator, St.add, rawKey, hopen', h2, Nat.add_pos_left hp']

/-- The handler that takes a record with the attributes `as`. -/
def taker (h : H) (as : List Attr) : Handler := if as.all Attr.isEmpty then h.root else h.core

/-- The text a derived handler appends for the prefixes and the attributes of a record. -/
theorem derive_hollow {h0 : Handler} {f : AttrFn} (hf : h0.options.replace = some f)
    {as : List Attr} {n : Nat} (hn : n < h0.env.stack) : ∀ (ops : List Op) (h : H)
    (pl : List (Bytes × Tree)) (ok : Bool), SameAs h0 h.core → SameAs h0 h.root → h.core.Braces →
    (as.all Attr.isEmpty = true → groupsOnly ops = true → h.root = h.core) →
    LPlace (replOf h0.env h0.extras f) n h.core.groups ops as pl ok →
    ∃ h' T, h.derive ops = some h' ∧ SameAs h0 (taker h' as) ∧ PlaceText T pl ok ∧
      (taker h' as).groups = opened (as.all Attr.isEmpty) h.core.groups ops ∧
      ∀ st, ∃ st', addAttributes (taker h' as).cfg ((taker h' as).addPrefix st) as = .ok st' ∧
        st'.buffer ++ (taker h' as).sfx =
          (h.core.addPrefix st).buffer ++ (T (h.core.addPrefix st).started ++ h.core.sfx) := by
  have base : ∀ (h : Handler) (pl : List (Bytes × Tree)) (ok : Bool), SameAs h0 h →
      (∃ ss, LList (replOf h0.env h0.extras f) h.groups n as ss ∧ pl = shapeTrees ss ∧ ok = soundList ss) →
      ∃ T, PlaceText T pl ok ∧ ∀ st, ∃ st', addAttributes h.cfg (h.addPrefix st) as = .ok st' ∧
        st'.buffer ++ h.sfx = (h.addPrefix st).buffer ++ (T (h.addPrefix st).started ++ h.sfx) := by
    rintro h pl ok hs ⟨ss, hl, rfl, rfl⟩
    obtain ⟨ps, e1, e2⟩ := llist_pieces (matches_of hf hs) hl _ hn
    refine ⟨_, pieces_place e2, fun st => ⟨(h.addPrefix st).addPieces ps, ?_, ?_⟩⟩
    · have he : h.cfg.env.stack = h0.env.stack := by show h.env.stack = _; rw [hs.1]
      rw [addAttributes, he]
      exact e1 _
    · rw [addPieces_eq]; simp
  intro ops
  induction ops with
  | nil =>
    intro h pl ok hs hsr hbr hroot hp
    simp only [LPlace] at hp
    have hh : taker h as = h.core := by
      unfold taker
      split
      · rename_i hq; exact hroot hq rfl
      · rfl
    obtain ⟨T, h1, h2⟩ := base h.core pl ok hs hp
    exact ⟨h, T, rfl, by rw [hh]; exact hs, h1, by rw [hh]; rfl, by rw [hh]; exact h2⟩
  | cons op ops ih =>
    intro h pl ok hs hsr hbr hroot hp
    cases op with
    | attrs bs =>
      simp only [LPlace] at hp
      obtain ⟨ss, y, ok', p1, p2, rfl, rfl⟩ := hp
      obtain ⟨ps, a1, a2⟩ := llist_pieces (matches_of hf hs) p1 _ hn
      have he : h.core.cfg.env.stack = h0.env.stack := by
        show h.core.env.stack = _; rw [hs.1]
      let h1 : H := .plain { h.core with
        pfx := (St.addPieces ⟨h.core.pfx, h.core.pfx.length > 0 && !endsOpen h.core.pfx⟩ ps).buffer }
      have hw : h.withAttrs bs = some h1 := by
        rw [← he] at a1
        simp only [H.withAttrs, Handler.withAttrs, addAttributes, a1]
        rfl
      obtain ⟨h', T, b1, b2, b3, b4, b5⟩ := ih h1 y ok' hs hs hbr (fun _ _ => rfl) p2
      refine ⟨h', _, ?_, b2, place_attrs a2 b3, b4, fun st => ?_⟩
      · simp [H.derive, H.step, hw, b1]
      · obtain ⟨st', c1, c2⟩ := b5 st
        refine ⟨st', c1, ?_⟩
        rw [c2]
        have := addPrefix_pieces h.core st a2
        have e : h1.core.addPrefix st = _ := this
        rw [e]
        simp only [List.append_assoc]
        rfl
    | group g =>
      simp only [LPlace] at hp
      by_cases hg : g.isEmpty = true
      · rw [if_pos hg] at hp
        have hg' : g = [] := by simpa using hg
        have e0 : h.withGroup g = .plain h.core := by simp [H.withGroup, hg']
        obtain ⟨h', T, b1, b2, b3, b4, b5⟩ := ih (.plain h.core) pl ok hs hs hbr (fun _ _ => rfl) hp
        refine ⟨h', T, by simp [H.derive, H.step, e0, b1], b2, b3, ?_, b5⟩
        rw [b4, opened, if_pos hg]; rfl
      · rw [if_neg hg] at hp
        have hg' : g ≠ [] := by simpa using hg
        have e0 : h.withGroup g = .group (h.core.openGroup g) g h := by simp [H.withGroup, hg']
        by_cases hq : (as.all Attr.isEmpty && groupsOnly ops) = true
        · rw [if_pos hq] at hp
          simp only [Bool.and_eq_true] at hq
          obtain ⟨h', tops, b1, b2, b3, b4⟩ := groupsOnly_derive hq.2 (h.withGroup g)
          have hro : taker h' as = h.core := by
            rw [taker, if_pos hq.1, b3, ← hroot hq.1 (by simpa [groupsOnly, hg'] using hq.2), e0]
            rfl
          obtain ⟨T, h1, h2⟩ := base h.core pl ok hs hp
          refine ⟨h', T, by simp [H.derive, H.step, b1], by rw [hro]; exact hs, h1, ?_, by rw [hro]; exact h2⟩
          rw [hro]
          simp [opened, hg', hq.1, hq.2]
        · rw [if_neg hq] at hp
          obtain ⟨hd, y, p1, rfl⟩ := hp
          have hgr : (h.withGroup g).core.groups = h.core.groups ++ [g] := by
            simp [H.withGroup, hg', H.core, Handler.openGroup]
            show (if h.core.options.replace.isSome = true then _ else _) = _
            rw [hs.2.1, hf]; rfl
          have hs1 : SameAs h0 (h.withGroup g).core := by rw [e0]; exact hs
          have hs2 : SameAs h0 (h.withGroup g).root := by rw [e0]; exact hsr
          have hbr1 : (h.withGroup g).core.Braces := by
            rw [e0]
            intro b hm
            simp [H.core, Handler.openGroup] at hm
            rcases hm with hm | hm
            · exact hbr b hm
            · exact hm
          obtain ⟨h', T, b1, b2, b3, b4, b5⟩ := ih (h.withGroup g) y ok hs1 hs2 hbr1
            (by intro q1 q2; rw [q1, q2] at hq; simp at hq) (by rw [hgr]; exact p1)
          refine ⟨h', _, by simp [H.derive, H.step, b1], b2, place_group hd b3, ?_, fun st => ?_⟩
          · rw [b4, hgr, opened, if_neg hg, if_neg hq]
          · obtain ⟨st', c1, c2⟩ := b5 st
            refine ⟨st', c1, ?_⟩
            rw [c2, e0]
            have e1 : (H.group (h.core.openGroup g) g h).core = h.core.openGroup g := rfl
            rw [e1, addPrefix_group]
            have e2 : (h.core.openGroup g).sfx = h.core.sfx ++ [0x7D] := rfl
            rw [e2, braces_append hbr]
            simp only [List.append_assoc, List.cons_append, List.nil_append]

/-- The line of a derived handler with a replacement function that may empty groups: a JSON object
exactly if nowhere a member follows a hollow group. -/
theorem handle_hollow {env : Env} {x : Extras} {o : Options} {f : AttrFn} (ho : o.replace = some f)
    {ops : List Op} {r : Record} {n : Nat} (hn : n < env.stack) {bm : List (Bytes × Shape)}
    {pl : List (Bytes × Tree)} {ok : Bool}
    (hb : LList (replOf env x f) (opened (r.attrs.all Attr.isEmpty) [] ops) n
      (basicAttrs env x o.addSource r) bm)
    (hp : LPlace (replOf env x f) n [] ops r.attrs pl ok) :
    ∃ h b, (H.plain (newHandler env o x)).derive ops = some h ∧
      h.handle none r = .line (b ++ [0x0A]) ∧
      (soundList bm = true ∧ ok = true ∧ (endsHollow false bm = true → pl = []) →
        LineText b (.obj (shapeTrees bm ++ pl))) ∧
      ((∃ t, Denotes b t) → soundList bm = true ∧ ok = true ∧ (endsHollow false bm = true → pl = [])) := by
  let h0 := newHandler env o x
  have hbr : (H.plain h0).core.Braces := by intro b hb; simp [H.core, h0, newHandler] at hb
  obtain ⟨h, T, d1, d2, d3, d4, d5⟩ := derive_hollow (h0 := h0) ho (as := r.attrs) (n := n) hn ops
    (.plain h0) pl ok ⟨rfl, rfl, rfl⟩ ⟨rfl, rfl, rfl⟩ hbr (fun _ _ => rfl) hp
  obtain ⟨ps, e1, e2⟩ := llist_pieces (matches_of ho d2) (by rw [d4]; exact hb) _ hn
  have hst : (taker h r.attrs).cfg.env.stack = env.stack := by
    show (taker h r.attrs).env.stack = _; rw [d2.1]; rfl
  have hba : (taker h r.attrs).basics r = .ok (St.addPieces ⟨[0x7B], false⟩ ps) := by
    have hr : (taker h r.attrs).options.replace = some f := by rw [d2.2.1]; exact ho
    have e0 : basicAttrs (taker h r.attrs).env (taker h r.attrs).extras (taker h r.attrs).options.addSource r =
        basicAttrs env x o.addSource r := by rw [d2.1, d2.2.1, d2.2.2]; rfl
    rw [basics_replace hr, e0, addAttributes, hst]
    exact e1 _
  have hta : h.handle none r = (taker h r.attrs).handle r := by
    unfold taker
    cases hq : r.attrs.all Attr.isEmpty with
    | true => exact H.handle_quiet h none r hq
    | false => exact H.handle_loud h r hq
  obtain ⟨st', c1, c2⟩ := d5 (St.addPieces ⟨[0x7B], false⟩ ps)
  have hpre : h0.addPrefix (St.addPieces ⟨[0x7B], false⟩ ps) = St.addPieces ⟨[0x7B], false⟩ ps := rfl
  have hst0 : St.addPieces ⟨[0x7B], false⟩ ps = ⟨0x7B :: piecesText false ps, !endsHollow true bm⟩ := by
    rw [addPieces_eq, pieces_started e2]; rfl
  have hline : h.handle none r = .line ((0x7B :: (piecesText false ps ++ (T (!endsHollow true bm) ++ [0x7D]))) ++ [0x0A]) := by
    rw [hta, Handler.handle, hba]
    simp only [Out.bind, c1]
    have hsf : (if (taker h r.attrs).sfx.length > 0 then st'.buffer ++ (taker h r.attrs).sfx else st'.buffer) =
        st'.buffer ++ (taker h r.attrs).sfx := by
      split
      · rfl
      · rename_i hl
        have : (taker h r.attrs).sfx = [] := by simpa using hl
        simp [this]
    rw [hsf, c2]
    have e : (H.plain h0).core.addPrefix (St.addPieces ⟨[0x7B], false⟩ ps) = _ := hpre
    rw [e, hst0]
    have : (H.plain h0).core.sfx = [] := rfl
    rw [this]
    simp
  refine ⟨h, _, d1, hline, ?_, ?_⟩
  · rintro ⟨hs, hok, hend⟩
    obtain ⟨t1, a1, a2⟩ := pieces_good e2 hs
    obtain ⟨t2, b1, b2⟩ := d3.good hok
    have : (0x7B :: (piecesText false ps ++ (T (!endsHollow true bm) ++ [0x7D]))) = objText (t1 ++ t2) := by
      rw [objText, a2, sepText_append]
      cases bm with
      | nil =>
        cases a1
        simp [endsHollow, b2]
      | cons m bm =>
        have hne : t1.isEmpty = false := by obtain ⟨k, s⟩ := m; cases a1; rfl
        have hee : endsHollow true (m :: bm) = endsHollow false (m :: bm) := rfl
        cases he : endsHollow false (m :: bm) with
        | false => simp [hee, he, b2, hne]
        | true =>
          have hpl := hend he
          rw [d3.none hpl]
          subst hpl
          cases b1
          simp [sepText]
    rw [this]
    exact objText_text (forall2_append a1 b1)
  · intro hden
    cases hs : soundList bm with
    | false =>
      exfalso
      have hne : bm ≠ [] := by rintro rfl; cases hs
      have hj := pieces_bad e2 hs
      obtain ⟨⟨b, hb⟩, _⟩ := pieces_quote e2 hne
      rw [hb] at hj hden
      exact jam_line (hj.append _) hden
    | true =>
      obtain ⟨t1, a1, a2⟩ := pieces_good e2 hs
      have tail : endsHollow false bm = true → pl = [] := by
        intro he
        by_contra hpl
        obtain ⟨⟨b, hb⟩, _⟩ := d3.some hpl
        have hne : bm ≠ [] := by rintro rfl; cases he
        have ht1 : t1 ≠ [] := by
          rintro rfl
          cases bm with
          | nil => exact hne rfl
          | cons m bm => obtain ⟨k, s⟩ := m; cases a1
        have hee : endsHollow true bm = true := by
          cases bm with
          | nil => rfl
          | cons m bm => exact he
        obtain ⟨⟨c, hc⟩, _⟩ := pieces_quote e2 hne
        have hj := (jam_tail a1 ht1 (b := b ++ [0x7D])).1
        rw [← a2, hc] at hj
        rw [hee, Bool.not_true, hb, hc] at hden
        exact jam_line hj hden
      refine ⟨rfl, ?_, tail⟩
      by_contra hok
      have hok : ok = false := by simpa using hok
      have hj := d3.bad hok
      have hpl := sep_jam d3 hok
      obtain ⟨⟨b, hb'⟩, hcm⟩ := d3.some hpl
      cases bm with
      | nil =>
        cases e2
        simp only [endsHollow, Bool.not_true, piecesText_nil, List.nil_append, hb'] at hden
        rw [hb'] at hj
        exact jam_line (hj.append [0x7D]) hden
      | cons m bm =>
        have ht1 : t1 ≠ [] := by rintro rfl; obtain ⟨k, s⟩ := m; cases a1
        have he : endsHollow true (m :: bm) = false := by
          by_contra hc
          have hc : endsHollow true (m :: bm) = true := by simpa using hc
          exact hpl (tail hc)
        obtain ⟨⟨c, hc⟩, _⟩ := pieces_quote e2 (by simp)
        have hj2 := (jam_tail a1 ht1 (b := T false ++ [0x7D])).2 (hj.append _)
        rw [← a2, hc] at hj2
        rw [he, Bool.not_false, hcm, hc] at hden
        exact jam_line hj2 hden

end Verif.Flash
