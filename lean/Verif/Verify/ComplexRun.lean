import Verif.Verify.Complex
import Verif.Spec.TestProgram

/-
Lemmas on test programs: what running one logs, and the map it leaves.
-/

namespace Verif.Verify
open Go Warning Slog Bench TestProgram LogTree

variable {F : Type} [DecidableEq F]

/-- The warnings that change what is expected are not there. -/
structure Quiet (C : Ctx F) : Prop where
  groupDuration : C.has groupDuration = false
  durationString : C.has durationString = false
  durationSeconds : C.has durationSeconds = false
  durationMillis : C.has durationMillis = false
  resolver : C.has resolver = false
  groupWithTop : C.has groupWithTop = false
  groupAttrMsgTop : C.has groupAttrMsgTop = false
  levelCase : C.has levelCase = false

omit [DecidableEq F] in
theorem addAttrs_cur (C : Ctx F) (p : Parser F) (as : List Attr) :
    addAttrs C Parser.setCur p as = { p with cur := subMap C p.inGroup p.cur as } := by
  unfold addAttrs
  suffices ∀ (g : Bool) (q : Parser F), as.foldl (fun q a => match attrValue C g a.value with
      | some v => q.setCur a.key v | none => q) q = { q with cur := subMap C g q.cur as } from this _ _
  intro g
  induction as with
  | nil => intro q; simp only [List.foldl_nil, subMap]
  | cons a as ih =>
    intro q
    obtain ⟨k, v⟩ := a
    rw [List.foldl_cons, ih]
    simp only [subMap, Attr.value, Attr.key]
    cases attrValue C g v <;> rfl

/-- The level and the message. -/
def fin (m : AMap F) : AMap F := (Map.set m b!"level" (.str b!"INFO")).set b!"msg" (.str message)

/-- The same for the outermost frame. -/
def finO (fs : List (Frame F)) : List (Frame F) :=
  setLast b!"msg" (.str message) (setLast b!"level" (.str b!"INFO") fs)

/-- The map inside of frames put into them. -/
def close (fs : List (Frame F)) (m : AMap F) : AMap F :=
  fs.foldl (fun m f => if f.inside then Map.set f.map f.name (.map m) else f.map) m

/-- A map in which a group has been put. -/
def frame (cur : AMap F) (n : Bytes) : Frame F := ⟨Map.set cur n (.map []), n, true⟩

/-- The whole map left by operations. -/
def endMap (C : Ctx F) (outer : List (Frame F)) (cur : AMap F) : List Op → List Attr → AMap F
  | [], as => if outer.isEmpty then subMap C false (fin cur) as else close (finO outer) (subMap C false cur as)
  | .attrs bs :: ops, as => endMap C outer (subMap C false cur bs) ops as
  | .group n :: ops, as =>
    endMap C (frame cur n :: outer) [] ops as

omit [DecidableEq F] in
mutual
theorem attrValue_quiet {C : Ctx F} (Q : Quiet C) (g : Bool) : ∀ v, attrValue C g v = attrValue C false v
  | .duration d => by simp only [attrValue, Q.groupDuration, Bool.false_and]
  | .group as => by simp only [attrValue, subMap_quiet Q g as []]
  | .any _ => rfl
  | .bool _ => rfl
  | .float64 _ => rfl
  | .int64 _ => rfl
  | .string _ => rfl
  | .time _ => rfl
  | .uint64 _ => rfl
  | .logValuer _ r => by cases r <;> rfl
theorem subMap_quiet {C : Ctx F} (Q : Quiet C) (g : Bool) : ∀ as (m : AMap F), subMap C g m as = subMap C false m as
  | [], m => by simp only [subMap]
  | .mk k v :: as, m => by
    simp only [subMap]
    rw [attrValue_quiet Q g v, subMap_quiet Q g as]
end

theorem byteString_eq (c : UInt8) : byteString c = Utf8.encode c.toNat := by
  refine forall_byte (P := fun c => byteString c = Utf8.encode c.toNat) ?_ c
  decide +kernel

theorem prog_head {lists : UInt8 → Option (List Attr)} {s : Bytes} {ops : List Op} {as : List Attr}
    (h : Prog lists s ops as) : ∃ c r, s = c :: r ∧ c ≠ 0x2B := by
  cases h <;> exact ⟨_, _, rfl, by decide⟩

theorem getAttrs_none {stamp s : Bytes} (h : ∀ r, s ≠ 0x2B :: r) : getAttrs stamp s = (s, some []) := by
  unfold getAttrs
  split
  · exact absurd rfl (h _)
  · rfl

theorem getAttrs_prog {lists : UInt8 → Option (List Attr)} {stamp s : Bytes} {ops : List Op} {as : List Attr}
    (h : Prog lists s ops as) : getAttrs stamp s = (s, some []) := by
  obtain ⟨c, r, rfl, hc⟩ := prog_head h
  exact getAttrs_none fun r e => hc (List.cons.inj e).1

omit [DecidableEq F] in
theorem parse_spaces (C : Ctx F) : ∀ (w : Bytes) (n : Nat) (p : Parser F), p.definition = w → w.length ≤ n →
    (∀ b ∈ w, b = 0x20) → parse C n p = ({ p with definition := [] }, false)
  | [], n, p, hp, _, _ => by
    obtain ⟨_, _, d, _, _, _, _⟩ := p
    dsimp only at hp
    subst hp
    cases n <;> simp [parse]
  | b :: w, n, p, hp, hn, hw => by
    obtain ⟨n, rfl⟩ : ∃ k, n = k + 1 := ⟨n - 1, by simp at hn; omega⟩
    have hb := hw b (by simp)
    subst hb
    have : execute C p = ({ p with definition := w }, false) := by
      unfold execute; rw [hp]; simp
    rw [parse, hp]
    simp only [List.isEmpty_cons, Bool.false_eq_true, if_false, this]
    rw [parse_spaces C w n _ rfl (by simp at hn; omega) (fun b hb => hw b (by simp [hb]))]

omit [DecidableEq F] in
theorem setTop_inGroup (p : Parser F) (k : Bytes) (v : Any F) : (p.setTop k v).inGroup = p.inGroup := by
  unfold Parser.setTop; split <;> rfl

omit [DecidableEq F] in
theorem setTop_logged (p : Parser F) (k : Bytes) (v : Any F) : (p.setTop k v).logged = p.logged := by
  unfold Parser.setTop; split <;> rfl

omit [DecidableEq F] in
theorem setTop_def (p : Parser F) (k : Bytes) (v : Any F) : (p.setTop k v).definition = p.definition := by
  unfold Parser.setTop; split <;> rfl

omit [DecidableEq F] in
theorem setLast_empty (k : Bytes) (v : Any F) (fs : List (Frame F)) : (setLast k v fs).isEmpty = fs.isEmpty := by
  match fs with
  | [] => rfl
  | [_] => rfl
  | _ :: _ :: _ => rfl

omit [DecidableEq F] in
theorem messageStep_ok {C : Ctx F} (Q : Quiet C) (p : Parser F) {d : Bytes} {as : List Attr}
    (h : getAttrs C.stamp p.definition = (d, some as)) :
    ∃ p', messageStep C p = (p', false) ∧ p'.definition = d ∧ p'.logged = p.logged ++ [(p.ops, as)] ∧
      p'.whole = endMap C p.outer p.cur [] as := by
  unfold messageStep
  rw [h]
  dsimp only
  rw [Q.groupAttrMsgTop]
  simp only [Bool.false_and, Bool.false_eq_true, if_false]
  refine ⟨_, rfl, ?_, ?_, ?_⟩
  · rw [addAttrs_cur]; simp only [setTop_def]
  · rw [addAttrs_cur]; simp only [setTop_logged]
  · rw [addAttrs_cur, subMap_quiet Q]
    unfold Parser.whole endMap Parser.setTop
    cases ho : p.outer with
    | nil => simp only [List.isEmpty_nil, if_true, Parser.setCur, List.foldl_nil, fin]
    | cons f fs =>
      simp only [List.isEmpty_cons, Bool.false_eq_true, if_false, setLast_empty, close, finO]

omit [DecidableEq F] in
theorem attributes_ne {stamp : Bytes} {c : UInt8} {as : List Attr} (h : attributes stamp c = some as) :
    as.isEmpty = false := by
  unfold attributes at h
  repeat' split at h
  all_goals first | (cases h; rfl) | cases h

omit [DecidableEq F] in
theorem parse_run {C : Ctx F} (Q : Quiet C) {s : Bytes} {ops : List Op} {as : List Attr}
    (h : Prog (attributes C.stamp) s ops as) : ∀ (n : Nat) (p : Parser F), p.definition = s → s.length ≤ n →
    ∃ p', parse C n p = (p', false) ∧ p'.logged = p.logged ++ [(p.ops ++ ops, as)] ∧
      p'.whole = endMap C p.outer p.cur ops as := by
  induction h with
  | @message w hw =>
    intro n p hp hn
    obtain ⟨n, rfl⟩ : ∃ k, n = k + 1 := ⟨n - 1, by simp at hn; omega⟩
    have hg : getAttrs C.stamp w = (w, some []) := getAttrs_none fun r e => by
      subst e; exact absurd (hw 0x2B (by simp)) (by decide)
    obtain ⟨p', h1, h2, h3, h4⟩ := messageStep_ok Q { p with definition := w } hg
    have he : execute C p = (p', false) := by unfold execute; rw [hp]; simpa using h1
    rw [parse, hp]
    simp only [List.isEmpty_cons, Bool.false_eq_true, if_false, he]
    rw [parse_spaces C w n p' h2 (by simp at hn; omega) hw]
    exact ⟨_, rfl, by rw [List.append_nil]; exact h3, h4⟩
  | @messageAttrs c as w hc hw =>
    intro n p hp hn
    obtain ⟨n, rfl⟩ : ∃ k, n = k + 1 := ⟨n - 1, by simp at hn; omega⟩
    have hg : getAttrs C.stamp (0x2B :: c :: w) = (w, some as) := by simp [getAttrs, hc]
    obtain ⟨p', h1, h2, h3, h4⟩ := messageStep_ok Q { p with definition := 0x2B :: c :: w } hg
    have he : execute C p = (p', false) := by unfold execute; rw [hp]; simpa using h1
    rw [parse, hp]
    simp only [List.isEmpty_cons, Bool.false_eq_true, if_false, he]
    rw [parse_spaces C w n p' h2 (by simp at hn; omega) hw]
    exact ⟨_, rfl, by rw [List.append_nil]; exact h3, h4⟩
  | @space s ops as _ ih =>
    intro n p hp hn
    obtain ⟨n, rfl⟩ : ∃ k, n = k + 1 := ⟨n - 1, by simp at hn; omega⟩
    have he : execute C p = ({ p with definition := s }, false) := by unfold execute; rw [hp]; simp
    rw [parse, hp]
    simp only [List.isEmpty_cons, Bool.false_eq_true, if_false, he]
    exact ih n _ rfl (by simp at hn; omega)
  | @without s ops as hs ih =>
    intro n p hp hn
    obtain ⟨n, rfl⟩ : ∃ k, n = k + 1 := ⟨n - 1, by simp at hn; omega⟩
    have he : execute C p = ({ p with definition := s }, false) := by
      unfold execute; rw [hp]
      simp only [withStep, getAttrs_prog hs, addAttrs_cur, Parser.with, subMap]
      simp
    rw [parse, hp]
    simp only [List.isEmpty_cons, Bool.false_eq_true, if_false, he]
    exact ih n _ rfl (by simp at hn; omega)
  | @attrs c bs s ops as hc hs ih =>
    intro n p hp hn
    obtain ⟨n, rfl⟩ : ∃ k, n = k + 1 := ⟨n - 1, by simp at hn; omega⟩
    have he : execute C p = ({ p with
        definition := s
        ops := p.ops ++ [Op.attrs bs]
        cur := subMap C false p.cur bs }, false) := by
      unfold execute; rw [hp]
      simp only [withStep, getAttrs, hc, addAttrs_cur, Parser.with, attributes_ne hc]
      simp [subMap_quiet Q p.inGroup]
    rw [parse, hp]
    simp only [List.isEmpty_cons, Bool.false_eq_true, if_false, he]
    obtain ⟨p', h1, h2, h3⟩ := ih n (execute C p).1 (by rw [he]) (by simp at hn; omega)
    rw [he] at h1 h2 h3
    exact ⟨p', h1, by rw [h2]; simp, h3⟩
  | @group c s ops as hs ih =>
    intro n p hp hn
    obtain ⟨n, rfl⟩ : ∃ k, n = k + 1 := ⟨n - 1, by simp at hn; omega⟩
    have he : execute C p = ({ p with
        definition := s
        outer := frame p.cur (b!"group" ++ Utf8.encode c.toNat) :: p.outer
        cur := []
        ops := p.ops ++ [Op.group (b!"group" ++ Utf8.encode c.toNat)]
        inGroup := true
        inWith := false }, false) := by
      unfold execute; rw [hp]
      simp only [groupStep, groupName, getAttrs_prog hs, byteString_eq, frame]
      simp
    rw [parse, hp]
    simp only [List.isEmpty_cons, Bool.false_eq_true, if_false, he]
    obtain ⟨p', h1, h2, h3⟩ := ih n (execute C p).1 (by rw [he]) (by simp at hn; omega)
    rw [he] at h1 h2 h3
    exact ⟨p', h1, by rw [h2]; simp, h3⟩
  | @groupAttrs c x bs s ops as hx hs ih =>
    intro n p hp hn
    obtain ⟨n, rfl⟩ : ∃ k, n = k + 1 := ⟨n - 1, by simp at hn; omega⟩
    have hl : bs.length > 0 := by
      have := attributes_ne hx
      cases bs with
      | nil => cases this
      | cons _ _ => simp
    have he : execute C p = ({ p with
        definition := s
        outer := frame p.cur (b!"group" ++ Utf8.encode c.toNat) :: p.outer
        cur := subMap C false [] bs
        ops := p.ops ++ [Op.group (b!"group" ++ Utf8.encode c.toNat)] ++ [Op.attrs bs]
        inGroup := true
        inWith := true }, false) := by
      unfold execute; rw [hp]
      simp only [groupStep, groupName, getAttrs, hx, byteString_eq, frame, if_pos hl, Q.groupWithTop, Parser.with,
        attributes_ne hx, addAttrs_cur, Bool.false_eq_true, if_false]
      rw [subMap_quiet Q]
      simp
    rw [parse, hp]
    simp only [List.isEmpty_cons, Bool.false_eq_true, if_false, he]
    obtain ⟨p', h1, h2, h3⟩ := ih n (execute C p).1 (by rw [he]) (by simp at hn; omega)
    rw [he] at h1 h2 h3
    exact ⟨p', h1, by rw [h2]; simp, h3⟩

end Verif.Verify
