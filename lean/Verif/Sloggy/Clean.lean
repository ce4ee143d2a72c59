import Verif.Sloggy.Content
import Verif.Sloggy.Writes

/-
Lemmas: the line sloggy writes for printable content when there is no
replacement function.
-/

set_option linter.unusedSimpArgs false

namespace Verif.Sloggy
open Slog Json LogTree
open Flash (EnvClean num_text)

/-- Specification of the built-in members: time if present, level, message,
source if asked for and known. -/
def sBuiltins (env : Env) (addSource : Bool) (r : Record) : List (Bytes × Tree) :=
  (match r.time with
    | none => []
    | some t => [(b!"time", .str (env.formatTime sLayout t))]) ++
  [(b!"level", .str (levelString r.level)), (b!"msg", .str r.message)] ++
  (if addSource && r.pc != 0 then
    [(b!"source", .obj [(b!"file", .str (env.frame r.pc).2.1),
      (b!"function", .str (env.frame r.pc).1), (b!"line", .num (decNat (env.frame r.pc).2.2))])]
  else [])

/-- The built-in parts of the record and its attributes are printable. -/
structure SRecordClean (env : Env) (r : Record) : Prop where
  time : ∀ t, r.time = some t → Quotable env.isPrint (env.formatTime sLayout t)
  message : Quotable env.isPrint r.message
  function : Utf8.Valid (env.frame r.pc).1
  file : Utf8.Valid (env.frame r.pc).2.1
  attrs : SListClean env r.attrs

/-- Printable ASCII is quotable. -/
theorem quotable_ascii {p : Nat → Bool} : ∀ {s : Bytes}, s.all (fun a => 0x20 ≤ a && a < 0x7F) = true →
    Quotable p s
  | [], _ => .nil
  | a :: s, h => by
    simp only [List.all_cons, Bool.and_eq_true] at h
    refine .byte ?_ (quotable_ascii (by simpa using h.2))
    simp [commonByte, h.1.1, h.1.2]

theorem digits_ascii {s : Bytes} (h : s.all isDigit = true) :
    s.all (fun a => 0x20 ≤ a && a < 0x7F) = true := by
  rw [List.all_eq_true] at h ⊢
  intro a ha
  have : ∀ a : UInt8, isDigit a = true → (decide (0x20 ≤ a) && decide (a < 0x7F)) = true := by
    set_option maxRecDepth 100000 in
    apply forall_byte; decide +kernel
  exact this a (h a ha)

theorem levelOffset_ascii (v : Int) : (levelOffset v).all (fun a => 0x20 ≤ a && a < 0x7F) = true := by
  have d : ∀ n, (decNat n).all (fun a => 0x20 ≤ a && a < 0x7F) = true := fun n =>
    digits_ascii (decNat_digits n)
  have i : ∀ v : Int, (decInt v).all (fun a => 0x20 ≤ a && a < 0x7F) = true := by
    intro v
    unfold decInt
    split <;> simp [-List.all_eq_true, d]
  unfold levelOffset
  split
  · rfl
  · split <;> simp [-List.all_eq_true, i]

theorem levelString_quotable (p : Nat → Bool) (l : Int) : Quotable p (levelString l) := by
  apply quotable_ascii
  unfold levelString
  split
  · simp [-List.all_eq_true, levelOffset_ascii]
  · split
    · simp [-List.all_eq_true, levelOffset_ascii]
    · split <;> simp [-List.all_eq_true, levelOffset_ascii]

theorem source_clean {env : Env} (he : EnvClean env) {pc : Nat} (h1 : Utf8.Valid (env.frame pc).1)
    (h2 : Utf8.Valid (env.frame pc).2.1) :
    ∃ b, (sourceObj env pc).marshal = .ok b ∧
      LineText b (.obj [(b!"file", .str (env.frame pc).2.1), (b!"function", .str (env.frame pc).1),
        (b!"line", .num (decNat (env.frame pc).2.2))]) := by
  refine ⟨_, rfl, ?_⟩
  obtain ⟨⟨c1, v1, d1⟩, n1⟩ := he _ h1
  obtain ⟨⟨c2, v2, d2⟩, n2⟩ := he _ h2
  obtain ⟨⟨c3, v3, d3⟩, n3⟩ := num_text (isNumber_decNat (env.frame pc).2.2)
  have w0 : Ws [] := by intro b hb; simp at hb
  have k1 : BodyOk b!"function" := by decide
  have k2 : BodyOk b!"file" := by decide
  have k3 : BodyOk b!"line" := by decide
  have m3 := Members.one w0 k3 w0 w0 v3 w0
  have m2 := Members.cons w0 k1 w0 w0 v1 w0 m3
  have m1 := Members.cons w0 k2 w0 w0 v2 w0 m2
  refine ⟨⟨_, by simpa using Val.obj m1, ?_⟩, ?_⟩
  · have e1 : decodeBody b!"function" = some b!"function" := by decide
    have e2 : decodeBody b!"file" = some b!"file" := by decide
    have e3 : decodeBody b!"line" = some b!"line" := by decide
    simp only [Cst.decode, decodeMembers, d1, d2, d3, e1, e2, e3, Option.map_some]
  · simp [n1, n2, n3]

/-- The built-in fields stand for the built-in members. -/
theorem basics_shown {env : Env} (he : EnvClean env) {r : Record} (hc : SRecordClean env r) {S : View}
    (hS : S.env = env) (hf : S.f = none) (gs : List Bytes) (n : Nat) (src : Bool) :
    SList S gs n (basics env src r) (sBuiltins env src r) := by
  subst hS
  have app : ∀ {as bs x y}, SList S gs n as x → SList S gs n bs y → SList S gs n (as ++ bs) (x ++ y) := by
    intro as
    induction as with
    | nil => intro bs x y h1 h2; cases h1; exact h2
    | cons a as ih =>
      intro bs x y h1 h2
      cases h1 with
      | cons a1 a2 => rw [List.append_assoc]; exact .cons a1 (ih a2 h2)
  have one : ∀ {a m}, SAttr S gs n a [m] → SList S gs n [a] [m] := fun h => by
    simpa using SList.cons h SList.nil
  have leaf : ∀ {k v t}, k ≠ [] → Quotable S.env.isPrint k → v.resolve = v → SShown S.env v t →
      SAttr S gs n (.mk k v) [(k, t)] := by
    intro k v t h1 h2 h3 h4
    refine .leaf ?_ ?_ h2 h4
    · rw [gone_none hf]; cases k with
      | nil => exact (h1 rfl).elim
      | cons c k => rfl
    · rw [apply_none hf, h3]
  unfold basics sBuiltins
  refine app (app ?_ ?_) ?_
  · cases ht : r.time with
    | none => exact .nil
    | some t =>
      exact one (leaf (by decide) (quotable_ascii (by decide)) rfl ⟨hc.time t ht, rfl⟩)
  · refine SList.cons (x := [_]) (y := [_]) ?_ (one ?_)
    · exact leaf (by decide) (quotable_ascii (by decide)) rfl ⟨levelString_quotable _ _, rfl⟩
    · exact leaf (by decide) (quotable_ascii (by decide)) rfl ⟨hc.message, rfl⟩
  · split
    · obtain ⟨b, h1, h2⟩ := source_clean he hc.function hc.file
      simp only [sourceObj, Res.ok.injEq] at h1
      subst h1
      refine one (leaf (by decide) (quotable_ascii (by decide)) rfl ⟨?_, ?_⟩)
      · exact ⟨_, h2⟩
      · exact parseTree_of_denotes h2.1
    · exact .nil

theorem sBuiltins_ne (env : Env) (src : Bool) (r : Record) : sBuiltins env src r ≠ [] := by
  unfold sBuiltins; simp

/-- The line of a derived handler denotes the specified object. -/
theorem handle_clean {env : Env} {o : Flash.Options} (ho : o.replace = none) (he : EnvClean env)
    {ops : List Op} {r : Record} (hops : SOpsClean env ops) (hr : SRecordClean env r)
    (hd : max (opsDeep ops) (listDeep r.attrs) < env.stack) :
    ∃ h pl st b, (H.plain (newHandler env o)).derive ops = some h ∧
      placeBy (sLeafTree env) ops r.attrs = some pl ∧
      h.handle none sure r = .ok st ∧ st.out.flatten = b ++ [0x0D, 0x0A] ∧
      LineText b (.obj (sBuiltins env o.addSource r ++ pl)) := by
  have hf : (viewOf env o).f = none := ho
  obtain ⟨pl, p1, p2⟩ := clean_place (S := viewOf env o) hf r.attrs
    (max (opsDeep ops) (listDeep r.attrs)) hr.attrs (by omega) ops [] hops (by omega)
  obtain ⟨h, st, b, h1, h2, h3, h4⟩ := handle_shown hd
    (basics_shown he hr (S := viewOf env o) rfl hf _ _ _) (sBuiltins_ne _ _ _) p2
  exact ⟨h, pl, st, b, h1, p1, h2, h3, h4⟩

end Verif.Sloggy
