import Verif.Spec.JsonSound
import Verif.Flash.Denote

/-
Texts that cannot be the beginning of the members of a JSON object.
-/

set_option linter.unusedSimpArgs false

namespace Verif.Json
open LogTree Flash

/-- However it goes on, what begins like this is not a list of members. -/
def Jam (b : Bytes) : Prop := ∀ n r, 2 * b.length + 1 ≤ n → parseMembers n (b ++ r) = none

theorem Jam.append {b : Bytes} (h : Jam b) (c : Bytes) : Jam (b ++ c) := by
  intro n r hn
  rw [List.append_assoc]
  exact h n (c ++ r) (by simp at hn; omega)

theorem skip_space {a : UInt8} (ha : isWs a = false) (s : Bytes) : skipWs (0x20 :: a :: s) = a :: s := by
  have h : isWs 0x20 = true := by decide
  simp [skipWs, List.dropWhile_cons, ha, h]

/-- A member must not be followed by another one without comma. -/
theorem jam_next {t : Bytes} {m : Bytes × Tree} (h : MemberText t m) (b : Bytes) : Jam (t ++ 0x22 :: b) := by
  obtain ⟨kb, v, rfl, ⟨hk, _⟩, ⟨c, hv, _⟩, _⟩ := h
  intro n r hn
  obtain ⟨n, rfl⟩ : ∃ k, n = k + 1 := ⟨n - 1, by omega⟩
  have hb : BodyOk kb := by simp [BodyOk, hk]
  have key := parseVal_of_val hv n (0x22 :: (b ++ r)) (by simp at hn; omega) (by simp [Follow]; decide)
  obtain ⟨a, t, rfl, ha, _⟩ := hv.head
  simp only [List.cons_append, List.append_assoc, parseMembers] at key ⊢
  rw [skipWs_of_not (by decide)]
  simp only [if_true, lexString_of_body hb, hb]
  rw [skipWs_of_not (by decide)]
  simp only [if_true]
  rw [skip_space ha, key]
  simp only
  rw [skipWs_of_not (by decide)]
  simp

/-- What comes after the comma counts. -/
theorem jam_cons {t b : Bytes} {m : Bytes × Tree} (h : MemberText t m) (hb : Jam b) :
    Jam (t ++ 0x2C :: 0x20 :: b) := by
  obtain ⟨kb, v, rfl, ⟨hk, _⟩, ⟨c, hv, _⟩, _⟩ := h
  intro n r hn
  obtain ⟨n, rfl⟩ : ∃ k, n = k + 1 := ⟨n - 1, by omega⟩
  have hk : BodyOk kb := by simp [BodyOk, hk]
  have key := parseVal_of_val hv n (0x2C :: 0x20 :: (b ++ r)) (by simp at hn; omega) (by simp [Follow]; decide)
  have hrec := hb n r (by simp at hn; omega)
  obtain ⟨a, t, rfl, ha, _⟩ := hv.head
  simp only [List.cons_append, List.append_assoc, parseMembers] at key ⊢
  rw [skipWs_of_not (by decide)]
  simp only [if_true, lexString_of_body hk, hk]
  rw [skipWs_of_not (by decide)]
  simp only [if_true]
  rw [skip_space ha, key]
  simp only
  rw [skipWs_of_not (by decide)]
  have e : parseMembers n (0x20 :: (b ++ r)) = none := by
    rw [← parseMembers_skip, show skipWs (0x20 :: (b ++ r)) = skipWs (b ++ r) from
      skipWs_append (w := [0x20]) (by simp [Ws, isWs]), parseMembers_skip, hrec]
  simp [e]

/-- What is inside an object counts. -/
theorem jam_object {kb b : Bytes} (hk : BodyOk kb) (hb : Jam (0x22 :: b)) :
    Jam (0x22 :: (kb ++ 0x22 :: 0x3A :: 0x20 :: 0x7B :: 0x22 :: b)) := by
  intro n r hn
  obtain ⟨n, rfl⟩ : ∃ k, n = k + 2 := ⟨n - 2, by simp at hn; omega⟩
  have hrec := hb n r (by simp at hn ⊢; omega)
  simp only [List.cons_append, List.append_assoc, parseMembers] at hrec ⊢
  rw [skipWs_of_not (by decide)]
  simp only [if_true, lexString_of_body hk, hk]
  rw [skipWs_of_not (by decide)]
  simp only [if_true]
  rw [skip_space (by decide)]
  have e : parseVal (n + 1) (0x7B :: 0x22 :: (b ++ r)) = none := by
    rw [parseVal]
    simp only [show ¬ (0x7B : UInt8) = 0x22 from by decide, if_false, if_true]
    rw [skipWs_of_not (by decide)]
    simp [hrec]
  rw [e]

/-- An object that begins like this is not JSON. -/
theorem jam_line {b : Bytes} (hb : Jam (0x22 :: b)) : ¬ ∃ t, Denotes (0x7B :: 0x22 :: b) t := by
  rintro ⟨t, c, hc, _⟩
  have := parse_of_val hc
  rw [parse, skipWs_of_not (by decide)] at this
  have hrec := hb (2 * b.length + 5) [] (by simp; omega)
  simp only [List.append_nil] at hrec
  have e : parseVal (2 * (0x7B :: 0x22 :: b : Bytes).length + 2) (0x7B :: 0x22 :: b) = none := by
    rw [show 2 * (0x7B :: 0x22 :: b : Bytes).length + 2 = (2 * b.length + 5) + 1 by simp; omega, parseVal]
    simp only [show ¬ (0x7B : UInt8) = 0x22 from by decide, if_false, if_true]
    rw [skipWs_of_not (by decide)]
    simp [hrec]
  rw [e] at this
  cases this

end Verif.Json
