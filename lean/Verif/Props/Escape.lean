import Verif.Flash.EscapeLemmas

/-
Properties C01 and C02: string literals written by the flash handler.
-/

namespace Verif.Props
open Json Flash

/-- C01. For every valid UTF-8 string the bytes flash puts between the quotes
are a legal JSON string body that denotes exactly the original string. -/
theorem C01_flash_string_round_trip (s : Bytes) (hs : Utf8.Valid s) :
    decodeBody (addEscaped s) = some s :=
  decodeBody_of_body (addEscaped_body hs)

example : Utf8.Valid b!"tab\t quote\" slash/ back\\ Ϣ 𝄞 \x01" ∧
    addEscaped b!"q\"/\t\x01Ϣ" = b!"q\\\"\\/\\t\\u0001Ϣ" := by
  constructor <;> decide

/-- C01, lexical side: the literal is closed by the handler's own quote and by
nothing before it, and its body is read back in full. -/
theorem C01_flash_string_token (s rest : Bytes) (hs : Utf8.Valid s) :
    lexString (addEscaped s ++ 0x22 :: rest) = some (addEscaped s, rest) :=
  (addEscaped_body hs).lex rest

/-- C01: two different valid strings are never printed alike. -/
theorem C01_flash_string_injective (s t : Bytes) (hs : Utf8.Valid s) (ht : Utf8.Valid t)
    (h : addEscaped s = addEscaped t) : s = t := by
  have h1 := C01_flash_string_round_trip s hs
  rw [h, C01_flash_string_round_trip t ht] at h1
  simpa using h1.symm

/-- The full statement of C02. -/
def C02_statement : Prop := ∀ s : Bytes, Closed s

/-- C02 is false: the string `C3 22` is printed as is, so its quote closes the literal. -/
theorem C02_flash_injection : ¬ C02_statement := by
  intro h
  have := h [0xC3, 0x22] []
  revert this
  decide

/-- C02 fails for every string in which a two-byte lead is followed by a quote,
after any valid text and before any continuation: the literal is closed at that
quote and the continuation is read as JSON syntax. -/
theorem C02_flash_injection_general (p q : Bytes) (lead : UInt8) (hp : Utf8.Valid p)
    (hl : leadMore lead = 1) :
    ∀ r, lexString (addEscaped (p ++ lead :: 0x22 :: q) ++ r) =
      some (addEscaped p ++ [lead], addEscaped q ++ r) := by
  intro r
  rw [addEscaped_eq, escAll_valid_append hp (by omega) (by simp; omega), hl, addEscaped_eq q]
  have hb := addEscaped_body hp
  rw [addEscaped_eq] at *
  have hlead : lead ≠ 0x22 ∧ lead ≠ 0x5C := by
    constructor <;> (rintro rfl; simp [leadMore] at hl)
  simp only [List.take_succ_cons, List.take_zero, List.drop_succ_cons, List.drop_zero,
    List.append_assoc, List.cons_append, List.nil_append]
  rw [hb.lex_append, lexString_plain hlead.1 hlead.2, lexString_quote]
  rfl

example : Utf8.Valid b!"user=" ∧ leadMore 0xC3 = 1 ∧
    addEscaped (b!"user=" ++ 0xC3 :: 0x22 :: b!", admin: true") =
      b!"user=" ++ 0xC3 :: 0x22 :: b!", admin: true" := by
  refine ⟨?_, ?_, ?_⟩ <;> decide

/-- C02, exact guard: as long as no backslash is swallowed by a multi-byte lead,
the literal is closed by its own quote exactly if no quote is swallowed. -/
theorem C02_flash_confined_iff_partial (s : Bytes) (h : (0x5C : UInt8) ∉ swallowed s) :
    Closed s ↔ (0x22 : UInt8) ∉ swallowed s := by
  constructor
  · intro hc hq
    obtain ⟨b, t, e, hl⟩ := escAll_open s.length s [] (Nat.le_refl _) (by simp) h hq (0x22 :: [])
    have := hc []
    rw [addEscaped_eq] at this
    rw [this] at e
    simp at e
    rw [← e.1] at hl
    omega
  · intro hq r
    rw [addEscaped_eq]
    refine escAll_closed s.length s [] (Nat.le_refl _) (by simp) ?_ r
    intro a ha
    constructor <;> (rintro rfl; contradiction)

example : (0x5C : UInt8) ∉ swallowed [0x41, 0xC3, 0x28, 0x22, 0xFF, 0xE2, 0x80] ∧
    (0x22 : UInt8) ∉ swallowed [0x41, 0xC3, 0x28, 0x22, 0xFF, 0xE2, 0x80] := by
  constructor <;> simp [swallowed, leadMore] <;> decide

/-- C02, second failure: a truncated multi-byte sequence at the end duplicates
the pending text; the logged text is not what is printed. -/
theorem C02_flash_truncation_duplicates (run : Bytes) (lead : UInt8)
    (hr : ∀ a ∈ run, escOf a = none ∧ leadMore a = 0) (hl : leadMore lead ≠ 0) :
    addEscaped (run ++ [lead]) = run ++ run ++ [lead] := by
  have key : ∀ (t acc : Bytes), (∀ a ∈ t, escOf a = none ∧ leadMore a = 0) →
      escAll acc (t ++ [lead]) = (acc ++ t) ++ (acc ++ t) ++ [lead] := by
    intro t
    induction t with
    | nil =>
      intro acc _
      rw [List.nil_append, escAll, escOf_lead lead hl]
      have : ¬ leadMore lead ≤ 0 := by omega
      simp [hl]
    | cons a t ih =>
      intro acc ht
      have ha := ht a (by simp)
      rw [List.cons_append, escAll, ha.1]
      simp only [ha.2, if_true]
      rw [ih _ (fun x hx => ht x (by simp [hx]))]
      simp
  rw [addEscaped_eq]
  simpa using key run [] hr

example : addEscaped [0x61, 0x62, 0xC3] = [0x61, 0x62, 0x61, 0x62, 0xC3] := by decide

end Verif.Props
