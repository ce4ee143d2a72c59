import Verif.Bench.Decode

/-
A concrete library for the examples and counterexamples: numbers are their numerals, and
the unmarshaling function is faithful.
-/

namespace Verif.Bench.Sample
open Go Warning

/-- Numbers as numerals. -/
def num (t : Bytes) : Option Bytes := some t

/-- A tree as an object. -/
def asMap : Json.Tree → Option (AMap Bytes)
  | .obj ms => toMap num ms
  | _ => none

/-- A sample `json.Unmarshal`. -/
def unmarshal (s : Bytes) : Option (AMap Bytes) × Option Bytes :=
  match Json.parseVal (2 * s.length) s with
  | some (c, r) =>
    if r.all Json.isWs then
      match c.decode.bind asMap with
      | some m => (some m, none)
      | none => (none, some b!"unmarshal: type")
    else (none, some b!"unmarshal: trailing")
  | none => (none, some b!"unmarshal: syntax")

/-- A sample `json.Marshal` of an atom. -/
def marshalAtom : Any Bytes → Option Bytes
  | .nil => some b!"null"
  | .bool true => some b!"true"
  | .bool false => some b!"false"
  | .num t => some t
  | .str s => some (0x22 :: (s ++ [0x22]))
  | .list _ => none
  | .map _ => none

/-- The text of an error. -/
def groupText : GroupErr Bytes → Bytes
  | .nonGroup field _ => b!"non-group value " ++ field
  | .badPrefix field stem => b!"bad prefix " ++ field ++ b!" != " ++ stem

/-- Upper case of ASCII. -/
def upper (s : Bytes) : Bytes := s.map fun b => if 0x61 ≤ b ∧ b ≤ 0x7A then b - 0x20 else b

/-- The sample library. -/
def lib : Lib Bytes where
  unmarshal := unmarshal
  marshal := marshalAtom
  upper := upper
  groupText := groupText
  useWarnings := true
  fn := b!"Benchmark"
  sorter := someSorter

theorem ws_follow {w : Bytes} (h : Json.Ws w) : Json.Follow w := by
  have := Json.Ws.follow h (r := []) trivial
  simpa using this

theorem faithful : Faithful num unmarshal := by
  intro b ms w a hd hw _ _
  obtain ⟨c, hv, hc⟩ := hd
  have h1 := Json.parseVal_of_val hv (2 * (b ++ w).length) w (by simp; omega) (ws_follow hw)
  have hall : ∀ (t : Json.Tree), ∀ s ∈ numerals t, (num s).isSome = true := fun _ _ _ => rfl
  obtain ⟨m, hm⟩ := Option.isSome_iff_exists.1 (toMap_some num ms fun s _ => rfl)
  refine ⟨m, ?_, ?_⟩
  · have hw' : w.all Json.isWs = true := List.all_eq_true.2 hw
    have hb : c.decode.bind asMap = some m := by rw [hc]; exact hm
    unfold unmarshal
    rw [h1]
    dsimp only
    rw [if_pos hw', hb]
  · obtain ⟨e1, e2, e3⟩ := toMap_isAny num ms m hm
    exact .obj e1 e2 e3

end Verif.Bench.Sample
