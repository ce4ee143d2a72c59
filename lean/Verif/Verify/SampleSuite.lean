import Verif.Verify.Marks
import Verif.Bench.Sample
import Verif.Spec.Letters
import Verif.Flash.Sample
import Verif.Props.FieldCount

/-
The flash handler as the handler under test of the verification suite, and concrete surroundings
for the examples and counterexamples.
-/

namespace Verif.Verify
open Go Warning Slog Bench

/-- The flash handler under test (creator/madkinsflash/creator.go:28-30,
verify/slog_madkins_flash_test.go:13-18). -/
def flashSut (env : Env) : Sut where
  enabled n o ops level :=
    match (Flash.H.plain (Flash.build env (some o) none)).derive ops with
    | some h => h.enabled n level
    | none => false
  handle _ o ops _ r :=
    match (Flash.H.plain (Flash.build env (some o) none)).derive ops with
    | some h =>
      match h.handle none r with
      | .line b => (b, false)
      | _ => ([], true)
    | none => ([], true)

/-- A manager told to expect some warnings (infra/warning/manager.go:106-115). -/
def telling (ws : List Warning) : Manager := { warnOnly := ws.map fun w => (w.name, true) }

namespace Sample

/-- A sample `json.Unmarshal`, which leaves out white space in front. -/
def unmarshal (s : Bytes) : Option (AMap Bytes) × Option Bytes := Bench.Sample.unmarshal (s.dropWhile Json.isWs)

/-- Sample surroundings: numbers are numerals, letters are ASCII, it is always the same moment. -/
def suite (sut : Sut) (use : Bool) : Suite Bytes where
  sut := sut
  N := ⟨decInt, F64.text, decInt⟩
  L := Letters.asciiLib
  U := Props.FieldCount.latin1
  unmarshal := unmarshal
  useWarnings := use
  clock := fun _ => (7, 3)
  formatTime := fun layout t => if layout == rfc3339Nano then b!"T" ++ decNat t else layout
  parseDate := fun s => if s == b!"T7" then some (2024, 3, 1) else none
  date := fun _ => (2024, 3, 1)
  pick := id
  showAny := fun _ => []
  showFloat := id
  showCounts := fun _ => b!"map[charlie:3]"
  showMismatches := fun _ => b!"mismatches"
  durationString := decInt
  goValue := fun _ => .nil
  stamp := b!"2024-03-01T12:00:00Z"

/-- A handler that writes an empty object. -/
def hollow : Sut := ⟨fun _ _ _ _ => true, fun _ _ _ _ _ => (b!"{}\n", false)⟩

end Sample

end Verif.Verify
