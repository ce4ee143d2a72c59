import Verif.Spec.LogTree
import Verif.Spec.Utf8

/-
Specification: the language of the generated test cases of the verification suite, and the
programs whose expectation cannot be met.
-/

namespace Verif.TestProgram
open Slog LogTree

/-- `Prog lists s ops as`: the text `s` is a program that derives a logger by `ops` and then
logs one message with the attributes `as`. Instructions are `W+X` (`With`), `G` and a
character for the name of a group (`WithGroup`), possibly followed by `+X` (`With`), and at
the end `M` or `M+X` (`Info`), with spaces anywhere between them; `lists X` are the
attributes called `X`. -/
inductive Prog (lists : UInt8 → Option (List Attr)) : Bytes → List Op → List Attr → Prop
  | message {w} : (∀ b ∈ w, b = 0x20) → Prog lists (0x4D :: w) [] []
  | messageAttrs {c as w} : lists c = some as → (∀ b ∈ w, b = 0x20) → Prog lists (0x4D :: 0x2B :: c :: w) [] as
  | space {s ops as} : Prog lists s ops as → Prog lists (0x20 :: s) ops as
  | without {s ops as} : Prog lists s ops as → Prog lists (0x57 :: s) ops as
  | attrs {c bs s ops as} : lists c = some bs → Prog lists s ops as →
      Prog lists (0x57 :: 0x2B :: c :: s) (.attrs bs :: ops) as
  | group {c s ops as} : Prog lists s ops as →
      Prog lists (0x47 :: c :: s) (.group (b!"group" ++ Utf8.encode c.toNat) :: ops) as
  | groupAttrs {c x bs s ops as} : lists x = some bs → Prog lists s ops as →
      Prog lists (0x47 :: c :: 0x2B :: x :: s)
        (.group (b!"group" ++ Utf8.encode c.toNat) :: .attrs bs :: ops) as

/-- A group in which nothing is logged has the name of an attribute given before it on the
same level; `seen` are the names of the attributes on the current level so far. -/
def Hides (seen : List Bytes) : List Op → List Attr → Prop
  | [], _ => False
  | .attrs bs :: ops, as => Hides (seen ++ bs.map Attr.key) ops as
  | .group n :: ops, as => (n ∈ seen ∧ groupsOnly ops = true ∧ as = []) ∨ Hides [] ops as

end Verif.TestProgram
