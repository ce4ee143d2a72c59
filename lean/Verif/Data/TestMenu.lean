import Verif.Data.Setup
import Verif.Score.Filter

/-
The lists of tests of the warnings, for the menus of the server: internal/data/warnings.go:148-173.
The template functions range over what these return (cmd/server/parts/header.gohtml:46-48,
cmd/server/pages/home.gohtml:46-48).

Simplified: the variable `tests` of `Warnings` (internal/data/warnings.go:33) is passed and returned.
-/

namespace Verif.Data
open Go Verif.Score

/-- `TestTags` of warnings (internal/data/warnings.go:148-159): the variable `tests` afterwards, which is what is
returned. `pick` is the order in which the map is visited. -/
def Warns.testTags (S : Sorter) (pick : List Bytes → List Bytes) (w : Warns) (tests : List Bytes) : List Bytes :=
  if tests.length < 1 then
    S.sort (fun i j => less (warnTestName w i) (warnTestName w j)) (tests ++ pick w.byTest.keys)
  else tests

/-- `TestTagsForSource` (internal/data/warnings.go:162-173): the variable `tests` afterwards and the list. -/
def Warns.testTagsForSource (S : Sorter) (pick : List Bytes → List Bytes) (w : Warns) (tests : List Bytes) (source : Bytes) :
    List Bytes × List Bytes :=
  let source := if b!":".isSuffixOf source then source else source ++ b!"."
  let tests := w.testTags S pick tests
  (tests, tests.filter fun t => source.isPrefixOf t)

end Verif.Data
