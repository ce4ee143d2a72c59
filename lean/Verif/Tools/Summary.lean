import Verif.Tools.Creator
import Verif.Warning.Show

/-
What a verification suite prints about its handler before the tests.
-/

namespace Verif.Tools
open Verif.Go Verif.Warning

variable {W O H L : Type}

/-- `SetupSuite` (verify/tests/suite.go:40-51): what is printed. `order` is the order in
which the map of links is ranged over. -/
def Creator.setupSuite (order : Map Bytes Bytes → List (Bytes × Bytes)) (c : Creator W O H L) : Bytes :=
  if c.hasSummary then
    b!":[ " ++ c.name ++ b!"\n" ++
      ((splitNL c.summary).map fun line => b!":: " ++ line ++ b!"\n").flatten ++
      ((order c.links).map fun p => b!":> " ++ p.1 ++ b!" --> " ++ p.2 ++ b!"\n").flatten ++
      b!":]\n"
  else []

end Verif.Tools
