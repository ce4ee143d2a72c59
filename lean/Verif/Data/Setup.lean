import Verif.Data.BenchParser

/-
Model of /repo/internal/data/setup.go: the output of benchmarks and of verification is read.

Simplifications: the files are texts, reading them never fails.
-/

namespace Verif.Data
open Go Verif.Warning

/-- `Setup` (internal/data/setup.go:13-28): what is stored, and whether an error is returned; `none` is
a panic. `pick` is the order in which the map of names is visited. -/
def setup {F : Type} (E : Env) (fl : Floats F) (pick : List Bytes → List Bytes) (b : Bench F) (w : Warns) (bench verify : Bytes) :
    Option (Bench F × Warns × Bool) :=
  match b.parse E fl bench with
  | (b, true) => some (b, w, true)
  | (b, false) =>
    match b.handlerLookup pick with
    | (b, lookup) =>
      match parseWarningData E b!"Bench" lookup w b.warningText with
      | none => none
      | some (w, true) => some (b, w, true)
      | some (w, false) =>
        match b.handlerLookup pick with
        | (b, lookup) =>
          match parseWarningData E b!"Verify" lookup w verify with
          | none => none
          | some (w, err) => some (b, w, err)

end Verif.Data
