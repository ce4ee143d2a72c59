import Verif.Verify.Warnings

/-
What a verification run may write down, said without its code: the warnings it was told to expect,
notes that such a warning was not seen, and a list of exceptions.
-/

namespace Verif.Verify
open Warning Bench

/-- The pairs of warnings of which the first, when expected, can make a test record the second one,
or note that the second one was not seen. -/
def strays : List (Warning × Warning) :=
  [(timeSeconds, timeMillis), (groupEmpty, withGroup), (withGroup, groupEmpty)]

/-- The warnings that are looked for. Missing here are `NoNilValue`, `TimeSeconds`,
`GroupAttrInfoTop` and `LevelWrong`: when expected, tests let things pass, but do not say so. -/
def lookedFor : List Warning :=
  [canceledContext, defaultLevel, duplicates, durationMillis, durationSeconds, durationString, emptyAttributes,
   groupDuration, groupEmpty, groupInline, groupWithTop, levelCase, levelMath, levelVar, messageKey, noEmptyName,
   noReplAttr, noReplAttrBasic, replAttrGroup, resolver, skipDedup, sourceCaller, sourceKey, stringAny, timeMillis,
   withGroup, withGroupEmpty, zeroPC, zeroTime]

/-- A warning and its text, when `E` are the warnings to expect. -/
inductive Allowed (E : Warning → Bool) : Warning → Bytes → Prop
  | expected {w : Warning} {text : Bytes} (h : E w = true) (hm : w ∈ lookedFor) : Allowed E w text
  | unused {w : Warning} (h : E w = true) (hm : w ∈ lookedFor) : Allowed E unused w.name
  | stray {v w : Warning} {text : Bytes} (h : E v = true) (hm : (v, w) ∈ strays) : Allowed E w text
  | strayUnused {v w : Warning} (h : E v = true) (hm : (v, w) ∈ strays) : Allowed E Warning.unused w.name
  | level {text : Bytes} (h : E levelCase = true) : Allowed E levelWrong text
  | caller {text : Bytes} (h : E sourceKey = true) : Allowed E sourceCaller text
  | skipping (h : E skipDedup = true) : Allowed E skippingTest skipDedup.name

end Verif.Verify
