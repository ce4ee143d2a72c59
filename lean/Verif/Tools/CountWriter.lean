import Verif.Basic

/-
The writer that counts: internal/test/writer.go.
-/

namespace Verif.Tools

/-- `CountWriter` (internal/test/writer.go:13-15): the counter is a `uint64`. -/
structure CountWriter where
  count : UInt64 := 0
deriving DecidableEq

/-- `Write` (internal/test/writer.go:18-23): the writer, and the number of bytes reported; there is
never an error. Adding to the counter is one atomic step, so calls from several
goroutines take effect one after the other. -/
def CountWriter.write (w : CountWriter) (p : Bytes) : CountWriter × Nat :=
  (if p.length > 0 && p.getD (p.length - 1) 0 == 0x0A then { count := w.count + 1 } else w, p.length)

/-- `Written` (internal/test/writer.go:26-28). -/
def CountWriter.written (w : CountWriter) : UInt64 := w.count

/-- Writing one after the other. -/
def CountWriter.writeAll (w : CountWriter) : List Bytes → CountWriter
  | [] => w
  | p :: ps => (w.write p).1.writeAll ps

end Verif.Tools
