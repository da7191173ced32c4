import Verif.Unfolder
/-!
# Specification: the other end of a pipe
-/

namespace Ics.Spec

open Ics

/-- The reading end of an `io.Pipe` or of another connection without a buffer: a call of `Read` gets octets of one call of `Write`, all of them or as many as there is room for, and what is
left of them goes to the next call.  `calls` is what the calls of `Write` are given; behind the last of them the pipe is closed, and reading returns the error `fin` (`io.EOF`). -/
def pipeReader (fin : Nat) (calls : List Bytes) : Reader := piecesReader fin calls

/-- One of the calls is given a fold. -/
def SomeFold (calls : List Bytes) : Prop := [13, 10, 32] ∈ calls

instance (calls : List Bytes) : Decidable (SomeFold calls) := by unfold SomeFold; infer_instance

end Ics.Spec
