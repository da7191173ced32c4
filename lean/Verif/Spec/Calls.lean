import Verif.Unfolder
/-!
# Specification of how a reader is called

A history is the list of the sizes of the buffers that the caller's reader was called with, the last call first.
-/

namespace Ics.Spec

open Ics

/-- From the history `h` on, the reader is called with buffers of one to `b` octets as long as it returns no error; the last call gives the error, if there is one. -/
inductive Calls (R : Reader) (b : Nat) (h : List Nat) : List Nat → Option Nat → Prop
  | none : Calls R b h h none
  | call {h' : List Nat} {k : Nat} : Calls R b h h' none → 0 < k → k ≤ b → Calls R b h (k :: h') (R (k :: h')).2

end Ics.Spec
