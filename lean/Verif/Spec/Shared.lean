import Verif.Shared
/-!
# Specification: calls that have nothing to do with one another
-/

namespace Ics.Spec

open Ics

/-- A writer that may change the slices it is given, except the marker of a fold, "TRUE", "FALSE", parts of them, and a comma. -/
def Spares (w : FreeWriter) : Prop :=
  ∀ log p, p <:+: [13, 10, 32] ∨ p <:+: [84, 82, 85, 69] ∨ p <:+: [70, 65, 76, 83, 69] ∨ p = [44] → (w log p).2.2 = p

/-- A writer that changes no slice, as `io.Writer` demands. -/
def Lawful (w : FreeWriter) : Prop := ∀ log p, (w log p).2.2 = p

/-- Only calls with "TRUE" or "FALSE" can be those of `Boolean.encode`. -/
def Sits (src : Nat → Source) (qs : List Bytes) : Prop :=
  ∀ k q, qs[k]? = some q → (src k = .yes → q = [84, 82, 85, 69]) ∧ (src k = .no → q = [70, 65, 76, 83, 69])

/-- A call by a caller that keeps to this. -/
def Fair : PackageCall → Prop
  | .enc E w src c => Spares w ∧ Sits src ((c.said E).calls.map utf8)
  | .dec .. => True

/-- What the call comes to when there is no other. -/
def alone : PackageCall → Answer
  | .enc E w _ c => .enc (encodeCalls E w.plain c)
  | .dec E R fuel ks => .dec (decodeReader E R fuel ks)

/-- How many steps a call takes at most. -/
def steps : PackageCall → Nat
  | .enc E _ _ c => (c.said E).calls.length + 1
  | .dec _ _ _ ks => ks.length + 1

end Ics.Spec
