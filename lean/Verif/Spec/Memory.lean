import Verif.Memory
/-!
# Specification: the rest of the buffers
-/

namespace Ics.Spec

open Ics

/-- A reader that leaves the slice alone when it delivers nothing and returns no error.  Otherwise it may do with the rest of the slice as it likes. -/
def LeavesAlone (R : Reader) (S : Scratch) : Prop := ∀ k h x, 0 < k → (R (k :: h)).2 = none → (R (k :: h)).1 = [] → S (k :: h) x = x

/-- An unfolder as in Go: an array of two octets, of which at most two are in use. -/
def MUnfolderOk (u : MUnfolder) : Prop := u.buf.length = 2 ∧ u.bufLen ≤ 2

/-- What the caller sees of the result of a `Read`: the count, the error, and the octets counted. -/
def MRes.seen (r : MRes) : Int × Option Nat × Bytes := (r.m, r.err, r.mem.take r.m.toNat)

/-- The same of the model without the rest of the buffers. -/
def ReadRes.seen (r : ReadRes) : Int × Option Nat × Bytes := (r.m, r.err, r.q.take r.m.toNat)

/-- The result of a run, if it has one. -/
def Run.map {α β : Type} (f : α → β) : Run α → Run β
  | .done a => .done (f a)
  | .panic => .panic
  | .running => .running

end Ics.Spec
