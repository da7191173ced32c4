import Verif.Unfolder
import Verif.Spec.Folding
/-!
# Specification: folded documents, and readers that deliver what they are asked for
-/

namespace Ics.Spec

open Ics

/-- `t` is `s` with CR LF and one of the white space octets `ws` inserted anywhere, as RFC 5545 section 3.1 allows for SPACE (32) and HTAB (9): "a long line can be
split between any two characters by inserting a CRLF immediately followed by a single linear white-space character". -/
inductive Folded (ws : UInt8 → Prop) : Bytes → Bytes → Prop
  | nil : Folded ws [] []
  | keep (b : UInt8) {s t : Bytes} : Folded ws s t → Folded ws (b :: s) (b :: t)
  | fold {w : UInt8} {s t : Bytes} : ws w → Folded ws s t → Folded ws s (13 :: 10 :: w :: t)

/-- SPACE or HTAB. -/
def White (w : UInt8) : Prop := w = 32 ∨ w = 9

/-- SPACE. -/
def Space (w : UInt8) : Prop := w = 32

/-- A reader such as `bytes.Reader`, `strings.Reader` or a file: each call delivers as many octets as are asked for, or those that are left; when none are left, the
error `fin` (`io.EOF`).  The first case does not arise: the list of calls begins with the present one. -/
def fullReader (doc : Bytes) (fin : Nat) : Reader
  | [] => ([], none)
  | k :: h => if doc.length ≤ h.sum then ([], some fin) else ((doc.drop h.sum).take k, none)

end Ics.Spec
