import Verif.Writer
/-!
# What the caller's writer is given
-/

namespace Ics.Spec

open Ics

/-- The calls of a writer: what each was given, what was accepted of it all, and the error of the last call.  Every call is given something, and none is made after a
call that returned an error. -/
inductive Handed (w : Writer) : List Bytes → Bytes → Option Nat → Prop
  | none : Handed w [] [] none
  | call {log : List Bytes} {out : Bytes} (p : Bytes) : Handed w log out none → p ≠ [] → Handed w (log ++ [p]) (out ++ p.take (w log p).1) (w log p).2

/-- A text in pieces, none empty, some of them with a call in front that is given CR LF SPACE. -/
inductive HandedOut : Bytes → List Bytes → Prop
  | nil : HandedOut [] []
  | piece {p q : Bytes} {ps : List Bytes} : p ≠ [] → HandedOut q ps → HandedOut (p ++ q) (p :: ps)
  | fold {p q : Bytes} {ps : List Bytes} : p ≠ [] → HandedOut q ps → HandedOut (p ++ q) ([13, 10, 32] :: p :: ps)

/-- A writer that keeps the contract of `io.Writer`: it returns an error if it accepts fewer octets than it is given. -/
def KeepsContract (w : Writer) : Prop := ∀ log p, (w log p).1 < p.length → (w log p).2 ≠ none

/-- The writer does at its calls what `W` says, whatever it is given. -/
def byCount (W : Sink) : Writer := fun log p => match W log.length with
  | none => (p.length, none)
  | some (n, e) => (min n p.length, some e)

/-- What `Folder` keeps of the calls: their number. -/
def counted (f : WFolder) : Folder := ⟨f.line, f.err, f.log.length, f.out⟩

end Ics.Spec
