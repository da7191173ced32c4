import Verif.FolderLemmas
import Verif.Codec
/-!
# What Encode writes, piece by piece
-/

namespace Ics.Spec

/-- `Encode` accepts the calendar, returns, and these octets reach a writer that takes all, however the text is divided into writes. -/
def WritesOut (E : Env) (c : Cal) (o : Bytes) : Prop :=
  ∀ cut : Str → List Str, (∀ s, (cut s).flatten = s) → ∃ r, encode E okSink cut c = .done r ∧ r.err = none ∧ r.f.out = o

/-- All of the pieces one after the other; nothing if one is missing. -/
def joinAll : List (Option Bytes) → Option Bytes
  | [] => some []
  | x :: xs => x.bind fun a => (joinAll xs).map (a ++ ·)

/-- The pieces of lists of lists: those of the first list by `f i`, those of the second by `f (i + 1)`, and so on. -/
def pieces {α : Type} (f : Nat → α → Option Bytes) : Nat → List (List α) → List (Option Bytes)
  | _, [] => []
  | i, l :: ls => l.map (f i) ++ pieces f (i + 1) ls

/-- Octets made from a head, the properties, the subsections, and a tail. -/
def composed {σ : Type} (head tail : Bytes) (prop : Nat → PropVal → Option Bytes) (sub : Nat → σ → Option Bytes) (s : Sect σ) : Option Bytes :=
  joinAll ([some head] ++ pieces prop 0 s.fields ++ pieces sub 0 s.subs ++ [some tail])

/-- Sections without subsections. -/
def noPiece (_ : Nat) (x : Empty) : Option Bytes := nomatch x

end Ics.Spec
