import Verif.Basic
/-!
# Specification: the names of RFC 5545 for enumerated parameters and properties
-/

namespace Ics.Spec

/-- Enumerated parameters of RFC 5545 section 3.2, with the names it lists (but for UNKNOWN in CUTYPE). -/
def rfcParamNames : List (Str × List Str) :=
  [(c!"CUTYPE", [c!"INDIVIDUAL", c!"GROUP", c!"RESOURCE", c!"ROOM"]),
   (c!"ENCODING", [c!"8BIT", c!"BASE64"]),
   (c!"FBTYPE", [c!"FREE", c!"BUSY", c!"BUSY-UNAVAILABLE", c!"BUSY-TENTATIVE"]),
   (c!"PARTSTAT", [c!"NEEDS-ACTION", c!"ACCEPTED", c!"DECLINED", c!"TENTATIVE", c!"DELEGATED", c!"COMPLETED", c!"IN-PROCESS"]),
   (c!"RELATED", [c!"START", c!"END"]),
   (c!"RELTYPE", [c!"PARENT", c!"CHILD", c!"SIBLING"]),
   (c!"ROLE", [c!"CHAIR", c!"REQ-PARTICIPANT", c!"OPT-PARTICIPANT", c!"NON-PARTICIPANT"]),
   (c!"VALUE", [c!"BINARY", c!"BOOLEAN", c!"CAL-ADDRESS", c!"DATE", c!"DATE-TIME", c!"DURATION", c!"FLOAT", c!"INTEGER", c!"PERIOD", c!"RECUR", c!"TEXT",
     c!"TIME", c!"URI", c!"UTC-OFFSET"])]

/-- Enumerated properties of RFC 5545 section 3.7 and 3.8 (STATUS of events, to-dos and journals together). -/
def rfcPropNames : List (Str × List Str) :=
  [(c!"CALSCALE", [c!"GREGORIAN"]),
   (c!"CLASS", [c!"PUBLIC", c!"PRIVATE", c!"CONFIDENTIAL"]),
   (c!"STATUS", [c!"TENTATIVE", c!"CONFIRMED", c!"CANCELLED", c!"NEEDS-ACTION", c!"COMPLETED", c!"IN-PROCESS", c!"DRAFT", c!"FINAL"]),
   (c!"TRANSP", [c!"OPAQUE", c!"TRANSPARENT"]),
   (c!"ACTION", [c!"AUDIO", c!"DISPLAY", c!"EMAIL"])]

/-- The lists hold the same names, each once. -/
def SameNames (a b : List Str) : Prop := a.Nodup ∧ b.Nodup ∧ (∀ n ∈ a, n ∈ b) ∧ (∀ n ∈ b, n ∈ a)

instance (a b : List Str) : Decidable (SameNames a b) := by unfold SameNames; infer_instance

/-- The character may stand for this character of a name: it is the same, or the small letter of a capital one, or the dotless ı for I, or the long ſ for S. -/
def StandsFor (c d : Char) : Prop := c = d ∨ (65 ≤ d.toNat ∧ d.toNat ≤ 90 ∧ c.toNat = d.toNat + 32) ∨ (d = 'I' ∧ c = 'ı') ∨ (d = 'S' ∧ c = 'ſ')

/-- A way to spell a name. -/
inductive Spells : Str → Str → Prop
  | nil : Spells [] []
  | cons {c d : Char} {s t : Str} : StandsFor c d → Spells s t → Spells (c :: s) (d :: t)

/-- A name as RFC 5545 writes it: ASCII without small letters. -/
def Capitals (t : Str) : Prop := ∀ c ∈ t, c.toNat < 128 ∧ ¬ (97 ≤ c.toNat ∧ c.toNat ≤ 122)

end Ics.Spec
