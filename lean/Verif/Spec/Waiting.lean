import Verif.Utf8
/-!
# Texts that may end inside of a fold marker
-/

namespace Ics.Spec

open Ics

/-- The last octet is a CR. -/
def EndsInCR (q : Bytes) : Prop := q.length > 0 ∧ q[q.length - 1]? = some 13
/-- The last two octets are CR LF. -/
def EndsInCRLF (q : Bytes) : Prop := q.length > 1 ∧ q[q.length - 2]? = some 13 ∧ q[q.length - 1]? = some 10

instance (q : Bytes) : Decidable (EndsInCR q) := by unfold EndsInCR; infer_instance
instance (q : Bytes) : Decidable (EndsInCRLF q) := by unfold EndsInCRLF; infer_instance


end Ics.Spec
