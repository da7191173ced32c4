import Verif.DepthExactLemmas
import Verif.Props.Depth
/-!
# C88: exactly how deep the calls of Decode are nested for a document that is accepted
-/

namespace Ics.Props
open Ics.Spec

/-- C88.  Exactly how many calls are open at one time, for a document that is accepted, with the names BEGIN and END in upper case: one more than the blocks that are open at one time in the
lines of the calendar, or five if the calendar has an alarm and that is more. -/
theorem C88_exact {E : Env} {s : Str} {c : Cal} (hc : Capital (tokenise s).lines) (h : decodeDoc E s = .ok c) :
    ∃ u r, (tokenise s).lines = u ++ r ∧ WholeBlock u ∧ ∀ n, decodeDepth E s ≤ n + 1 ↔ OpenAtMost n u ∧ ((∃ cs ∈ c.subs, ∃ x ∈ cs, HasAlarm x) → 4 ≤ n) :=
  decodeDepth_exact hc h

/-- Cases: an alarm; no alarm, the names of the components in lower case, and a second calendar behind, which does not count. -/
theorem C88_exact_cases : Capital (tokenise ((inAlarm ++ afterAlarm).flatMap printLine)).lines ∧ (decodeDoc sampleEnv ((inAlarm ++ afterAlarm).flatMap printLine)).isOk = true ∧
    (let s := c!"BEGIN:vcalendar\r\nVERSION:2.0\r\nPRODID:x\r\nBEGIN:x\r\nBEGIN:VALARM\r\nEND:VALARM\r\nEND:X\r\nEND:VCALENDAR\r\nBEGIN:A\r\nBEGIN:A\r\nBEGIN:A\r\nBEGIN:A\r\n"
     Capital (tokenise s).lines ∧ (decodeDoc sampleEnv s).isOk = true ∧ decodeDepth sampleEnv s = 4) := by decide +kernel

end Ics.Props
