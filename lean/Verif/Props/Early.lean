import Verif.EarlyLemmas
import Verif.Props.Decode
/-!
# Theorems about the point at which the result is settled: C65
-/

namespace Ics.Props

open Spec

/-- The text does not begin with a content line: reading its first line fails with this error. -/
def NotALine (q : Str) (e : Err) : Prop := tokenise q = ⟨[], .error e⟩

/-- The text, which ends with a complete line, settles the result: nothing that follows changes it. -/
def Settles (E : Env) (p : Str) (x : Res Cal) : Prop := decodeDoc E p = x ∧ ∀ q, decodeDoc E (p ++ q) = x

/-- The text makes `Decode` read on: if it ends here that is reported (or `Decode` panics), and if what follows is not a content line, that is. -/
def Undecided (E : Env) (p : Str) : Prop := (decodeDoc E p = .err .unexpectedEOF ∨ decodeDoc E p = .panic) ∧
  ∀ q e, NotALine q e → decodeDoc E (p ++ q) = .err e

/-- C65.  After any complete lines either the result is settled, whatever it is, or `Decode` reads on and reports the very next line if it is malformed. -/
theorem C65_settled_or_undecided (E : Env) (ls : List Line) (hl : ∀ l ∈ ls, LineOk l) :
    (∃ x, Settles E (ls.flatMap printLine) x) ∨ Undecided E (ls.flatMap printLine) := by
  have h0 : ∀ q, decodeDoc E (ls.flatMap printLine ++ q) = decodeStream E ⟨ls ++ (tokenise q).lines, (tokenise q).term⟩ := by
    intro q
    unfold decodeDoc
    rw [tokenise_prints _ hl q]
  have h1 : decodeDoc E (ls.flatMap printLine) = decodeStream E ⟨ls, .done⟩ := by
    have := h0 []
    rw [tokenise_nil, List.append_nil, List.append_nil] at this
    exact this
  rcases decodeStream_early E ls with h | h
  · left
    exact ⟨_, rfl, fun q => by rw [h0, h, h1]⟩
  · right
    refine ⟨by rw [h1]; exact h.2, fun q e hq => ?_⟩
    rw [h0, hq, List.append_nil]
    exact h.1 e

/-- No text both settles the result and leaves it undecided, so the alternative of `C65_settled_or_undecided` is a proper one. -/
theorem C65_not_both (E : Env) (p : Str) (x : Res Cal) (h1 : Settles E p x) (h2 : Undecided E p) : False := by
  have a := h2.2 c!"?" .invalidContentLine (by unfold NotALine; decide +kernel)
  have b := h2.2 c!"A?" .invalidContentLineName (by unfold NotALine; decide +kernel)
  rw [h1.2] at a b
  rw [a] at b
  cases b

/-- C65, for the user: an answer other than "the document ends too early", and other than a panic, stands whatever follows; so the errors reported
are errors of the lines read so far, and there is no need to have the rest of the document. -/
theorem C65_answer_stands (E : Env) (ls : List Line) (hl : ∀ l ∈ ls, LineOk l) (h1 : decodeDoc E (ls.flatMap printLine) ≠ .err .unexpectedEOF)
    (h2 : decodeDoc E (ls.flatMap printLine) ≠ .panic) (q : Str) : decodeDoc E (ls.flatMap printLine ++ q) = decodeDoc E (ls.flatMap printLine) := by
  rcases C65_settled_or_undecided E ls hl with ⟨x, h3, h4⟩ | ⟨h3, _⟩
  · rw [h3, h4]
  · rcases h3 with h3 | h3
    · exact absurd h3 h1
    · exact absurd h3 h2

/-! Cases of each kind: a wrong line in the middle of an event settles the result, and so does the END:VCALENDAR of the sample; the sample without its
last line is undecided; and in an alarm `Decode` panics if the document ends but not if something follows. -/

def earlyText : Str := c!"BEGIN:VCALENDAR\r\nBEGIN:VEVENT\r\nDTSTAMP:nonsense\r\n"

example : decodeDoc sampleEnv earlyText = decodeDoc sampleEnv (earlyText ++ c!"UID:1\r\nrubbish") ∧ decodeDoc sampleEnv earlyText ≠ .err .unexpectedEOF ∧
    decodeDoc sampleEnv earlyText ≠ .panic := by
  decide +kernel

example : Undecided sampleEnv c!"BEGIN:VCALENDAR\r\nBEGIN:VEVENT\r\n" := by
  have e : (tokenise c!"BEGIN:VCALENDAR\r\nBEGIN:VEVENT\r\n").lines = [⟨c!"BEGIN", [], c!"VCALENDAR"⟩, ⟨c!"BEGIN", [], c!"VEVENT"⟩] ++ [] := by decide +kernel
  rcases C65_settled_or_undecided sampleEnv _ (tokenise_front e).1 with ⟨x, h1, h2⟩ | h
  · have h3 := h2 c!"?"
    rw [← h1] at h3
    exact absurd h3 (by decide +kernel)
  · exact h

example : decodeDoc sampleEnv c!"BEGIN:VCALENDAR\r\nBEGIN:VEVENT\r\nBEGIN:VALARM\r\n" = .panic ∧
    decodeDoc sampleEnv c!"BEGIN:VCALENDAR\r\nBEGIN:VEVENT\r\nBEGIN:VALARM\r\n?" = .err .invalidContentLine := by
  decide +kernel

end Ics.Props
