import Verif.ErrorLemmas
import Verif.Props.Fault
/-!
# Theorems about the errors of Decode: C73
-/

namespace Ics.Props

open Spec

/-! ## C73 Each error means what it says -/

/-- C73.  `Decode` returns an error exactly if what the error says (`Means`) is what is wrong with the document: for each error separately, and for all documents. -/
theorem C73_means (E : Env) (s : Str) (e : Err) : decodeDoc E s = .err e ↔ Means E (tokenise s) e := decodeStream_means fun _ => tokenise_error

/-- C73.  At most one of them is true of a document. -/
theorem C73_one (E : Env) (s : Str) (e e' : Err) (h : Means E (tokenise s) e) (h' : Means E (tokenise s) e') : e = e' := by
  rw [← C73_means] at h h'
  rw [h] at h'
  cases h'
  rfl

/-- C73.  `Decode` returns these errors and no others. -/
theorem C73_which (E : Env) (s : Str) (e : Err) (h : decodeDoc E s = .err e) :
    e ∈ [.unexpectedEOF, .invalidCalendar, .multiple, .missingRequired, .requirementNotMet, .invalidEnd, .invalidStructure, .missingAlarmAction] ++ lineErrors ++ valueErrors := by
  rw [C73_means] at h
  cases e
  case unexpectedEOF | invalidCalendar | multiple | missingRequired | requirementNotMet | invalidEnd | invalidStructure | missingAlarmAction => decide
  all_goals
    rcases h with ⟨h, _⟩ | ⟨h, _⟩
    · exact List.mem_append_left _ (List.mem_append_right _ h)
    · exact List.mem_append_right _ h

/-- C73.  The errors for the value of a property are those of the types it may have, and of its parameters. -/
theorem C73_property_errors (E : Env) (ls : List Line) (p : Level) (l : Line) (h : Looked E ls p l) (f : SField) (hf : f ∈ p.frame.fields) (e : Err)
    (hd : f.spec.decode E l.params l.value = .err e) : e ∈ shapeErrors f.spec := looked_value h hf hd

/-- C73.  The errors for a value alone, by its type. -/
theorem C73_value_errors (E : Env) (op : Str → Option Str) (k : Kind) (s : Str) (e : Err) (h : Val.decode E op k s = .err e) : e ∈ Kind.errors k := Val.decode_errs E op k s e h

/-! ### Each of the errors does occur -/

example : decodeDoc sampleEnv c!"" = .err .unexpectedEOF := by decide +kernel
example : decodeDoc sampleEnv c!"BEGIN:VCALENDAR\r\nVERSION:2.0\r\n" = .err .unexpectedEOF := by decide +kernel
example : decodeDoc sampleEnv c!"BEGIN:VEVENT\r\n" = .err .invalidCalendar := by decide +kernel
example : decodeDoc sampleEnv c!"BEGIN:VCALENDAR\r\nVERSION:2.0\r\nversion:2.0" = .err .multiple := by decide +kernel
example : decodeDoc sampleEnv c!"BEGIN:VCALENDAR\r\nVERSION:2.0\r\nend:VCALENDAR" = .err .missingRequired := by decide +kernel
example : decodeDoc sampleEnv c!"BEGIN:VCALENDAR\r\nVERSION:2.0\r\nPRODID:x\r\nBEGIN:VTIMEZONE\r\nTZID:x\r\nEND:VTIMEZONE\r\nEND:VCALENDAR" = .err .requirementNotMet := by decide +kernel
example : decodeDoc sampleEnv c!"BEGIN:VCALENDAR\r\nVERSION:2.0\r\nPRODID:x\r\nEND:vcalendar" = .err .invalidEnd := by decide +kernel
example : decodeDoc sampleEnv c!"BEGIN:VCALENDAR\r\nBEGIN:VEVENT\r\nBEGIN:VALARM\r\nBEGIN:X\r\n" = .err .invalidStructure := by decide +kernel
example : decodeDoc sampleEnv c!"BEGIN:VCALENDAR\r\nBEGIN:VEVENT\r\nBEGIN:VALARM\r\nAction:AUDIO\r\nTRIGGER:PT1S\r\nEND:VALARM" = .err .missingAlarmAction := by decide +kernel
example : decodeDoc sampleEnv c!"BEGIN:VCALENDAR\r\n:" = .err .invalidContentLine := by decide +kernel
example : decodeDoc sampleEnv c!"BEGIN:VCALENDAR\r\nA B:" = .err .invalidContentLineName := by decide +kernel
example : decodeDoc sampleEnv c!"BEGIN:VCALENDAR\r\nA;B:" = .err .invalidContentLineParamName := by decide +kernel
example : decodeDoc sampleEnv c!"BEGIN:VCALENDAR\r\nA;B=\"x:" = .err .invalidContentLineQuotedParamValue := by decide +kernel
example : decodeDoc sampleEnv c!"BEGIN:VCALENDAR\r\nA;B=x\r\n:" = .err .invalidContentLineParamValue := by decide +kernel
example : decodeDoc sampleEnv c!"BEGIN:VCALENDAR\r\nA:x\n" = .err .invalidContentLineValue := by decide +kernel
example : decodeDoc sampleEnv c!"BEGIN:VCALENDAR\r\nBEGIN:VEVENT\r\nSUMMARY:a,b" = .err .invalidText := by decide +kernel
example : decodeDoc sampleEnv c!"BEGIN:VCALENDAR\r\nBEGIN:VEVENT\r\nDURATION:x" = .err .invalidDuration := by decide +kernel
example : decodeDoc sampleEnv c!"BEGIN:VCALENDAR\r\nBEGIN:VEVENT\r\nRRULE:FREQ=X" = .err .invalidRecur := by decide +kernel
example : decodeDoc sampleEnv c!"BEGIN:VCALENDAR\r\nBEGIN:VEVENT\r\nGEO:1" = .err .invalidTFloat := by decide +kernel
example : decodeDoc sampleEnv c!"BEGIN:VCALENDAR\r\nBEGIN:VEVENT\r\nSTATUS:X" = .err .invalidValue := by decide +kernel
example : decodeDoc sampleEnv c!"BEGIN:VCALENDAR\r\nBEGIN:VEVENT\r\nDTSTART;VALUE=TEXT:X" = .err .invalidValue := by decide +kernel
example : decodeDoc sampleEnv c!"BEGIN:VCALENDAR\r\nBEGIN:VEVENT\r\nSUMMARY;LANGUAGE=a;LANGUAGE=a:X" = .err .duplicateParam := by decide +kernel
example : decodeDoc sampleEnv c!"BEGIN:VCALENDAR\r\nBEGIN:VEVENT\r\nSUMMARY;LANGUAGE=a,b:X" = .err .invalidParam := by decide +kernel
example : decodeDoc sampleEnv c!"BEGIN:VCALENDAR\r\nBEGIN:VEVENT\r\nATTENDEE;RSVP=x:mailto:a" = .err .invalidBoolean := by decide +kernel
example : decodeDoc sampleEnv c!"BEGIN:VCALENDAR\r\nBEGIN:VEVENT\r\nATTACH;VALUE=BINARY:x" = .err .invalidEncoding := by decide +kernel
example : decodeDoc sampleEnv c!"BEGIN:VCALENDAR\r\nBEGIN:VEVENT\r\nSEQUENCE:x" = .err .ext := by decide +kernel
example : decodeDoc sampleEnv c!"BEGIN:VCALENDAR\r\nBEGIN:VFREEBUSY\r\nFREEBUSY:x" = .err .invalidPeriod := by decide +kernel
example : decodeDoc sampleEnv c!"BEGIN:VCALENDAR\r\nBEGIN:VTIMEZONE\r\nBEGIN:STANDARD\r\nTZOFFSETTO:x" = .err .invalidOffset := by decide +kernel

/-- What `.missingRequired` says of a document in which it is returned. -/
example : let s := c!"BEGIN:VCALENDAR\r\nVERSION:2.0\r\nend:VCALENDAR"
    ∃ p l f, Looked sampleEnv (tokenise s).lines p l ∧ Ends l ∧ l.value = p.name ∧ f ∈ p.frame.fields ∧ f.mult = .req ∧ ¬ HasLine p.own f.key := by
  intro s
  exact (C73_means sampleEnv s .missingRequired).1 (by decide +kernel)

end Ics.Props
