import Verif.WrongLemmas
import Verif.TextFaultLemmas
import Verif.Props.Errors
import Verif.Props.Rfc
/-!
# Theorems about which error a wrong text gets: C85
-/

namespace Ics.Props

open Spec Spec.Rfc

/-! ## C85 Which error a wrong text gets -/

/-- C85.  A text gets an error as a value of a type exactly if `ValWrong` says so. -/
theorem C85_value (E : Env) (look : Str → Option Str) (k : Kind) (s : Str) (e : Err) : Val.decode E look k s = .err e ↔ ValWrong E look k s e := Val.decode_err E look k s e

/-- C85.  Each text means one value of a type, or has one error, or is one of the rules at which the library panics. -/
theorem C85_value_all (E : Env) (look : Str → Option Str) (k : Kind) (s : Str) :
    (∃ v, ValMeans E look k s v) ∨ (∃ e, ValWrong E look k s e) ∨ (k = .recur ∧ CrashRule E 0 (look c!"TZID") s) := by
  cases h : Val.decode E look k s with
  | ok v => exact .inl ⟨v, (Val.decode_iff ..).1 h⟩
  | err e => exact .inr (.inl ⟨e, (Val.decode_err ..).1 h⟩)
  | panic =>
    obtain ⟨rfl, _⟩ := Val.decode_panic h
    rw [Val.decode, Res.map_eq_panic] at h
    exact .inr (.inr ⟨rfl, Recur.decode_panic_iff.1 h⟩)

/-- C85.  And no more than one of these. -/
theorem C85_value_one (E : Env) (look : Str → Option Str) (k : Kind) (s : Str) (e : Err) (h : ValWrong E look k s e) :
    (∀ v, ¬ ValMeans E look k s v) ∧ ∀ e', ValWrong E look k s e' → e' = e := by
  have h := (Val.decode_err ..).2 h
  refine ⟨fun v hv => ?_, fun e' he => ?_⟩
  · rw [(Val.decode_iff ..).2 hv] at h
    cases h
  · rw [(Val.decode_err ..).2 he] at h
    cases h
    rfl

/-- C85.  The same for the values of a parameter. -/
theorem C85_parameter (E : Env) (k : PKind) (vs : List PVal) (e : Err) : k.decode E vs = .err e ↔ ParamWrong E k vs e := PKind.decode_err E k vs e

/-- C85.  The same for a property, of each kind in each component: the first parameter that is at fault decides, or else the value. -/
theorem C85_property (p : Part) (n : Str) (o : Occ) (t : Content) (ho : libOccurs p n = some o) (ht : content p n = some t) :
    ∃ f ∈ partFields p, f.key = n ∧ ∀ E ps value e, f.spec.decode E ps value = .err e ↔ PropWrong E t.shape ps value e := by
  have h1 := table_is_spec p n
  unfold specFor at h1
  rw [ho, ht] at h1
  simp only [Option.map_some, Option.bind_some] at h1
  unfold fieldFor at h1
  obtain ⟨f, hf, he⟩ := Option.map_eq_some_iff.1 h1
  have hm := List.mem_of_find?_eq_some hf
  have hk : f.key = n := by simpa using List.find?_some hf
  simp only [Prod.mk.injEq] at he
  have hw : ∀ p ∈ allParts, ∀ f ∈ partFields p, f.spec.wf = true := by decide +kernel
  exact ⟨f, hm, hk, fun E ps value e => he.2 ▸ PSpec.decode_err (hw p (mem_allParts p) f hm) ps value e⟩

/-- C85.  The same for a text that is not a content line. -/
theorem C85_line (s : Str) (e : Err) : parseLine s = .error e ↔ TextFault s e := parseLine_err

/-- C85.  The lines of a text before an error, and the error. -/
theorem C85_lines (s : Str) (ls : List Line) (e : Err) : tokenise s = ⟨ls, .error e⟩ ↔ ∃ r, (∀ l ∈ ls, LineOk l) ∧ s = ls.flatMap printLine ++ r ∧ TextFault r e := tokenise_err

/-- C85.  `Decode` returns an error about a content line exactly if there are right lines that begin a calendar and do not finish it, and then a text with that error. -/
theorem C85_document_line (E : Env) (s : Str) (e : Err) (he : e ∈ lineErrors) :
    decodeDoc E s = .err e ↔ ∃ ls r, (∀ l ∈ ls, LineOk l) ∧ s = ls.flatMap printLine ++ r ∧ TextFault r e ∧ (ls = [] ∨ ∃ st, Midway E ls st) := by
  rw [C73_means]
  have nv : e ∉ valueErrors := by
    simp only [lineErrors, List.mem_cons, List.not_mem_nil, or_false] at he
    rcases he with rfl | rfl | rfl | rfl | rfl | rfl <;> decide
  have h1 : Means E (tokenise s) e ↔ ((tokenise s).term = .error e ∧ ((tokenise s).lines = [] ∨ ∃ st, Midway E (tokenise s).lines st)) := by
    have : ∀ {A B : Prop}, (e ∈ lineErrors ∧ A) ∨ (e ∈ valueErrors ∧ B) ↔ A := by
      intro A B
      exact ⟨fun h => h.elim (fun h => h.2) (fun h => absurd h.1 nv), fun h => .inl ⟨he, h⟩⟩
    simp only [lineErrors, List.mem_cons, List.not_mem_nil, or_false] at he
    rcases he with rfl | rfl | rfl | rfl | rfl | rfl <;> exact this
  rw [h1]
  constructor
  · rintro ⟨h2, h3⟩
    obtain ⟨r, g1, g2, g3⟩ := (tokenise_err (ls := (tokenise s).lines)).1 (by rw [← h2])
    exact ⟨_, r, g1, g2, g3, h3⟩
  · rintro ⟨ls, r, g1, g2, g3, g4⟩
    have := tokenise_err.2 ⟨r, g1, g2, g3⟩
    rw [this]
    exact ⟨rfl, g4⟩

/-- C85.  `Decode` returns an error about a property exactly if a line is looked at whose property has that error. -/
theorem C85_document_property (E : Env) (s : Str) (e : Err) (he : e ∈ valueErrors) :
    decodeDoc E s = .err e ↔ ∃ p l f, Looked E (tokenise s).lines p l ∧ f ∈ p.frame.fields ∧ f.key = upper l.name ∧ (f.mult = .many ∨ ¬ HasLine p.own f.key) ∧
      PropWrong E f.spec.shape l.params l.value e := by
  rw [C73_means]
  have nv : e ∉ lineErrors := by
    simp only [valueErrors, List.mem_cons, List.not_mem_nil, or_false] at he
    rcases he with rfl | rfl | rfl | rfl | rfl | rfl | rfl | rfl | rfl | rfl | rfl | rfl <;> decide
  have h1 : Means E (tokenise s) e ↔ ∃ p l f, Looked E (tokenise s).lines p l ∧ f ∈ p.frame.fields ∧ f.key = upper l.name ∧ (f.mult = .many ∨ ¬ HasLine p.own f.key) ∧
      f.spec.decode E l.params l.value = .err e := by
    have : ∀ {A B : Prop}, (e ∈ lineErrors ∧ A) ∨ (e ∈ valueErrors ∧ B) ↔ B := by
      intro A B
      exact ⟨fun h => h.elim (fun h => absurd h.1 nv) (fun h => h.2), fun h => .inr ⟨he, h⟩⟩
    simp only [valueErrors, List.mem_cons, List.not_mem_nil, or_false] at he
    rcases he with rfl | rfl | rfl | rfl | rfl | rfl | rfl | rfl | rfl | rfl | rfl | rfl <;> exact this
  rw [h1]
  constructor
  · rintro ⟨p, l, f, g1, g2, g3, g4, g5⟩
    exact ⟨p, l, f, g1, g2, g3, g4, (PSpec.decode_err ((looked_fields g1).2 f g2).spec _ _ _).1 g5⟩
  · rintro ⟨p, l, f, g1, g2, g3, g4, g5⟩
    exact ⟨p, l, f, g1, g2, g3, g4, (PSpec.decode_err ((looked_fields g1).2 f g2).spec _ _ _).2 g5⟩

/-! ### Instances -/

/-- A duration with a number that is too large, one with an unknown unit, and one without a number. -/
example : ValWrong sampleEnv (fun _ => none) .duration c!"PT18446744073709551616S" .ext ∧ ValWrong sampleEnv (fun _ => none) .duration c!"P1X" .invalidDuration ∧
    ValWrong sampleEnv (fun _ => none) .duration c!"P1DT" .ext := by
  simp only [← C85_value]; decide +kernel

/-- A period: without a slash, with a wrong start, with a wrong duration, with a wrong end. -/
example : ValWrong sampleEnv (fun _ => none) .period c!"20200101T000000Z" .invalidPeriod ∧ ValWrong sampleEnv (fun _ => none) .period c!"x/P1D" .ext ∧
    ValWrong sampleEnv (fun _ => none) .period c!"20200101T000000Z/P1X" .invalidDuration ∧ ValWrong sampleEnv (fun _ => none) .period c!"20200101T000000Z/x" .ext := by
  simp only [← C85_value]; decide +kernel

/-- Parameters: two values, one that has to have quotes, one that is no boolean. -/
example : ParamWrong sampleEnv (.str false) [⟨false, c!"a"⟩, ⟨false, c!"b"⟩] .invalidParam ∧ ParamWrong sampleEnv (.str true) [⟨false, c!"a"⟩] .invalidParam ∧
    ParamWrong sampleEnv .bool [⟨false, c!"x"⟩] .invalidBoolean := by
  simp only [← C85_parameter]; decide +kernel

/-- The first parameter at fault decides, not the value. -/
example : ∃ f ∈ partFields .event, f.key = c!"SUMMARY" ∧ f.spec.decode sampleEnv [(c!"language", [⟨false, c!"a"⟩]), (c!"LANGUAGE", []), (c!"ALTREP", [])] c!"a,b" = .err .duplicateParam := by
  decide +kernel

/-- Texts that are not content lines. -/
example : TextFault c!" A:" .invalidContentLine ∧ TextFault c!"A B:" .invalidContentLineName ∧ TextFault c!"A" .invalidContentLineName ∧
    TextFault c!"A;B=x;C:" .invalidContentLineParamName ∧ TextFault c!"A;B=x,\"y:" .invalidContentLineQuotedParamValue ∧
    TextFault c!"A;B=\"x\"y:" .invalidContentLineParamValue ∧ TextFault c!"A;B=x\"y\":" .invalidContentLineParamValue ∧ TextFault c!"A:x\ny" .invalidContentLineValue := by
  simp only [← C85_line]; decide +kernel

/-- In a document. -/
example : decodeDoc sampleEnv c!"BEGIN:VCALENDAR\r\nBEGIN:VEVENT\r\nDURATION:P99999999999999999999D\r\n" = .err .ext := by decide +kernel
example : decodeDoc sampleEnv c!"BEGIN:VCALENDAR\r\nVERSION:2.0\r\nX;A=b" = .err .invalidContentLineParamValue := by decide +kernel

end Ics.Props
