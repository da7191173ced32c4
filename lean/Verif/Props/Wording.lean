import Verif.WordingLemmas
import Verif.Props.Message
import Verif.Props.Refusal
/-!
# Theorems about what the errors of properties say: C91, C92
-/

namespace Ics.Props

open Spec

/-! ## C91 The text of the error of a property names the parameter, or the type, and gives the reason -/

/-- C91.  There is a text exactly if there is an error. -/
theorem C91_text_iff_error (X : Call → Str) (E : Env) (me : Str) (sp : PSpec) (ps : List (Str × List PVal)) (value : Str) :
    (∃ m, propSays X E me sp ps value = some m) ↔ ∃ e, sp.decode E ps value = .err e := by
  have h := prop_tells X E me sp ps value
  cases hd : sp.decode E ps value with
  | ok v => rw [hd] at h; rw [show propSays X E me sp ps value = none from h]; simp
  | panic => rw [hd] at h; rw [show propSays X E me sp ps value = none from h]; simp
  | err e =>
    rw [hd] at h
    obtain ⟨m, c, h1, _⟩ := h
    exact ⟨fun _ => ⟨e, rfl⟩, fun _ => ⟨m, h1⟩⟩

/-- C91.  Exactly the text. -/
theorem C91_text_iff (X : Call → Str) (E : Env) (me : Str) {sp : PSpec} (hw : sp.wf = true) (ps : List (Str × List PVal)) (value m : Str) :
    propSays X E me sp ps value = some m ↔ PropSays X E me sp.shape ps value m := propSays_iff hw

/-- C91.  So what is said of a wrong property is one text. -/
theorem C91_one_text (X : Call → Str) (E : Env) (me : Str) {sp : PSpec} (hw : sp.wf = true) (ps : List (Str × List PVal)) (value : Str) :
    (∃ e, sp.decode E ps value = .err e) ↔ ∃ m, PropSays X E me sp.shape ps value m ∧ ∀ m', PropSays X E me sp.shape ps value m' → m' = m := by
  rw [← C91_text_iff_error X E me]
  simp only [← propSays_iff (X := X) (E := E) (me := me) hw]
  constructor
  · rintro ⟨m, h⟩
    exact ⟨m, h, fun m' h' => by rw [h] at h'; exact (Option.some.inj h').symm⟩
  · rintro ⟨m, h, _⟩
    exact ⟨m, h⟩

/-- C91.  The text ends with the reason: the text of the error that is found by unwrapping, or what a call of the standard library says. -/
theorem C91_ends_with_reason (X : Call → Str) (E : Env) (me : Str) (sp : PSpec) (ps : List (Str × List PVal)) (value m : Str) (e : Err)
    (h : propSays X E me sp ps value = some m) (hd : sp.decode E ps value = .err e) :
    (e ≠ .ext → e.sentinel <:+ m) ∧ (e = .ext → ∃ c, X c <:+ m) := by
  have ht := prop_tells X E me sp ps value
  rw [hd] at ht
  obtain ⟨m', c, h1, h2⟩ := ht
  rw [h] at h1
  obtain rfl := Option.some.inj h1
  constructor
  · intro hne
    cases e <;> first | exact absurd rfl hne | exact h2
  · rintro rfl
    exact ⟨c, h2⟩

/-- C91.  It begins with the name of the property. -/
theorem C91_begins_with_name (X : Call → Str) (E : Env) (me : Str) {sp : PSpec} (hw : sp.wf = true) (ps : List (Str × List PVal)) (value m : Str)
    (h : propSays X E me sp ps value = some m) : c!"error decoding " ++ me <+: m := by
  have h := (propSays_iff hw).1 h
  unfold PropSays at h
  split at h
  · rw [h.2]
    exact ⟨_, rfl⟩
  · next params vals _ =>
    rcases h with ⟨a, p, b, _, _, h⟩ | ⟨_, i, n, k, x, _, _, _, rfl⟩
    · rcases h with ⟨d, _, _, ⟨_, rfl⟩ | ⟨_, x, _, rfl⟩⟩ | ⟨_, _, ⟨_, rfl⟩ | ⟨v, _, ⟨_, rfl⟩ | ⟨_, _, rfl⟩⟩⟩
      · exact ⟨c!"->" ++ (goParam d.name ++ c!": duplicate param"), by simp⟩
      · exact ⟨c!"->" ++ (goParam d.name ++ (c!": error decoding " ++ (goParam d.name ++ (c!": " ++ x)))), by simp⟩
      · exact ⟨_, rfl⟩
      · exact ⟨_, rfl⟩
      · exact ⟨_, rfl⟩
    · exact ⟨(if params = [] ∧ vals.length = 1 then [] else c!"->" ++ k.goName) ++ (c!": " ++ x), by simp⟩

/-- C91.  The name is the one by which the block the property is in calls it: the text of the error of `Decode` (C89) names it twice. -/
theorem C91_same_name :
    (∀ f ∈ tabCalendar.fields, goField (goSect tabCalendar.name) f.key = goProp f) ∧
    (∀ x ∈ tabCalendar.subs, ∀ f ∈ x.2.fields, goField (goSect x.2.name) f.key = goProp f) ∧
    (∀ T ∈ [tabStandard, tabDaylight], ∀ f ∈ T.fields, goField (goSect T.name) f.key = goProp f) ∧
    (∀ a : AKind, ∀ f ∈ a.tab.fields, goField a.goName f.key = goProp f) := by
  refine ⟨by decide, by decide, by decide, fun a => ?_⟩
  cases a <;> decide

/-- C91.  Every parameter has a name of its own, and so has every type that is named. -/
theorem C91_names : (goParams.map (·.1)).Nodup ∧ (goParams.map (·.2)).Nodup ∧
    (∀ f ∈ Spec.allFields, ∀ params vals, f.spec.shape = .fields params vals →
      (∀ d ∈ params, goParam d.name ≠ []) ∧ (params = [] ∧ vals.length = 1 ∨ (vals.map fun x => x.2.goName).Nodup ∧ ∀ x ∈ vals, x.2.goName ≠ [])) := by
  refine ⟨by decide, by decide, ?_⟩
  have h : (Spec.allFields.all fun f => match f.spec.shape with
      | .fields params vals => params.all (fun d => decide (goParam d.name ≠ [])) && (decide (params = [] ∧ vals.length = 1) || decide ((vals.map fun x => x.2.goName).Nodup) && vals.all fun x => decide (x.2.goName ≠ []))
      | .enum _ => true) = true := by decide +kernel
  intro f hf params vals hs
  have := List.all_eq_true.1 h f hf
  rw [hs] at this
  simpa using this

/-- C91.  The reasons have different texts, and so have the types that are named at all. -/
theorem C91_reasons : (([.invalidEncoding, .invalidPeriod, .invalidDuration, .invalidText, .invalidBoolean, .invalidOffset, .invalidRecur, .invalidTime, .invalidFloat, .invalidTFloat,
      .invalidPeriodStart, .invalidPeriodDuration, .invalidPeriodEnd, .invalidRecurFrequency, .invalidRecurBySecond, .invalidRecurByMinute, .invalidRecurByHour, .invalidRecurByDay,
      .invalidRecurByMonthDay, .invalidRecurByYearDay, .invalidRecurByWeekNum, .invalidRecurByMonth, .invalidRecurBySetPos, .invalidRecurWeekStart, .invalidParam, .invalidValue,
      .duplicateParam] : List Err).map Err.sentinel).Nodup ∧
    (([.binary, .calAddress, .date, .dateTime, .duration, .mtext, .period, .text, .uri] : List Kind).map Kind.goName).Nodup := by
  decide +kernel

/-- C91.  The texts C89 left open: for every property of every block, the one text there is. -/
theorem C91_words (X : Call → Str) (ext : Err → Str) (E : Env) {f : SField} (hf : f ∈ Spec.allFields) {l : Line} {e : Err} (hd : f.spec.decode E l.params l.value = .err e) (m : Str) :
    (libWords X ext E).prop f l = m ↔ PropSays X E (goProp f) f.spec.shape l.params l.value m := by
  have hw : ∀ f ∈ Spec.allFields, f.spec.wf = true := by decide +kernel
  rw [← propSays_iff (hw f hf)]
  obtain ⟨m', h⟩ := (C91_text_iff_error X E (goProp f) f.spec l.params l.value).2 ⟨e, hd⟩
  show (propSays X E (goProp f) f.spec l.params l.value).getD [] = m ↔ _
  rw [h, Option.getD_some, Option.some.injEq]

/-- C91.  The whole text of the error of `Decode` for a wrong property of a component: the calendar, the component, the property and what is wrong with it. -/
theorem C91_component_property (X : Call → Str) (ext : Err → Str) (E : Env) {s : Str} {pre r : List Line} {l : Line} {p q : Level} {i : Str} {T : Tab SubKind} {f : SField} {m : Str}
    (hs : (tokenise s).lines = pre ++ l :: r) (h : Midway E pre [p, q]) (hp : p.frame = .comp T) (hT : (i, T) ∈ tabCalendar.subs) (hf : f ∈ T.fields) (hk : f.key = upper l.name)
    (ho : f.mult = .many ∨ ¬ HasLine p.own f.key) (hm : PropSays X E (goProp f) f.spec.shape l.params l.value m) :
    docSays (libWords X ext E) E s = some (c!"error decoding Calendar->" ++ goSect T.name ++ c!": error decoding " ++ goSect T.name ++ c!"->" ++ goProp f ++ c!": " ++ m) := by
  have hw : ∀ f ∈ Spec.allFields, f.spec.wf = true := by decide +kernel
  have hall : f ∈ Spec.allFields := by
    unfold Spec.allFields
    exact List.mem_append_right _ (List.mem_flatMap.2 ⟨(i, T), hT, List.mem_append_left _ hf⟩)
  obtain ⟨e, hd⟩ := (C91_text_iff_error X E (goProp f) f.spec l.params l.value).1 ⟨m, (propSays_iff (hw f hall)).2 hm⟩
  rw [C89_component_property (libWords X ext E) E hs h hp hf hk ho hd, (C91_words X ext E hall hd m).2 hm, C91_same_name.2.1 (i, T) hT f hf]

/-! ### Instances -/

/-- Texts for the standard library. -/
def sampleLib : Call → Str := fun _ => c!"…"

/-- A property that is just a value, one with parameters, a parameter, a parameter that occurs twice, VALUE, and values of several parts. -/
example :
    docSays (libWords sampleLib (fun _ => []) sampleEnv) sampleEnv c!"BEGIN:VCALENDAR\r\nBEGIN:VEVENT\r\nSEQUENCE:x\r\n" =
      some c!"error decoding Calendar->Event: error decoding Event->Sequence: error decoding Sequence: …" ∧
    docSays (libWords sampleLib (fun _ => []) sampleEnv) sampleEnv c!"BEGIN:VCALENDAR\r\nBEGIN:VEVENT\r\nSUMMARY:a;b\r\n" =
      some c!"error decoding Calendar->Event: error decoding Event->Summary: error decoding Summary->Text: invalid encoded text" ∧
    docSays (libWords sampleLib (fun _ => []) sampleEnv) sampleEnv c!"BEGIN:VCALENDAR\r\nBEGIN:VEVENT\r\nATTENDEE;RSVP=maybe:a\r\n" =
      some c!"error decoding Calendar->Event: error decoding Event->Attendee: error decoding Attendee->RSVP: error decoding RSVP: invalid Boolean" ∧
    docSays (libWords sampleLib (fun _ => []) sampleEnv) sampleEnv c!"BEGIN:VCALENDAR\r\nBEGIN:VEVENT\r\nSUMMARY;LANGUAGE=en;language=de:x\r\n" =
      some c!"error decoding Calendar->Event: error decoding Event->Summary: error decoding Summary->Language: duplicate param" ∧
    docSays (libWords sampleLib (fun _ => []) sampleEnv) sampleEnv c!"BEGIN:VCALENDAR\r\nBEGIN:VEVENT\r\nDTSTART;VALUE=TIME:x\r\n" =
      some c!"error decoding Calendar->Event: error decoding Event->DateTimeStart: error decoding DateTimeStart: invalid value" ∧
    docSays (libWords sampleLib (fun _ => []) sampleEnv) sampleEnv c!"BEGIN:VCALENDAR\r\nBEGIN:VEVENT\r\nDTSTART:20200101\r\n" =
      some c!"error decoding Calendar->Event: error decoding Event->DateTimeStart: error decoding DateTimeStart->DateTime: error parsing local time for DateTime: …" ∧
    docSays (libWords sampleLib (fun _ => []) sampleEnv) sampleEnv c!"BEGIN:VCALENDAR\r\nBEGIN:VFREEBUSY\r\nFREEBUSY:20200101T000000Z/PT1X\r\n" =
      some c!"error decoding Calendar->FreeBusy: error decoding FreeBusy->FreeBusy: error decoding FreeBusy->Period: error while decoding Period: invalid Duration" ∧
    docSays (libWords sampleLib (fun _ => []) sampleEnv) sampleEnv c!"BEGIN:VCALENDAR\r\nBEGIN:VEVENT\r\nDURATION:P1DT2X\r\n" =
      some c!"error decoding Calendar->Event: error decoding Event->Duration: error decoding Duration: invalid Duration" := by
  decide +kernel

/-- The reason of the standard library is given with what it was asked: the number behind "P1DT". -/
example : propSays (fun | .uint s => c!"no number: " ++ s | _ => []) sampleEnv c!"Duration" propDuration [] c!"P1DT2H99999999999999999999M" =
    some c!"error decoding Duration: error decoding duration: no number: 99999999999999999999" := by decide +kernel

/-- The same from the specification: the text is the only one. -/
example : ∃ m, PropSays sampleLib sampleEnv c!"Duration" propDuration.shape [] c!"P1DT2X" m ∧ ∀ m', PropSays sampleLib sampleEnv c!"Duration" propDuration.shape [] c!"P1DT2X" m' → m' = m :=
  (C91_one_text sampleLib sampleEnv c!"Duration" (sp := propDuration) (by decide +kernel) [] c!"P1DT2X").1 ⟨.invalidDuration, by decide +kernel⟩

example : docSays (libWords sampleLib (fun _ => []) sampleEnv) sampleEnv (textOf (seqPre ++ [seqBad])) =
    some c!"error decoding Calendar->Event: error decoding Event->Sequence: error decoding Sequence: …" :=
  C91_component_property sampleLib (fun _ => []) sampleEnv (s := textOf (seqPre ++ [seqBad])) (r := []) (l := seqBad) (i := c!"VEVENT") (T := tabEvent)
    (f := ⟨c!"SEQUENCE", propSequence, .opt⟩) (m := c!"error decoding Sequence: …") (by decide +kernel) seqPre_reading rfl (by simp [tabCalendar]) (by simp [tabEvent]) (by decide)
    (Or.inr (by simp [HasLine, linesNamed]; decide)) ((propSays_iff (by decide +kernel)).1 (by decide +kernel))

/-! ## C92 The text of the error of Encode gives the reason for which the property is refused -/

/-- C92.  There is a text exactly if the property is refused. -/
theorem C92_text_iff_error (me : Str) (sp : PSpec) (p : PropVal) (ht : sp.typed p = true) : (∃ m, propSaysInvalid me sp p = some m) ↔ ∃ e, sp.valid p = .err e :=
  propSaysInvalid_valid me sp p ht

/-- C92.  Exactly the text. -/
theorem C92_text_iff (me : Str) (sp : PSpec) (p : PropVal) (ht : sp.typed p = true) (m : Str) : propSaysInvalid me sp p = some m ↔ PropSaysInvalid me sp p m := propSaysInvalid_iff ht

/-- C92.  The whole text of the error of `Encode` for a calendar that it refuses: the way to the first place that is not fine, and what is wrong there. -/
theorem C92_calendar (c : Cal) (ht : c.typed = true) (m : Str) : calSaysInvalid libInvalid c = some m ↔
    ∃ pre x post, calPlaces c = pre ++ x :: post ∧ (∀ y ∈ pre, EntryFine y.entry) ∧
      ((x.entry = .noAlarm ∧ m = x.way ++ c!"invalid alarm type") ∨
       ∃ f p y, x.entry = .prop f p ∧ PropSaysInvalid (goProp f) f.spec p y ∧ m = x.way ++ (c!"error validating " ++ x.block ++ c!"->" ++ goField x.block f.key ++ c!": " ++ y)) := by
  rw [C90_text_iff libInvalid c ht m]
  have hfine : ∀ x ∈ calPlaces c, ∀ f p, x.entry = .prop f p → f.spec.typed p = true := by
    intro x hx f p he
    have hm : x.entry ∈ calEntries c := by rw [← calPlaces_entries]; exact List.mem_map.2 ⟨x, hx, rfl⟩
    rw [he] at hm
    exact Cal.typed_props ht _ (calEntries_prop hm)
  have hno : ∀ {f : SField} {p : PropVal}, f.spec.typed p = true → (¬ PropFine f.spec p ↔ ∃ y, propSaysInvalid (goProp f) f.spec p = some y) := by
    intro f p h
    rw [propSaysInvalid_valid _ _ _ h, ← prop_fine_iff h]
    cases hv : f.spec.valid p with
    | ok u => simp
    | err e => simp
    | panic => exact absurd hv (PSpec.valid_ne_panic f.spec p)
  constructor
  · rintro ⟨pre, x, post, h1, h2, h3, rfl⟩
    refine ⟨pre, x, post, h1, h2, ?_⟩
    cases he : x.entry with
    | noAlarm => exact .inl ⟨rfl, by simp [Place.text, he]⟩
    | prop f p =>
      have htf := hfine x (by rw [h1]; simp) f p he
      rw [he] at h3
      obtain ⟨y, hy⟩ := (hno htf).1 h3
      exact .inr ⟨f, p, y, rfl, (propSaysInvalid_iff htf).1 hy, by simp [Place.text, he, libInvalid, hy]⟩
  · rintro ⟨pre, x, post, h1, h2, ⟨he, rfl⟩ | ⟨f, p, y, he, h3, rfl⟩⟩
    · exact ⟨pre, x, post, h1, h2, by rw [he]; exact id, by simp [Place.text, he]⟩
    · have htf := hfine x (by rw [h1]; simp) f p he
      have hy := (propSaysInvalid_iff htf).2 h3
      exact ⟨pre, x, post, h1, h2, by rw [he]; exact (hno htf).2 ⟨y, hy⟩, by simp [Place.text, he, libInvalid, hy]⟩

/-- C92.  In each block a property is called what it calls itself. -/
theorem C92_names : ∀ x ∈ tabCalendar.subs, ∀ f ∈ x.2.fields, goField (goSect x.2.name) f.key = goProp f := C91_same_name.2.1

/-- C92.  `Encode` may say "error decoding": of a property that is just a value, and of a parameter. -/
theorem C92_says_decoding : calSaysInvalid libInvalid (refusedCal c!"\u0001" ⟨0, 0, .utc⟩) = some c!"error validating Calendar->ProductID: error decoding ProductID: invalid encoded text" := by
  decide +kernel

/-! ### Instances -/

/-- A property with parameters names the type of the value, and says "validating"; one that is just a value does not. -/
example : calSaysInvalid libInvalid (refusedCal c!"x" ⟨0, 0, .utc⟩) =
      some c!"error validating Calendar->Event: error validating Event->DateTimeStamp: error decoding DateTimeStamp: invalid Time" ∧
    propSaysInvalid c!"Summary" propSummary (.fields [none, none] [some (.text c!"\u0001")]) = some c!"error validating Summary->Text: invalid encoded text" ∧
    propSaysInvalid c!"Summary" propSummary (.fields [none, some (.str c!"\u0001")] [some (.text c!"x")]) =
      some c!"error validating Summary->Language: error decoding Language: invalid encoded text" ∧
    propSaysInvalid c!"DateTimeStart" propDateTimeStart (.fields [] [none, none]) = some c!"error decoding DateTimeStart: invalid value" := by
  decide +kernel

example : propSummary.typed (.fields [none, none] [some (.text c!"\u0001")]) = true ∧
    PropSaysInvalid c!"Summary" propSummary (.fields [none, none] [some (.text c!"\u0001")]) c!"error validating Summary->Text: invalid encoded text" :=
  ⟨by decide +kernel, (propSaysInvalid_iff (by decide +kernel)).1 (by decide +kernel)⟩

end Ics.Props
