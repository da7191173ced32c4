import Verif.MessageLemmas
import Verif.Props.Fault
/-!
# Theorems about what the errors of Decode say: C89
-/

namespace Ics.Props

open Spec

/-! ## C89 The text of the error names the block and the property -/

/-- C89.  There is a text exactly if there is an error. -/
theorem C89_text_iff_error (W : Words) (E : Env) (s : Str) : (∃ m, docSays W E s = some m) ↔ ∃ e, decodeDoc E s = .err e := by
  have h : Agree (docSays W E s) (decodeDoc E s) := stream_agree W E (tokenise s)
  cases hr : decodeDoc E s with
  | ok c => rw [hr] at h; rw [show docSays W E s = none from h]; simp
  | err e => rw [hr] at h; exact ⟨fun _ => ⟨e, rfl⟩, fun _ => h⟩
  | panic => rw [hr] at h; rw [show docSays W E s = none from h]; simp

/-- C89.  Exactly the text of the error, for every document.  If a line is at fault: the way to the innermost known block, from the calendar, and then what is wrong there.
If the document ends too early: the way there, and the name of the innermost known block, unless it is an alarm.  If there is no calendar at all: just that. -/
theorem C89_text_iff (W : Words) (E : Env) (s m : Str) : docSays W E s = some m ↔
    ((tokenise s).lines = [] ∧ m = (tokenise s).term.err.text W) ∨
    (∃ l r, (tokenise s).lines = l :: r ∧ ¬ Opening l ∧ m = c!"invalid calendar") ∨
    (∃ p st, Midway E (tokenise s).lines (p :: st) ∧ (p.frame = .alarm → (tokenise s).term ≠ .done) ∧ m = trail (p :: st) ++ endSays W p st (tokenise s).term.err) ∨
    (∃ pre l r p st x, (tokenise s).lines = pre ++ l :: r ∧ Midway E pre (p :: st) ∧ Says W E p st l x ∧ m = trail (p :: st) ++ x) := streamSays_iff

/-- C89.  Every line at fault has such a text, and only one. -/
theorem C89_one_text (W : Words) (E : Env) {pre : List Line} {l : Line} {p : Level} {st : List Level} (h : Midway E pre (p :: st)) {e : Err} (hf : Fault E p l (some e)) :
    ∃ x, Says W E p st l x ∧ ∀ y, Says W E p st l y → y = x := by
  obtain ⟨x, hx⟩ := hf.says W st
  refine ⟨x, hx, fun y hy => ?_⟩
  have a := streamSays_fault (r := []) h hx .done
  have b := streamSays_fault (r := []) h hy .done
  rw [a] at b
  simp only [Option.some.injEq] at b
  exact (List.append_cancel_left b).symm

/-- C89.  A wrong property of a component: the calendar, the component and the property are named, and then comes the error of the property. -/
theorem C89_component_property (W : Words) (E : Env) {s : Str} {pre r : List Line} {l : Line} {p q : Level} {T : Tab SubKind} {f : SField} {e : Err}
    (hs : (tokenise s).lines = pre ++ l :: r) (h : Midway E pre [p, q]) (hp : p.frame = .comp T) (hf : f ∈ T.fields) (hk : f.key = upper l.name)
    (ho : f.mult = .many ∨ ¬ HasLine p.own f.key) (hd : f.spec.decode E l.params l.value = .err e) :
    docSays W E s = some (c!"error decoding Calendar->" ++ goSect T.name ++ c!": error decoding " ++ goSect T.name ++ c!"->" ++ goField (goSect T.name) f.key ++ c!": " ++ W.prop f l) := by
  have hq : q.frame = .cal := by
    have := chain_reading h
    unfold Chain at this
    exact chain_one this.1
  have hsays : Says W E p [q] l _ := .sect (by rw [hp]; simp) (.value (by rw [hp]; exact hf) hk ho hd)
  have hh : home [p, q] = .comp T := by unfold home; rw [hp]
  rw [C89_text_iff]
  refine Or.inr (Or.inr (Or.inr ⟨pre, l, r, p, [q], _, hs, h, hsays, ?_⟩))
  have ht : trail [p, q] = c!"error decoding Calendar->" ++ goSect T.name ++ c!": " := by
    simp only [trail, hp, hq, Frame.title]
    simp
  rw [ht, hh]
  simp [Frame.title]

/-- C89.  The names tell the blocks apart. -/
theorem C89_sections : (goSect tabCalendar.name :: (tabCalendar.subs.map fun x => goSect x.2.name) ++ [goSect tabStandard.name, goSect tabDaylight.name, c!"Alarm"] ++
    [AKind.audio, .display, .email, .uri, .none].map AKind.goName).Nodup := by decide

/-- C89.  The names tell the properties of a block apart: in the calendar, in the components, in the rules of time zones and in alarms. -/
theorem C89_fields :
    ((tabCalendar.fields.map fun f => goField (goSect tabCalendar.name) f.key).Nodup ∧ [] ∉ tabCalendar.fields.map fun f => goField (goSect tabCalendar.name) f.key) ∧
    (∀ x ∈ tabCalendar.subs, (x.2.fields.map fun f => goField (goSect x.2.name) f.key).Nodup ∧ [] ∉ x.2.fields.map fun f => goField (goSect x.2.name) f.key) ∧
    (∀ T ∈ [tabStandard, tabDaylight], (T.fields.map fun f => goField (goSect T.name) f.key).Nodup ∧ [] ∉ T.fields.map fun f => goField (goSect T.name) f.key) ∧
    (∀ a : AKind, (a.tab.fields.map fun f => goField a.goName f.key).Nodup ∧ [] ∉ a.tab.fields.map fun f => goField a.goName f.key) := by
  refine ⟨by decide, by decide, by decide, fun a => ?_⟩
  cases a <;> decide

/-- C89.  The reasons have different texts. -/
theorem C89_reasons (W : Words) : (([.unexpectedEOF, .invalidCalendar, .invalidContentLine, .invalidContentLineName, .invalidContentLineParamName, .invalidContentLineQuotedParamValue,
    .invalidContentLineParamValue, .invalidContentLineValue, .invalidEnd, .missingRequired, .requirementNotMet, .invalidStructure, .missingAlarmAction] : List Err).map (Err.text W)).Nodup := by
  simp only [List.map, Err.text]
  decide +kernel

/-! ### Examples -/

/-- Texts for what is left open. -/
def sampleWords : Words := ⟨fun _ _ => c!"…", fun _ => c!"…"⟩

example : docSays sampleWords sampleEnv c!"BEGIN:VCALENDAR\r\nBEGIN:VEVENT\r\nUID:1\r\nuid:2\r\n" = some c!"error decoding Calendar->Event: error decoding Event: multiple UID" := by decide +kernel

example : docSays sampleWords sampleEnv c!"BEGIN:VCALENDAR\r\nBEGIN:VEVENT\r\nSEQUENCE:x\r\n" = some c!"error decoding Calendar->Event: error decoding Event->Sequence: …" := by decide +kernel

/-- In an unknown component in rules of a time zone: only the known ones are named. -/
example : docSays sampleWords sampleEnv c!"BEGIN:VCALENDAR\r\nBEGIN:VTIMEZONE\r\nBEGIN:STANDARD\r\nBEGIN:X\r\nEND:Y\r\n" =
    some c!"error decoding Calendar->Timezone: error decoding Timezone->Standard: error decoding Standard: invalid end of section" := by decide +kernel

/-- In an alarm: the error of a line of it names its type, the others do not name it. -/
example : docSays sampleWords sampleEnv c!"BEGIN:VCALENDAR\r\nBEGIN:VEVENT\r\nBEGIN:VALARM\r\nACTION:AUDIO\r\nEND:VALARM\r\n" =
    some c!"error decoding Calendar->Event: error decoding Event->Alarm: error decoding AlarmAudio: required property missing" := by decide +kernel

example : docSays sampleWords sampleEnv c!"BEGIN:VCALENDAR\r\nBEGIN:VEVENT\r\nBEGIN:VALARM\r\nEND:VALARM\r\n" =
    some c!"error decoding Calendar->Event: error decoding Event->Alarm: missing alarm action" := by decide +kernel

example : docSays sampleWords sampleEnv c!"BEGIN:VCALENDAR\r\nVERSION:2.0\r\n" = some c!"error decoding Calendar: unexpected EOF" := by decide +kernel

example : docSays sampleWords sampleEnv c!"BEGIN:VEVENT\r\n" = some c!"invalid calendar" := by decide +kernel

/-- Two components with the same fault get the same text: it does not say which of them, or which line. -/
theorem C89_which_event : let a := c!"BEGIN:VCALENDAR\r\nBEGIN:VTIMEZONE\r\nBEGIN:STANDARD\r\nRDATE:x\r\n"
    let b := c!"BEGIN:VCALENDAR\r\nBEGIN:VEVENT\r\nUID:1\r\nDTSTAMP:20200101T000000Z\r\nDTSTART:20200101T000000Z\r\nEND:VEVENT\r\nBEGIN:VTIMEZONE\r\nBEGIN:STANDARD\r\nCOMMENT:c\r\nRDATE:x\r\n"
    docSays sampleWords sampleEnv a = docSays sampleWords sampleEnv b ∧
    docSays sampleWords sampleEnv a = some c!"error decoding Calendar->Timezone: error decoding Timezone->Standard: error decoding Standard->RecurrenceDateTimes: …" := by
  decide +kernel

example : Says sampleWords sampleEnv ⟨.comp tabEvent, c!"VEVENT", [.line ⟨c!"SUMMARY", [], c!"x"⟩]⟩ [⟨.cal, c!"VCALENDAR", []⟩] seqBad c!"error decoding Event->Sequence: …" :=
  .sect (by simp) (.value (f := ⟨c!"SEQUENCE", propSequence, .opt⟩) (e := .ext) (by simp [Frame.fields, tabEvent]) (by decide) (Or.inr (by simp [HasLine, linesNamed]; decide))
    (by decide +kernel))

example : docSays sampleWords sampleEnv (textOf (seqPre ++ [seqBad])) = some c!"error decoding Calendar->Event: error decoding Event->Sequence: …" :=
  C89_component_property sampleWords sampleEnv (s := textOf (seqPre ++ [seqBad])) (r := []) (l := seqBad) (T := tabEvent) (f := ⟨c!"SEQUENCE", propSequence, .opt⟩) (e := .ext) (by decide +kernel)
    seqPre_reading rfl (by simp [tabEvent]) (by decide) (Or.inr (by simp [HasLine, linesNamed]; decide)) (by decide +kernel)

end Ics.Props
