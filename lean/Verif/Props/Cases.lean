import Verif.Props.Pieces
import Verif.Props.Cuts
import Verif.Props.FoldingOctets
import Verif.Props.Wording
import Verif.Props.LineEnds
import Verif.Props.Size
import Verif.Props.Wrong
import Verif.Props.WrittenDoc
import Verif.Props.Unbroken
import Verif.Props.Property
import Verif.Props.Errors
import Verif.Props.Edits
import Verif.Props.ReturnExact
import Verif.Props.Exactly
import Verif.Props.Found
import Verif.Props.Injective
import Verif.Props.RfcValues
import Verif.Props.Looked
import Verif.Props.Machines
import Verif.Props.Meaning
import Verif.Props.Enums
import Verif.Props.LocalTime
import Verif.Props.TextOctets
import Verif.Props.Count
import Verif.Props.Compose
import Verif.Props.Refused
import Verif.Props.Pointers
import Verif.Props.Depth
import Verif.Props.Message
import Verif.Props.Exchange
/-!
# Concrete cases for theorems that have none directly beside them

Each case gives a theorem arguments that meet all its hypotheses, so that none of them holds for want of such arguments.
-/

namespace Ics.Props
open Spec

/-! ## Folding and unfolding -/

example : removeFolds (({} : Folder).writes okSink (sampleText.map utf8)).out = utf8 sampleText.flatten :=
  C03_folding_is_transparent sampleText (noFold_decide (by decide +kernel))

example := C04_write_granularity_irrelevant [c!"DESCRIPTION:", List.replicate 70 'ä', c!"\r\n"] [c!"DESCRIPTION:" ++ List.replicate 70 'ä' ++ c!"\r\n"] (by decide)

example := C04_write_returns_length (({} : Folder).write okSink (utf8 (List.replicate 70 'ä'))).1 (by decide +kernel) c!"more"

theorem samplePieces_read : readAll (listReader samplePieces) 40 [16, 16, 16] {} [] = .done ([97, 98, 99, 100, 101, 102, 103, 13, 10], some 0, ⟨[], [1, 16, 3, 16]⟩) := by
  decide +kernel

example := C09_well_cut_partial (listReader samplePieces) samplePieces_wellCut [16, 16, 16] 40 (by decide) _ _ _ samplePieces_read

example := C09_no_folds_partial (fullReader (utf8 c!"A:b\r\nC:d\r\n") 0) (fullReader_ok _ _) (fullReader_noFolds _ (noFold_decide (by decide +kernel))) (fullReader_lazy _ _)
  [4, 4, 4, 4] (by decide) 20 (by decide) (utf8 c!"A:b\r\nC:d\r\n") 0 ⟨[], [1, 4, 2, 2, 4]⟩ (by decide +kernel)

theorem full_bounded (doc : Bytes) (fin : Nat) : ∃ N, ∀ h, (delivered (fullReader doc fin) h).length ≤ N :=
  ⟨doc.length, fun h => by rw [fullReader_delivered]; simp; omega⟩

example := C08_read_terminates_partial (fullReader (utf8 c!"A:b\r\nC:d\r\n") 0) (fullReader_ok _ _) (full_bounded _ _)
  (fun k h hf => absurd hf (fun hf => fullReader_noFolds 0 (doc := utf8 c!"A:b\r\nC:d\r\n") (noFold_decide (by decide +kernel)) (k :: h)
    (by rw [delivered]; obtain ⟨a, b, e⟩ := hf; exact ⟨delivered _ h ++ a, b, by rw [← e, ← List.append_assoc, ← List.append_assoc]⟩))) {} 4

example := C09_uncut_partial (fullReader markedA 0) (fullReader_ok _ _) (fullReader_lazy _ _) (fullReader_eager _ _) [5, 5] (by decide) 40
  [97, 98, 99, 100, 101] 0 ⟨[], [5, 1, 2, 5]⟩ markedA_whole.1 (noFold_decide (by decide +kernel)) markedA_whole.2

/-! ## Values -/

example : Text.decode c!"a\\,b\\Nc" = .ok c!"a,b\nc" :=
  C16_rfc_text_decodes (.plain 'a' (by decide) (by decide) (by decide) (by decide) (.comma (.plain 'b' (by decide) (by decide) (by decide) (by decide)
    (.newline 'N' (.inr rfl) (.plain 'c' (by decide) (by decide) (by decide) (by decide) .nil)))))

example := C17_mtext_round_trip [c!"a,b", c!"", c!"c;d"] (by decide)

example : MText.decode (MText.encode [c!"a,b", c!"", c!"c;d"]) = .ok [c!"a,b", c!"", c!"c;d"] :=
  C17_rfc_list_decodes (C17_encoding_is_rfc_list _ (by decide))

example := C18_weeks_drop_the_rest { weeks := 2, days := 3 } ⟨by decide, by decide, by decide, by decide, by decide⟩ (by decide)

/-- A duration of fifteen days, five hours and twenty seconds. -/
example : Duration.decode c!"-P15DT5H" = .ok { neg := true, days := 15, hours := 5 } :=
  C19_rfc_durations_accepted_partial (d := { neg := true, days := 15, hours := 5 })
    ⟨c!"15DT5H", .inl ⟨.inr ⟨c!"15D", c!"T5H", rfl, ⟨c!"15", .snoc (n := 1) 5 (.one 1), rfl⟩, c!"5H", rfl, .inl (.inl ⟨⟨c!"5", .one 5, rfl⟩, rfl, rfl⟩)⟩, rfl⟩,
      .inl ⟨rfl, rfl⟩⟩ ⟨by decide, by decide, by decide, by decide, by decide⟩

example := C19_decoded_in_range (s := c!"-P15DT5H0M20S") (d := { neg := true, days := 15, hours := 5, seconds := 20 }) (by decide)

example := C20_nonnegative_offset_with_sign_is_rfc 3661 (by decide) (by decide)

example : UTCOffset.decode ('+' :: UTCOffset.encode 3661) = .ok 3661 := C20_rfc_offset_decodes (C20_nonnegative_offset_with_sign_is_rfc 3661 (by decide) (by decide))

example := C25_only_with_encoding c!"BASE64" c!"TWFu/w==" [77, 97, 110, 255] (by decide)

example := C26_integer_round_trip (-2147483648) (by decide) (by decide)

/-! ## Content lines -/

example := C10_print_parse sampleLine sampleLine_ok c!"END:X\r\n"

example := C10_print_injective [sampleLine, sampleLine] [sampleLine, sampleLine] (by simp [sampleLine_ok]) (by simp [sampleLine_ok]) rfl

/-! ## Times -/

def parisTime : GoTime := ⟨63763119600, 0, .zone c!"Europe/Paris" 3 0⟩

example := C21_zoned_round_trip_partial sampleEnv 7 parisTime rfl (by decide +kernel) (by decide +kernel) ⟨by decide, by decide, by decide, by decide⟩ (by decide +kernel)

example := C21_date_round_trip sampleEnv parisTime (by decide +kernel) (by decide +kernel)

example := C21_time_of_day_round_trip sampleEnv 0 6000 (by decide)

/-! ## Rules, periods, positions -/

example := C24_decoded_in_range sampleEnv 0 none c!"FREQ=DAILY;BYDAY=+5MO;COUNT=10" { freq := 3, byDay := [⟨2, 5⟩], count := 10 } (by decide +kernel)

example := C24_frequency_given sampleEnv 0 none c!"FREQ=DAILY;BYDAY=+5MO;COUNT=10" { freq := 3, byDay := [⟨2, 5⟩], count := 10 } (by decide +kernel)

theorem samplePeriod_times : TimeOk sampleEnv samplePeriod.start ∧ TimeOk sampleEnv samplePeriod.stop :=
  ⟨⟨rfl, by decide +kernel, by decide +kernel, trivial, by decide⟩, ⟨rfl, by decide +kernel, by decide +kernel, trivial, by decide⟩⟩

example := C27_unzoned_period_round_trip_partial sampleEnv samplePeriod (by decide) ⟨by decide, by decide, by decide, by decide, by decide⟩ (.inl rfl) samplePeriod_times.1
  (fun h => absurd h (by decide)) (fun _ => ⟨rfl, samplePeriod_times.2⟩)

example := C27_decoded_accepted_partial sampleEnv 0 c!"20210729T014000Z/20210729T024000Z" samplePeriod (by decide +kernel) (by decide) (fun _ => by decide)

example := C28_finite_rejected 0x40486ccccccccccd 0x4002cccccccccccd (.inl (by decide))

/-! ## Parameters -/

example := C31_unnamed_values_collapse sampleEnv paramCalendarUserType _ rfl 9 (by decide)

example := C32_no_repeated_parameter sampleEnv propOrganizer [] [(c!"X", [⟨true, []⟩])] [] (c!"cn", [⟨false, c!"Ann"⟩]) (c!"CN", [⟨false, c!"Bob"⟩]) c!"mailto:a"
  (.inl (by decide)) (by decide)

/-! ## Encoding -/

example := C01_encode_lines_partial sampleEnv sampleCal sampleCal_typed sampleCal_valid sampleCal_clean.1 (fun x hx v hv => (sampleCal_clean.2 x hx v hv).1) (fun s => [s]) (by simp)

theorem sampleCal_unbroken : Unbroken sampleEnv sampleCal := by decide +kernel

example := C01_any_lines_partial sampleEnv sampleCal sampleDoc sampleCal_typed sampleCal_valid sampleCal_doc sampleCal_unbroken (fun s => [s]) (by simp)

example := C15_octets_partial sampleEnv sampleEnv sampleCal sampleCal_typed sampleCal_valid sampleCal_clean.1 (fun x hx v hv => (sampleCal_clean.2 x hx v hv).1) (fun s => [s]) (by simp)
  _ rfl (utf8 (sampleDoc.take 40)) (by decide +kernel) (by decide +kernel) 0 100 (by decide +kernel) (by decide) 200 (by decide)

example := C15_any_octets_partial sampleEnv sampleEnv sampleCal sampleCal_typed sampleCal_valid sampleCal_unbroken (fun s => [s]) (by simp)
  _ rfl (utf8 (sampleDoc.take 40)) (by decide +kernel) (by decide +kernel) 0 100 (by decide +kernel) (by decide) 200 (by decide)

/-- A decoded calendar and the part of what is written for it that ends behind VERSION. -/
example : ∀ c', decodeDoc sampleEnv c!"BEGIN:VCALENDAR\r\nVERSION:2.0\r\n" ≠ .ok c' := by
  have h : decodeDoc strictEnv (oneMoreDoc c!"SUMMARY;LANGUAGE=en:x") = .ok (oneMore c!"SUMMARY" (.fields [none, some (.str c!"en")] [some (.text c!"x")])) := by
    decide +kernel
  exact fun c' => C15_decoded_partial strictEnv sampleEnv strictEnv_sane strictEnv_plain _ _ c' h (by decide +kernel) _ _ rfl (by decide +kernel) (by decide +kernel)

example := C28_encode_rejects_finite sampleEnv okSink (fun s => [s]) (geoCal 0x40486ccccccccccd 0x4002cccccccccccd)
  (⟨c!"GEO", propGeo, .opt⟩, val1 0 (.tfloat (0x40486ccccccccccd, 0x4002cccccccccccd))) (List.mem_of_getElem? (i := 4) (by decide +kernel)) 0x40486ccccccccccd 0x4002cccccccccccd (by decide) (.inl (by decide)) (by decide +kernel)

example := C47_always_lost sampleEnv sampleCal sampleCal_typed sampleCal_valid sampleCal_rules sampleCal_params sampleCal_good

example := C67_injective_partial sampleEnv sampleCal sampleCal sampleCal_goodCalendar sampleCal_goodCalendar rfl

example := C67_octets_partial sampleEnv sampleCal sampleCal sampleCal_goodCalendar sampleCal_goodCalendar (fun s => [s]) (fun s => s.map ([·])) (by simp)
  (fun s => by induction s <;> simp_all) _ _ rfl rfl (by decide +kernel)

example := C63_fits_partial sampleEnv sampleCal sampleCal_goodCalendar (fun s => [s]) (by simp)
example := C63_unfolded_partial sampleEnv sampleCal sampleCal_goodCalendar (fun s => [s]) (by simp)
example := C63_uncut_partial sampleEnv sampleCal sampleCal_goodCalendar (fun s => [s]) (by simp)

/-- Times that are the same but for a fraction of a second and the object of the zone. -/
example := C67_found_partial sampleEnv (parisCal 5 7) (parisCal 0 0) (parisCal_proper 5 7) (parisCal_proper 0 0) _ rfl (by decide +kernel) parisCal_readable

example := C83_the_very_same sampleEnv (parisCal 5 7) (parisCal_proper 5 7) _ rfl

/-! ## Decoding -/

/-- The calendar in the sample document. -/
def sampleRead : Cal := match decodeDoc sampleEnv sampleDoc with
  | .ok c => c
  | _ => sampleCal

theorem sampleRead_ok : decodeDoc sampleEnv sampleDoc = .ok sampleRead := by
  have h : (decodeDoc sampleEnv sampleDoc).isOk = true := by decide +kernel
  unfold sampleRead
  cases hd : decodeDoc sampleEnv sampleDoc with
  | ok c => rfl
  | err e => rw [hd] at h; cases h
  | panic => rw [hd] at h; cases h

theorem sampleDoc_keywords : Keywords (tokenise sampleDoc).lines := sample_ok.2.1

example := C12_no_panic_partial sampleEnv sampleDoc (by decide +kernel) (not_open (by decide +kernel))

example := C12_truncated_alarm sampleEnv [sampleLine, sampleLine] (by simp [sampleLine_ok]; decide)

example := C13_closed_partial sampleEnv sampleDoc _ sampleRead_ok sampleDoc_keywords
example := C14_rest_ignored sampleEnv sampleDoc _ sampleRead_ok
example := C34_required_partial sampleEnv sampleDoc _ sampleRead_ok sampleDoc_keywords
example := C34_required_present sampleEnv sampleDoc _ sampleRead_ok
example := C34_names_partial sampleEnv sampleDoc _ sampleRead_ok sampleDoc_keywords
example := C34_every_document sampleEnv sampleDoc _ sampleRead_ok
example := C35_single_partial sampleEnv sampleDoc _ sampleRead_ok sampleDoc_keywords
example := C35_names_partial sampleEnv sampleDoc _ sampleRead_ok sampleDoc_keywords
example := C35_every_document sampleEnv sampleDoc _ sampleRead_ok
example := C36_lines_partial sampleEnv sampleDoc _ sampleRead_ok sampleDoc_keywords
example := C39_order_partial sampleEnv sampleDoc _ sampleRead_ok sampleDoc_keywords
example := C45_valid_iff_partial sampleEnv sampleDoc _ sampleRead_ok
example := C49_accepted_partial sampleEnv sampleDoc (by decide +kernel)
example := C52_no_lists_partial sampleEnv sampleDoc _ sampleRead_ok sampleDoc_keywords
example := C52_every_document sampleEnv sampleDoc _ sampleRead_ok
example := C53_none_partial sampleEnv sampleDoc _ sampleRead_ok sampleDoc_keywords
example := C53_every_document sampleEnv sampleDoc _ sampleRead_ok
example := C76_zones_exactly_partial sampleEnv eastEnv east_library sampleDoc _ sampleRead_ok
example := C76_instants_exactly_partial sampleEnv eastEnv east_library sampleDoc _ sampleRead_ok
example := C80_machine_zones sampleEnv sampleDoc _ sampleRead_ok
example := C80_refused_partial sampleEnv sampleDoc _ sampleRead_ok sampleDoc_keywords
example := C80_every_document sampleEnv sampleDoc _ sampleRead_ok
example := C95_line_ends sampleEnv sampleDoc _ sampleRead_ok
example := C95_needs_cr_lf sampleEnv sampleDoc _ sampleRead_ok
example := C95_first_characters sampleEnv sampleDoc _ sampleRead_ok
example := C97_without_carets sampleEnv sampleDoc _ (by decide +kernel) sampleRead_ok
example := C97_octets sampleEnv (utf8 sampleDoc) _ (by rw [show runes (utf8 sampleDoc) = sampleDoc by decide +kernel]; exact sampleRead_ok)

/-- An e-mail alarm is decoded if it has DURATION without REPEAT. -/
def mailDoc : Str := List.flatten [
  c!"BEGIN:VCALENDAR\r\nVERSION:2.0\r\nPRODID:x\r\nBEGIN:VEVENT\r\nUID:1\r\nDTSTAMP:20210729T014000Z\r\nBEGIN:VALARM\r\nACTION:EMAIL\r\n",
  c!"DESCRIPTION:x\r\nTRIGGER:-PT15M\r\nSUMMARY:y\r\nATTENDEE:mailto:x@example.com\r\nDURATION:PT5M\r\n",
  c!"END:VALARM\r\nBEGIN:VALARM\r\nACTION:NONE\r\nTRIGGER:-PT15M\r\nEND:VALARM\r\nEND:VEVENT\r\nEND:VCALENDAR\r\n"]

example : ∃ c, decodeDoc sampleEnv mailDoc = .ok c ∧ ∃ x ∈ alarms c, x.1 = .email ∧ ¬ (Has x.1.tab x.2 c!"DURATION" ↔ Has x.1.tab x.2 c!"REPEAT") := by
  have h : (match decodeDoc sampleEnv mailDoc with
    | .ok c => (alarms c).any fun x => decide (x.1 = .email)
    | _ => false) = true := by decide +kernel
  split at h
  · next c hc =>
    obtain ⟨x, hx, hk⟩ := List.any_eq_true.1 h
    exact ⟨c, hc, x, hx, of_decide_eq_true hk, C37_inverted sampleEnv mailDoc c hc x hx (.inl (of_decide_eq_true hk))⟩
  · cases h

example : ∃ c, decodeDoc sampleEnv mailDoc = .ok c ∧ ∃ x ∈ alarms c, x.1 = .none ∧ (Has x.1.tab x.2 c!"DURATION" ↔ Has x.1.tab x.2 c!"REPEAT") := by
  have h : (match decodeDoc sampleEnv mailDoc with
    | .ok c => (alarms c).any fun x => decide (x.1 = .none)
    | _ => false) = true := by decide +kernel
  split at h
  · next c hc =>
    obtain ⟨x, hx, hk⟩ := List.any_eq_true.1 h
    exact ⟨c, hc, x, hx, of_decide_eq_true hk, C37_none_partial sampleEnv mailDoc c hc x hx (of_decide_eq_true hk)⟩
  · cases h

example := C45_period sampleEnv 0 none c!"20210729T014000Z/20210729T024000Z" samplePeriod (by decide +kernel)

/-! ## What is found and what is not -/

example := C50_reads .event c!"SUMMARY" .upToOne _ (by decide +kernel) rfl

example := C50_no_other .event ⟨c!"SUMMARY", propSummary, .opt⟩ (by simp [partFields, tabEvent])

example := C50_parameter_order .event ⟨c!"SUMMARY", propSummary, .opt⟩ (by simp [partFields, tabEvent]) sampleEnv [(c!"language", [⟨false, c!"en"⟩]), (c!"X-A", [⟨true, c!"b"⟩])]
  [(c!"X-A", [⟨true, c!"b"⟩]), (c!"language", [⟨false, c!"en"⟩])] c!"x" (.fields [none, some (.str c!"en")] [some (.text c!"x")]) (.swap ..) (by decide)

example := C85_property .event c!"SUMMARY" .upToOne _ (by decide +kernel) rfl

example : ValWrong sampleEnv (fun _ => none) .duration c!"P1X" .invalidDuration ∧ ∀ v, ¬ ValMeans sampleEnv (fun _ => none) .duration c!"P1X" v := by
  have h : ValWrong sampleEnv (fun _ => none) .duration c!"P1X" .invalidDuration := by simp only [← C85_value]; decide +kernel
  exact ⟨h, (C85_value_one _ _ _ _ _ h).1⟩

example := C58_single sampleEnv (.str false) [⟨false, c!"a"⟩] (.str c!"a") (by decide) (by decide)
example := C58_unknown_names sampleEnv [c!"BINARY", c!"X-Y"] false c!"x-z" (by decide)
example := C60_identity_unseen sampleEnv sampleCal sampleCal

example := C68_other_numbers sampleEnv (paramCalendarUserType, _) (List.mem_of_getElem? (i := 0) rfl) 7 (by decide)

example := C73_which sampleEnv c!"BEGIN:VCALENDAR\r\nVERSION:2.0\r\nend:VCALENDAR" .missingRequired (by decide +kernel)

example := C73_one sampleEnv c!"BEGIN:VCALENDAR\r\nVERSION:2.0\r\nend:VCALENDAR" .missingRequired .missingRequired ((C73_means ..).1 (by decide +kernel)) ((C73_means ..).1 (by decide +kernel))

example := C85_document_line sampleEnv c!"BEGIN:VCALENDAR\r\nVERSION:2.0\r\nX;A=b" .invalidContentLineParamValue (by decide)

/-- In New York clocks show each of these times once. -/
example := C62_accepts westEnv 0 c!"America/New_York" c!"20210314T033000" 0 york_zone

example := C84_validation [0x61, 0xff] c!"a�" ((replaced_iff _ _).2 (by decide))

example := C92_text_iff c!"Summary" propSummary (.fields [none, none] [some (.text c!"\u0001")]) (by decide +kernel) c!"error validating Summary->Text: invalid encoded text"

example := C92_calendar sampleCal sampleCal_typed

example := C93_at_most_the_buffer (fullReader [97, 13, 10, 32, 98] 0) (fullReader_ok _ _) 20 {} 2 ⟨⟨[], [1, 2, 2]⟩, [97, 98], 2, none⟩ (by decide +kernel)

example := C95_other_line_ends sampleEnv [sampleLine] (by simp [sampleLine_ok]) sampleLine sampleLine_ok '\n' c!"END:X" (by unfold NoCtl; decide) (by decide)
example := C95_first_line_end sampleEnv sampleLine sampleLine_ok c!"END:X"
example := C95_wrong_line sampleEnv [sampleLine] (by simp [sampleLine_ok]) ' ' c!"x:y" (by unfold IanaChar; decide)
example := C95_wrong_start sampleEnv '\ufeff' c!"BEGIN:VCALENDAR" (by unfold IanaChar; decide)

example := C96_lines_at_most_75_octets wildOctets (by decide +kernel)
example := C96_transparent wildOctets (noFold_decide (by decide +kernel))
example := C96_write_returns_length (({} : Folder).write okSink [0xe2]).1 (by decide +kernel) [0x82, 0xff]

/-- A fold by another program, in the middle of a word. -/
def foldedOctets : Bytes := utf8 c!"BEGIN:VCALENDAR\r\nVERSION:2.0\r\nPRODID:-/\r\n /x\r\nEND:VCALENDAR\r\n"

theorem foldedOctets_end : ¬ badEnd foldedOctets := by
  rw [show foldedOctets = utf8 c!"BEGIN:VCALENDAR\r\nVERSION:2.0\r\nPRODID:-/\r\n /x\r\nEND:VCALENDA" ++ [82, 13, 10] by decide +kernel]
  exact not_badEnd _ 82 (by decide)

theorem folded_prefix : ∀ (a : Bytes) {s t : Bytes}, Folded Space s t → Folded Space (a ++ s) (a ++ t)
  | [], _, _, h => h
  | b :: a, _, _, h => .keep b (folded_prefix a h)

theorem folded_same : ∀ s : Bytes, Folded Space s s
  | [] => .nil
  | b :: s => .keep b (folded_same s)

theorem foldedOctets_folded : Folded Space (utf8 c!"BEGIN:VCALENDAR\r\nVERSION:2.0\r\nPRODID:-//x\r\nEND:VCALENDAR\r\n") foldedOctets :=
  folded_prefix (utf8 c!"BEGIN:VCALENDAR\r\nVERSION:2.0\r\nPRODID:-/") (.fold rfl (folded_same (utf8 c!"/x\r\nEND:VCALENDAR\r\n")))

example : decodeReader sampleEnv (fullReader foldedOctets 0) 300 [200, 200] = .done (.ok (twoCal c!"2.0" c!"-//x")) := by
  rw [C64_space_partial sampleEnv _ foldedOctets (noFold_decide (by decide +kernel)) foldedOctets_folded foldedOctets_end (by decide) 0 200 (by decide +kernel) 300 (by decide)]
  decide +kernel

/-! ## Edits -/

example := C40_foreign sampleEnv ((inAlarm ++ afterAlarm).flatMap printLine) ((inAlarm ++ plainLine c!"X-A" c!"2" :: afterAlarm).flatMap printLine) (plainLine kBEGIN c!"VCALENDAR")
  (plainLine c!"X-A" c!"2") inAlarm.tail afterAlarm .done (by decide +kernel) (by decide +kernel) (by decide +kernel)

theorem uid_notKnown : NotKnown (plainLine c!"UID" c!"2") afterAlarm (.alarm [plainLine kACTION c!"NONE"]) := by
  refine ⟨by decide, fun a ha => ?_⟩
  have : a.action = c!"NONE" := by simpa [actions, afterAlarm, plainLine, kACTION, kEND, upper, upperC] using ha
  cases a <;> revert this <;> decide +kernel

example := C40_unknown_partial sampleEnv ((inAlarm ++ afterAlarm).flatMap printLine) ((inAlarm ++ plainLine c!"UID" c!"2" :: afterAlarm).flatMap printLine) _ inAlarm afterAlarm
  (plainLine c!"UID" c!"2") .done inAlarm_inside uid_notKnown (by decide +kernel) (by decide +kernel)

/-- A second alarm, with another spelling of its first line. -/
example := C43_begin_partial sampleEnv ((inAlarm ++ afterAlarm).flatMap printLine) ((inAlarm.take 9 ++ plainLine c!"begin" c!"vAlarm" :: (inAlarm.drop 10 ++ afterAlarm)).flatMap printLine) _
  (inAlarm.take 9) (inAlarm.drop 10 ++ afterAlarm) (plainLine kBEGIN kVALARM) (plainLine c!"begin" c!"vAlarm") .done inEvent_inside ⟨nofun, nofun⟩ (by decide) (by decide) (by decide) (by decide +kernel)
  (by decide +kernel)

example := C71_one_line sampleEnv (seqPre ++ [seqBad]) (lines_ok (by decide +kernel))

example := C86_property propSummary (.fields [none, none] [some (.text c!"\u0001")]) (by decide +kernel) .invalidText

example := C86_nothing_written sampleEnv okSink (fun s => [s]) (refusedCal c!"x" ⟨0, 0, .utc⟩) (by decide +kernel) .invalidTime ((cal_refused (by decide +kernel) _).1 (by decide +kernel))

example := C87_panics sampleEnv okSink (fun s => [s]) (pointerCal ⟨1, 0, .utc⟩ (.nil .audio)) (by decide +kernel)
example := C87_error sampleEnv okSink (fun s => [s]) (pointerCal ⟨0, 0, .utc⟩ (.nil .audio)) (by decide +kernel) .invalidTime

/-! ## The others -/

example := C31_uris_rejected sampleEnv paramAlternativeRepresentation (by decide) ⟨c!"people/ann"⟩ (by decide) (by show ∀ c ∈ c!"people/ann", _; decide) (.url ⟨c!"people/ann"⟩) (.inl ⟨rfl, rfl⟩)

/-- Without a zone, the very same calendar comes back. -/
example := C44_exact_partial sampleEnv (twoCal c!"2.0" c!"-//x") (two_typed _ _) (two_valid _ _ (by decide) (by decide)) (two_rules _ _) (two_good sampleEnv _ _).1 (two_good sampleEnv _ _).2
  (by decide +kernel) (by unfold Unzoned; decide +kernel)

/-- The names in the third line in another case. -/
example : decodeDoc sampleEnv c!"BEGIN:VCALENDAR\r\nBEGIN:VEVENT\r\nSUMMARY;LANGUAGE=en:x\r\n" = decodeDoc sampleEnv c!"BEGIN:VCALENDAR\r\nBEGIN:VEVENT\r\nsummary;Language=en:x\r\n" :=
  C43_names_partial sampleEnv _ _ [plainLine c!"BEGIN" c!"VCALENDAR", plainLine c!"BEGIN" c!"VEVENT", ⟨c!"summary", [(c!"Language", [⟨false, c!"en"⟩])], c!"x"⟩]
    [plainLine c!"BEGIN" c!"VCALENDAR", plainLine c!"BEGIN" c!"VEVENT", ⟨c!"SUMMARY", [(c!"LANGUAGE", [⟨false, c!"en"⟩])], c!"x"⟩] .done (by decide +kernel) (by decide +kernel)
    (.cons ⟨rfl, fun _ => rfl, .nil, rfl⟩ (.cons ⟨rfl, fun _ => rfl, .nil, rfl⟩ (.cons ⟨by decide, fun h => absurd h (by decide), .cons ⟨by decide, rfl⟩ .nil, rfl⟩ .nil)))

example : ∀ v w, ValMeans sampleEnv (fun _ => none) .integer c!"-5" v → ValMeans sampleEnv (fun _ => none) .integer c!"-5" w → v = w := fun v w h1 h2 =>
  C57_one_meaning sampleEnv (fun _ => none) .integer c!"-5" v w h1 h2

example : ValMeans sampleEnv (fun _ => none) .integer c!"-5" (.integer (-5)) := (Val.decode_iff ..).1 (by decide)

/-- What is behind a fold with a HTAB at the end of a calendar is not read. -/
example : decodeDoc sampleEnv (c!"BEGIN:VCALENDAR\r\nVERSION:2.0\r\nPRODID:x\r\nEND:VCALENDAR" ++ crlf) = .ok (twoCal c!"2.0" c!"x") :=
  C64_tab sampleEnv c!"BEGIN:VCALENDAR\r\nVERSION:2.0\r\nPRODID:x\r\nEND:VCALENDAR" c!"y" _ (by decide +kernel)

/-- Calendars with an event each. -/
example : ∃ c d c', decodeDoc sampleEnv (calText (headLines ++ oneEvent)) = .ok c ∧ decodeDoc sampleEnv (calText (headLines ++ oneEvent)) = .ok d ∧
    decodeDoc sampleEnv (calText (headLines ++ oneEvent ++ oneEvent)) = .ok c' ∧ c'.subs.getD 0 [] = c.subs.getD 0 [] ++ d.subs.getD 0 [] := by
  have h : (decodeDoc sampleEnv (calText (headLines ++ oneEvent))).isOk = true := by decide +kernel
  cases hc : decodeDoc sampleEnv (calText (headLines ++ oneEvent)) with
  | ok c =>
    obtain ⟨c', h1, _, h2⟩ := C66_merge_partial sampleEnv (headLines ++ oneEvent) oneEvent _ _ c c (headLines_items.append oneEvent_items) oneEvent_items
      (by intro i hi; rcases List.mem_singleton.1 hi with rfl; exact ⟨_, _, rfl⟩) (lines_ok (by decide +kernel)) (by decide +kernel) hc hc
    exact ⟨c, c, c', rfl, rfl, h1, h2 0 (by decide)⟩
  | err e => rw [hc] at h; cases h
  | panic => rw [hc] at h; cases h

/-- A priority of 999. -/
example : (decodeDoc sampleEnv ((priority c!"999").flatMap printLine)).isOk = true := by
  have h : (decodeDoc sampleEnv ((priority c!"5").flatMap printLine)).isOk = true := by decide +kernel
  cases hc : decodeDoc sampleEnv ((priority c!"5").flatMap printLine) with
  | ok c =>
    obtain ⟨c', h1, _⟩ := C78_not_checked sampleEnv _ ((priority c!"999").flatMap printLine) (inAlarm.take 6) (afterAlarm.drop 1) (plainLine c!"PRIORITY" c!"5") c!"999" 999 .done c
      (by decide) (.plain (.snoc (n := 99) 9 (.snoc (n := 9) 9 (.one 9)))) (by decide) (by decide) (by decide +kernel) (by decide +kernel) hc
    rw [h1]; rfl
  | err e => rw [hc] at h; cases h
  | panic => rw [hc] at h; cases h

/-- An event that ends before it begins. -/
example : (decodeDoc sampleEnv ((fromTo c!"20210729T014000Z" c!"20200729T014000Z").flatMap printLine)).isOk = true := by
  have h : (decodeDoc sampleEnv ((fromTo c!"20210729T014000Z" c!"20210729T024000Z").flatMap printLine)).isOk = true := by decide +kernel
  cases hc : decodeDoc sampleEnv ((fromTo c!"20210729T014000Z" c!"20210729T024000Z").flatMap printLine) with
  | ok c =>
    obtain ⟨c', h1, _⟩ := C79_not_compared sampleEnv _ ((fromTo c!"20210729T014000Z" c!"20200729T014000Z").flatMap printLine) (inAlarm.take 6 ++ [plainLine c!"DTSTART" c!"20210729T014000Z"])
      (afterAlarm.drop 1) (plainLine c!"DTEND" c!"20210729T024000Z") [] c!"20200729T014000Z" (.fields [] [some (.dateTime ⟨63731583600, 0, .utc⟩), none]) .done c
      (by decide) (by decide +kernel) (by decide +kernel) (by decide +kernel) hc
    rw [h1]; rfl
  | err e => rw [hc] at h; cases h
  | panic => rw [hc] at h; cases h

example := C81_exact_partial sampleEnv uriOk (.dateTime ⟨63763119600, 0, .utc⟩) (by decide) nofun nofun

example := C87_no_panic sampleEnv okSink (fun s => [s]) (pointerCal ⟨1, 0, .utc⟩ (.nil .none))
  (by intro x hx; rcases List.mem_singleton.1 (show x ∈ [PartP.nil .none] from hx) with rfl; exact fun h => h rfl)

example := C87_nil sampleEnv okSink (fun s => [s]) (pointerCal ⟨1, 0, .utc⟩ (.nil .audio)) (List.mem_of_getElem? (i := 4) rfl)

example := C91_text_iff sampleLib sampleEnv c!"Duration" (sp := propDuration) (by decide +kernel) [] c!"P1DT2X"
example := C91_ends_with_reason sampleLib sampleEnv c!"Duration" propDuration [] c!"P1DT2X" c!"error decoding Duration: invalid Duration" .invalidDuration (by decide +kernel) (by decide +kernel)
example := C91_begins_with_name sampleLib sampleEnv c!"Duration" (sp := propDuration) (by decide +kernel) [] c!"P1DT2X" c!"error decoding Duration: invalid Duration" (by decide +kernel)
example := C92_text_iff_error c!"Summary" propSummary (.fields [none, none] [some (.text c!"\u0001")]) (by decide +kernel)

example := C88_nesting sampleEnv ((inAlarm ++ afterAlarm).flatMap printLine) 3 (by decide +kernel) (by decide +kernel)

example := C77_utc_exactly_partial sampleEnv ⟨c!"DTSTAMP", propDateTimeStamp, .req⟩ (by decide +kernel) (by decide) [] c!"20210729T014000Z" ⟨63763119600, 0, .utc⟩ (by decide +kernel)

/-- An octet of a rune in a call of its own, and another one with the octet behind it. -/
example : (({} : Folder).writes okSink [[0xff], [0xfe, 97]]).out = (({} : Folder).writes okSink [[0xff, 0xfe], [97]]).out := by
  have h : ∀ (b : UInt8) (t : Bytes), decodeRune (b :: t) = (0xFFFD, 1) → ∀ c r, b :: t ≠ encodeChar c ++ r := fun b t => not_rune
  have ha : Pieces [97] [[97]] := .rune (t := []) 'a' .nil
  exact C96_granularity_partial [[0xff], [0xfe, 97]] [[0xff, 0xfe], [97]] [[0xff], [0xfe], [97]]
    (.cons (us := [[0xff]]) (vs := [[0xfe], [97]]) (.bad _ (h _ _ (by decide)) .nil) (.cons (us := [[0xfe], [97]]) (vs := []) (.bad _ (h _ _ (by decide)) ha) .nil))
    (.cons (us := [[0xff], [0xfe]]) (vs := [[97]]) (.bad _ (h _ _ (by decide)) (.bad _ (h _ _ (by decide)) .nil)) (.cons (us := [[97]]) (vs := []) ha .nil))

/-! ## Machines, readers, faults -/

/-- An event with nothing but UTC times. -/
def utcDoc : Str := c!"BEGIN:VCALENDAR\r\nVERSION:2.0\r\nPRODID:x\r\nBEGIN:VEVENT\r\nUID:1\r\nDTSTAMP:20210729T014000Z\r\nEND:VEVENT\r\nEND:VCALENDAR\r\n"

def utcCal : Cal := sect tabCalendar [(c!"VERSION", val1 0 (.text c!"2.0")), (c!"PRODID", val1 0 (.text c!"x"))]
  [[sect tabEvent [(c!"UID", val1 0 (.text c!"1")), (c!"DTSTAMP", val1 0 (.dateTime ⟨63763119600, 0, .utc⟩))] [[]]], [], [], [], []]

theorem utcDoc_read : decodeDoc sampleEnv utcDoc = .ok utcCal := by decide +kernel

theorem utcDoc_portable (E E' : Env) : ∀ l ∈ (tokenise utcDoc).lines, Portable E E' l := by
  have h : ∀ l ∈ (tokenise utcDoc).lines, l.params = [] ∧ upper l.name ≠ c!"RRULE" := by decide +kernel
  intro l hl
  obtain ⟨h1, h2⟩ := h l hl
  refine ⟨?_, fun h => absurd h h2⟩
  intro q hq
  rw [h1] at hq
  cases hq

theorem utcCal_utc : InUTC utcCal := by
  have e : everyProp utcCal = [val1 0 (.text c!"2.0"), val1 0 (.text c!"x"), val1 0 (.dateTime ⟨63763119600, 0, .utc⟩), val1 0 (.text c!"1")] := by decide +kernel
  intro p hp
  rw [e] at hp
  simp only [List.mem_cons, List.not_mem_nil, or_false] at hp
  rcases hp with rfl | rfl | rfl | rfl <;> (intro v hv; cases List.mem_singleton.1 hv; first | rfl | trivial)

example : decodeDoc eastEnv utcDoc = .ok utcCal := C76_utc_partial sampleEnv eastEnv east_library utcDoc utcCal (utcDoc_portable _ _) utcCal_utc utcDoc_read

/-- A machine with fewer zones, but the same local time. -/
example : decodeDoc { sampleEnv with loadZone := fun _ => none } utcDoc = .ok utcCal :=
  C76_same_zones_partial sampleEnv { sampleEnv with loadZone := fun _ => none } ⟨rfl, rfl⟩ utcDoc utcCal (utcDoc_portable _ _) rfl (fun _ _ _ _ h => nomatch (show none = some _ from h)) utcDoc_read

/-- With and without something behind the calendar. -/
example := C76_only_what_is_read sampleEnv eastEnv utcDoc (utcDoc ++ c!"rubbish") utcCal utcCal (by
  rw [show lookedAt (tokenise (utcDoc ++ c!"rubbish")).lines = lookedAt (tokenise utcDoc).lines by rw [show (tokenise (utcDoc ++ c!"rubbish")).lines = (tokenise utcDoc).lines by decide +kernel]]
  exact fun _ => Iff.rfl) utcDoc_read (by decide +kernel)

/-- Paris is east of Greenwich, and no clock shows this time twice. -/
example : RfcLocal (sampleEnv.zoneOff 0) 63763123200 63763119600 := by
  have hd : DateTime.decode sampleEnv 0 (some c!"Europe/Paris") c!"20210729T024000" = .ok ⟨63763119600, 0, .zone c!"Europe/Paris" 0 0⟩ := by decide +kernel
  exact C62_east_partial sampleEnv 0 c!"Europe/Paris" c!"20210729T024000" 0 63763123200 _ paris_zone ((reading_iff sampleEnv _ _).2 ⟨0, by decide +kernel⟩) hd
    (fun y => by show 0 ≤ ite _ _ _; split <;> decide) (fun x y hx hy => by
      have hx : x + ite (x < 100000000) 7200 3600 = 63763123200 := hx
      have hy : y + ite (y < 100000000) 7200 3600 = 63763123200 := hy
      split at hx <;> split at hy <;> omega)

/-- A sequence number that is none is at fault in the event it is in. -/
theorem seqBad_fault : Fault sampleEnv ⟨.comp tabEvent, c!"VEVENT", [.line ⟨c!"SUMMARY", [], c!"x"⟩]⟩ seqBad (some .ext) :=
  .sect (by simp) (.value (f := ⟨c!"SEQUENCE", propSequence, .opt⟩) (by simp [Frame.fields, tabEvent]) (by decide) (Or.inr (by simp [HasLine, linesNamed]; decide)) (by decide +kernel))

example := C72_one_fault sampleEnv (textOf (seqPre ++ [seqBad])) (r := []) (r' := []) (by decide +kernel) seqPre_reading seqBad_fault (by decide +kernel) seqPre_reading seqBad_fault

example := C89_one_text sampleWords sampleEnv seqPre_reading seqBad_fault

end Ics.Props
