#!/usr/bin/env python3
"""Writes MANIFEST.json from tools/claims.json-like table kept in this file."""
import json, os
ROOT = os.path.dirname(os.path.dirname(os.path.abspath(__file__)))
CLAIMS = []


def claim(p, status, theorems, note=""):
    CLAIMS.append({"property": p, "status": status, "theorems": ["Ics.Props." + t for t in theorems], "note": note})


claim("C01", "partial", ["C01_lines_at_most_75_octets", "C01_encode_lines_partial", "C01_any_lines_partial", "C01_decoded_partial", "C01_zone_name_long_line", "C01_full_claim_is_false"],
      "The first theorem is the claim for the writes of its quantifier.  For every calendar it is false: a time in a zone whose name holds lone carriage returns (time.FixedZone) is written as a line of 93 octets.  "
      "It holds for every calendar that is written line by line (C46), so for every one that Decode returned and Encode writes.")
claim("C02", "proved", ["C02_fold_never_splits_characters", "C02_lines_utf8", "C96_broken_between_pieces"])
claim("C03", "proved", ["C03_folding_is_transparent", "C96_transparent", "C96_broken_between_pieces"])
claim("C04", "proved", ["C04_write_granularity_irrelevant", "C04_write_returns_length"])
claim("C05", "proved", ["C05_failing_writer", "C05_error_is_sticky"])
claim("C07", "partial", ["C07_unfolding_partial", "C07_no_folds_any_chunking_partial", "C07_single_delivery_partial",
      "C07_octet_by_octet_partial", "C07_uncut_partial", "C07_cut_is_wrong", "C07_exactly_partial", "C07_decode_partial", "C07_same_result_partial", "C07_marker_at_the_end", "C07_full_claim_is_false", "C07_result_depends_on_chunking"],
      "The full claim is false for this code: a proved counterexample; proved for readers cutting outside markers and line ends, "
      "for marker-free documents under any chunking, for a document delivered by one call, and for every document without CR CR read octet by octet.  "
      "Exact for buffers from five octets up and readers that deliver something with every call and the end with a call of its own: if the unfolded document has no marker and no marker is followed by SPACE, "
      "a run that ends gives the unfolded document if and only if none of the calls of the reader cut a marker (C07_exactly_partial).")
claim("C08", "partial", ["C08_read_terminates_partial", "C08_marker_removal_terminates_iff", "C08_read_can_hang", "C08_read_hangs_iff", "C08_reading_hangs_iff", "C08_decode_hangs_iff", "C08_same_result", "C08_only_the_calls_made",
      "C08_full_claim_is_false"],
      "The full claim is false: Read hangs on a piece holding a marker and ending in a rotation of CR LF SPACE; exact condition proved, for the loop, for one Read in any state, for all of the reading and for Decode (C08_decode_hangs_iff).")
claim("C09", "partial", ["C07_unfolding_partial", "C07_no_folds_any_chunking_partial", "C09_well_cut_partial", "C09_no_folds_partial", "C09_uncut_partial", "C09_space_invented", "C09_octets_lost",
                          "C09_octet_lost_behind_cr", "C09_full_claim_is_false", "C09_false_for_lazy_readers"],
      "The full claim is false (an octet invented, octets lost); holds for well cut readers, for marker-free documents, and whenever none of the calls of the reader cut a marker.")
claim("C10", "proved", ["C10_print_parse", "C10_print_parse_last", "C10_document", "C10_print_injective"])
claim("C11", "proved", ["C11_parsed_lines_wellformed", "C11_document", "C11_accepted_document_is_its_lines"])
claim("C16", "proved", ["C16_text_round_trip", "C16_encoding_is_rfc_text", "C16_rfc_text_decodes", "C16_decoding_exact"])
claim("C17", "proved", ["C17_mtext_round_trip", "C17_encoding_is_rfc_list", "C17_rfc_list_decodes", "C17_decoding_exact"])
claim("C18", "partial", ["C18_duration_round_trip_partial", "C18_exactly", "C18_weeks_drop_the_rest", "C18_full_claim_is_false"],
      "The full claim is false: a duration with weeks and another unit loses the other unit; proved for all others.")
claim("C19", "partial", ["C19_rfc_durations_accepted_partial", "C19_encoding_is_rfc", "C19_accepted_are_items_partial",
      "C19_decoded_in_range", "C19_decoding_exact", "C19_full_claim_is_false"],
      "All RFC durations are accepted with the right fields; the converse is false (P1M is accepted).")
claim("C20", "partial", ["C20_offset_round_trip_partial", "C20_exactly", "C20_negative_offset_is_rfc_partial", "C20_nonnegative_offset_is_not_rfc",
      "C20_nonnegative_offset_with_sign_is_rfc", "C20_rfc_offset_decodes", "C20_accepted_offsets", "C20_full_claim_is_false"],
      "Round trip for offsets below 100 hours; offsets >= 0 are written without the mandatory sign, so the grammar half is false.")
claim("C25", "proved", ["C25_binary_round_trip", "C25_only_with_encoding", "C25_encoding_is_base64", "C25_decoding_exact"])
claim("C26", "proved", ["C26_integer_round_trip", "C26_exactly", "C26_integer_exact", "C26_boolean_round_trip", "C26_boolean_rfc"])
claim("C21", "partial", ["C21_datetime_round_trip_partial", "C21_exactly", "C21_date_exactly", "C21_utc_round_trip_partial", "C21_zoned_round_trip_partial",
      "C21_timezone_written", "C21_date_round_trip", "C21_time_of_day_round_trip", "C21_time_comes_back", "C21_calendar_start", "C21_calendar_step",
      "C21_calendar_real", "C21_ambiguous_times_collide", "C21_fraction_lost", "C21_full_claim_is_false"],
      "The full claim is false: fractions of a second are lost and ambiguous readings collide; proved for all other instants.")
claim("C22", "partial", ["C22_date_exact", "C22_datetime_means", "C22_time_means", "C22_datetime_exact_partial", "C22_zoned_exact_partial", "C22_full_claim_is_false"],
      "Exact characterisation; dates satisfy the claim, date-times also accept fractional seconds (witness).")
claim("C23", "partial", ["C23_recur_round_trip_partial", "C23_exactly", "C23_utc_round_trip_partial", "C23_occurrence_not_checked", "C23_until_dropped",
      "C23_full_claim_is_false"],
      "The full claim is false: validation accepts rules with any BYDAY occurrence and with both COUNT and UNTIL, which do not come back; "
      "proved for all rules in the ranges of RFC 5545.")
claim("C24", "proved", ["C24_decoded_in_range", "C24_frequency_given", "C24_panics_only_on_plus_digit", "C24_panics_iff"])
claim("C27", "partial", ["C27_period_round_trip_partial", "C27_exactly", "C27_unzoned_period_round_trip_partial", "C27_decoded_accepted_partial",
      "C27_zoned_periods_rejected", "C27_duration_lost", "C27_full_claim_is_false"],
      "The full claim is false: every decoded period with a named zone and an end is rejected by validation, and an end hides the "
      "duration; proved for the others.")

claim("C29", "partial", ["C29_round_trip_partial", "C29_encoder_diverges", "C29_encoder_rounds", "C29_decoding_exact_partial", "C29_escapes_kept", "C29_full_claim_is_false"],
      "Exact: the encoder returns only for strings without newline, caret, quote (else it loops for ever); the decoder keeps escape sequences besides decoding them. Full claim refuted.")
claim("C31", "partial", ["C31_round_trip_partial", "C31_exactly", "C31_uris_rejected", "C31_unquoted_uri_rejected", "C31_uri_splits_line", "C31_empty_vanishes", "C31_unnamed_values_collapse", "C31_full_claim_is_false"],
      "Round trip for the values listed in Spec.GoodParam; URIs are written without the quotes decoding demands; empty values vanish. Full claim refuted.")
claim("C32", "proved", ["C32_no_repeated_parameter", "C32_repeated_error", "C32_unknown_parameters_ignored", "C32_tzid_matters"],
      "All property types of the tables; TZID and ENCODING are the only other parameters that matter.")
claim("C33", "proved", ["C33_decode_one_alternative", "C33_valid_one_alternative"], "All property types of the tables.")
claim("C06", "proved", ["C06_nothing_written"])
claim("C28", "partial", ["C28_validation_is_inverted", "C28_finite_rejected", "C28_value_claim_is_false", "C28_encode_rejects_finite",
      "C28_paris_rejected", "C28_full_claim_is_false"],
      "The claim is false: validation is inverted, and Encode rejects every calendar with a position that has a finite coordinate.")
claim("C30", "partial", ["C30_termination_exact_partial", "C30_caret_diverges", "C30_full_claim_is_false"],
      "Exact: Encode returns for every calendar unless it is valid and has a newline, a caret or a quote in the text of a parameter; then it never "
      "returns.  So the full claim is refuted.")
claim("C38", "partial", ["C38_exactly_partial", "C38_both_sides", "C38_each_refused", "C38_read_as_other", "C38_two_ends", "C38_full_claim_is_false", "C44_round_trip_partial"],
      "The claim is false: an event with DTEND and DURATION is valid and encoded, and Decode rejects it.  Exact: of the valid calendars that Encode writes, those "
      "are read that keep the rules and whose parameters and values other than LAST-MODIFIED are readable (no URI in a parameter, years of four digits, known zones, "
      "weeks up to 53, integers of 32 bits, no negative offset written as zero); supposing only that URIs, floats, names of zones and format types have no control "
      "characters.")
claim("C44", "partial", ["C44_round_trip_partial", "C83_exactly_these_come_back", "C44_exact_partial", "C44_octets_partial", "C44_full_claim_is_false", "C44_what_comes_back_partial", "C44_octets_are_the_text", "C44_octets_exactly_partial", "C44_sample"],
      "Whole calendars at the level of text and of octets; excludes parameters and values that do not come back (see C18-C31) and LAST-MODIFIED. "
      "Full claim refuted.  C44_what_comes_back_partial: for every calendar that is written, whether it is read, and what exactly is found then; C44_octets_exactly_partial says the same of the octets.")
claim("C46", "partial", ["C46_exact_lines_partial", "C46_zone_name_injects", "C46_format_type_breaks_line", "C46_full_claim_is_false",
      "C46_exactly_partial", "C46_seen_partial", "C46_decoded_partial", "C46_broken"],
      "Refuted for zone names and format types.  C46_exactly_partial: what is written is line by line the outline of the calendar if and only if no URI, "
      "float, format type or time zone name is written with control characters; C46_seen_partial: then the reader sees those lines; C46_decoded_partial: "
      "every decoded calendar is such (on a library that writes what it read without control characters).")
claim("C47", "partial", ["C47_lost", "C47_always_lost", "C47_full_claim_is_false"],
      "The claim is false: LAST-MODIFIED never survives, in any calendar covered by C44.")
claim("C48", "partial", ["C48_names_return_partial", "C48_last_modified_unread", "C48_full_claim_is_false"],
      "All fields of all sections but LAST-MODIFIED, for which it is refuted.")
claim("C12", "partial", ["C12_no_panic_partial", "C12_open_alarm", "C12_plus_day", "C12_truncated_alarm", "C12_panics_iff", "C12_panics_iff_partial", "C12_full_claim_is_false"],
      "Decode panics at most if the document ends inside an alarm, or a rule has a plus sign and a digit for a day; both do happen.  Refuted.  C12_panics_iff says exactly which documents these are.")
claim("C13", "partial", ["C13_closed_partial", "C13_every_document", "C13_begin_and_end", "C13_extra_end", "C13_full_claim_is_false"],
      "Holds if BEGIN, END and ACTION are written in upper case; refuted in general (an alarm ended by `end:VALARM`).  C13_every_document: it is enough that BEGIN and END are in upper case in alarms.")
claim("C14", "proved", ["C14_rest_ignored", "C14_append"])
claim("C34", "partial", ["C34_required_partial", "C34_names_partial", "C34_every_document", "C34_required_present", "C34_full_claim_is_false"],
      "From exactly one line if BEGIN, END and ACTION are in upper case; for every accepted document where the blocks are divided as the decoder does (C34_every_document); in the result always.  Refuted in general.")
claim("C35", "partial", ["C35_single_partial", "C35_names_partial", "C35_every_document", "C35_two_actions", "C35_full_claim_is_false"],
      "Holds if BEGIN, END and ACTION are in upper case (for all properties but ACTION itself), and for every accepted document where the blocks are divided as the decoder does (C35_every_document).  Refuted in general.")
claim("C36", "proved", ["C36_rules", "C36_lines_partial", "C36_every_document"])
claim("C37", "partial", ["C37_none_partial", "C37_inverted", "C37_duration_only", "C37_email_rejected", "C37_full_claim_is_false"],
      "The claim is false: EMAIL and URI alarms are accepted only if they break it, the rule is not checked for AUDIO and DISPLAY.")
claim("C39", "partial", ["C39_order_partial", "C39_every_document", "C39_full_claim_is_false"],
      "Holds if BEGIN, END and ACTION are in upper case, and for all accepted documents where the blocks are divided as the decoder does (C39_every_document).  Refuted in general.")

claim("C40", "partial", ["C40_foreign", "C40_unknown_partial", "C40_everywhere", "C40_everywhere_alarm", "C40_action_outside", "C40_full_claim_is_false"],
      "Unconditional for names that no component knows, at any place and for every result.  For names unknown only to the component they are in: "
      "closed blocks before the place must have BEGIN, END and ACTION in upper case; without that the claim is refuted.  C40_everywhere: for all documents, in any case, "
      "in the component that the decoder has open.")
claim("C41", "partial", ["C41_block_partial", "C41_everywhere", "C41_only_closed", "C41_in_alarm", "C41_lower_case", "C41_full_claim_is_false"],
      "Holds outside of alarms for blocks with names in upper case, for every result.  Refuted inside alarms and for nested names in lower case.  C41_everywhere and C41_only_closed: "
      "for all documents, with exactly which blocks are accepted.")
claim("C42", "proved", ["C42_order", "C42_swap"], "")
claim("C43", "partial", ["C43_names_partial", "C43_begin_partial", "C43_end_partial", "C43_begin_everywhere", "C43_end_everywhere", "C43_end_name_everywhere", "C43_end_name", "C43_action", "C43_alarm_end", "C43_spelling",
      "C43_full_claim_is_false"],
      "Holds for property and parameter names, for BEGIN lines in known components, for the END keyword outside of alarms.  Refuted for names behind END, "
      "ACTION and END in alarms, and nested unknown blocks.  The theorems ending in _everywhere hold for all documents and every result.")
claim("C15", "partial", ["C15_no_part_is_decoded_partial", "C15_octets_partial", "C15_pieces_partial", "C15_zone_name_ends_document",
      "C15_full_claim_is_false", "C15_any_part_partial", "C15_any_octets_partial", "C15_any_pieces_partial", "C15_decoded_partial", "C15_exactly_partial",
      "C15_octets_exactly_partial"],
      "Holds, for text and for octets cut anywhere (but for the line end at the very end, without which the calendar is read as well), for every calendar that is written line by line (C46_exactly_partial), so for every decoded one; "
      "refuted in general by a zone name that holds END:VCALENDAR.")
claim("C45", "partial", ["C45_valid_iff_partial", "C45_typed", "C45_period", "C45_zero_time", "C45_position", "C45_zone_period", "C45_full_claim_is_false"],
      "A decoded calendar is typed, and valid exactly if it has no zero time, no position and no period that ends before it starts or has a zone.  "
      "Refuted in general, for each of these.")
claim("C49", "partial", ["C49_accepted_partial", "C49_every_document", "C49_sound_partial", "C49_scale_ignored", "C49_full_claim_is_false"],
      "Exact for documents with BEGIN, END, ACTION and component names in upper case, against lists written down from RFC 5545 with the library's differences "
      "listed (changes, libLaws); and, with blocks divided as the decoder does, for all documents (C49_every_document).  Refuted against the lists of the RFC itself.")
claim("C50", "proved", ["C50_reads", "C50_no_other", "C50_parameter_order", "C50_default_type"])
claim("C51", "partial", ["C51_kept_partial", "C51_todo_rule_lost", "C51_full_claim_is_false"],
      "Exactly which properties are dropped is proved; the claim is false, for instance for RRULE in VTODO.")
claim("C52", "partial", ["C52_no_lists_partial", "C52_every_document", "C52_single_values", "C52_full_claim_is_false"],
      "The full claim is false: no accepted document has a list of two or more times in these properties.  Single dates and date-times are read.")
claim("C53", "partial", ["C53_none_partial", "C53_every_document", "C53_full_claim_is_false"],
      "The full claim is false: no accepted document has a REQUEST-STATUS of the form of RFC 5545.")
claim("C54", "partial", ["C54_related_ignored", "C54_full_claim_is_false"],
      "The claim is false: RELATED makes no difference to the result, in any document.")
claim("C55", "proved", ["C55_alike"])
claim("C56", "partial", ["C56_decode_exact", "C56_rfc_rules_read", "C56_written_rules_partial", "C56_beyond_the_rfc", "C56_full_claim_is_false"],
      "Every RFC 5545 rule is read as described, and the accepted language is characterised exactly. It is larger than that of RFC 5545 (repeated FREQ, COUNT, UNTIL; '+MO'), so 'accepts nothing else' is false. Writing: for UNTIL values that C23 covers.")
claim("C57", "proved", ["C57_values_exact", "C57_one_meaning"],
      "For all fourteen value types: what is accepted and what it means, by a description in Spec/Meaning, Spec/TimeMeaning, Spec/Rule and Spec/Values that "
      "does not use the decoders. What the URL and number parsers of the Go library accept is a parameter.")
claim("C58", "proved", ["C58_parameters_exact", "C58_single", "C58_unknown_names", "C58_range"],
      "For all parameter types of properties, against ParamMeans. RFC 6868 escapes are read as the code does (C29 shows where this is wrong).")
claim("C59", "proved", ["C59_valid_exact", "C59_encode_refuses", "C59_encode_never_panics", "C59_go_type", "C59_go_type_property"],
      "For all calendars that the Go types allow; a nil calendar and alarm types defined outside the package are not modelled.")
claim("C60", "partial", ["C60_exactly_partial", "C60_both_sides", "C60_again_partial", "C60_stable_partial", "C60_identity_unseen", "C60_uri_parameter", "C60_false_parameter", "C60_full_claim_is_false"],
      "Proved for all decoded calendars that pass validation and have no LAST-MODIFIED, no URI or empty text parameter, no RSVP=FALSE, no caret in a parameter, no "
      "fraction of a second, no zero time as an end, and only URIs and floats that the Go library reads back.  C60_exactly_partial: exactly these, for libraries that write URIs and floats without control characters.  Refuted without these.")
claim("C61", "partial", ["C61_hangs_exact_partial", "C61_caret_hangs", "C61_full_claim_is_false"],
      "Exactly which decoded calendars make Encode run forever: those with a caret in the text of a parameter.  So the claim is false.")

claim("C62", "partial", ["C62_once_partial", "C62_west_partial", "C62_east_partial", "C62_shown", "C62_accepts", "C62_rfc_unique", "C62_east_twice", "C62_west_gap", "C62_new_york", "C62_exactly_partial", "C62_half", "C62_full_claim_is_false"],
      "Right for readings that occur once, for all that occur west of Greenwich, and for all that do not occur twice east of Greenwich. Refuted: twice in the east the last is taken, in a gap in the west the offset behind it. C62_exactly_partial says exactly which readings are decoded as the RFC says, in any zone.")

claim("C63", "partial", ["C63_fits_partial", "C63_unfolded_partial", "C63_octet_by_octet_partial", "C63_uncut_partial", "C63_hangs", "C63_corrupts", "C63_full_claim_is_false"],
  "False as stated: for every buffer size from 109 octets up there is a calendar that Encode writes and that Decode, reading with that buffer, never finishes (C63_hangs); with others the text is changed (C63_corrupts).  Proved for documents that fit the buffer, and for documents in which no line had to be folded, with buffers of any sizes from two octets up, for all documents read octet by octet, and for all pieces and buffers whenever none of the calls of the reader cut a marker.")
claim("C64", "partial", ["C64_space_partial", "C64_space_pieces_partial", "C64_uncut_partial", "C64_tab", "C64_full_claim_is_false"],
  "False for HTAB: a CR LF HTAB inside of the calendar always makes Decode fail (C64_tab).  Proved for all ways to fold with SPACE, when the document is read at once and has no bad end (C08), or in pieces that end outside of markers and line ends, or in any pieces that do not cut a marker.")
claim("C65", "proved", ["C65_settled_or_undecided", "C65_not_both", "C65_answer_stands"])
claim("C66", "partial", ["C66_components_partial", "C66_merge_partial", "C66_everywhere", "C66_which_lines", "C66_lower_case", "C66_full_claim_is_false"],
      "Holds, both ways, for documents with BEGIN, END, ACTION and the names of components in upper case; refuted without that.  C66_everywhere: for all documents and every result, "
      "in any case, for lines between two places where the decoder has nothing but the calendar open; C66_which_lines says exactly which lines these are.")
claim("C67", "partial", ["C67_injective_partial", "C67_octets_partial", "C67_empty_parameter", "C67_full_claim_is_false", "C67_found_partial"],
      "Holds for the calendars of C44, for texts and octets.  C67_found_partial: two calendars of one text differ at most in what is not found in any text (Spec/Found).  Refuted in general: an empty parameter is written like none.")
claim("C68", "proved", ["C68_method", "C68_rfc_names", "C68_properties", "C68_parameters", "C68_other_numbers", "C68_closed_parameters", "C68_spelling"])

claim("C69", "partial", ["C69_asked_again", "C69_always_waits", "C69_one_more_partial", "C69_any_pieces", "C69_any_pieces_folded", "C69_never_less", "C69_full_claim_is_false"],
  "False as stated, and for every calendar: C69_always_waits shows that the reader is asked again before anything is passed on, since what Encode writes ends in CR LF. "
  "C69_asked_again says exactly for which deliveries the reader is asked again. C69_one_more_partial: one octet other than SPACE, or the end of the input, is enough for a document without folds. C69_any_pieces: that it waits is so in whatever pieces the document comes in. C69_any_pieces_folded: the same with folds, if no piece ends inside one. C69_never_less: nor does it return a calendar while only a part of the document has come in.")
claim("C70", "partial", ["C70_cut", "C70_cut_partial", "C70_never_blamed", "C70_full_claim_is_false"],
  "False as stated: a cut inside an alarm makes Decode panic. Proved that this is the only exception (C70_cut, for all documents).")
claim("C71", "partial", ["C71_next_property", "C71_first_wrong_line_partial", "C71_one_line", "C71_not_in_alarms", "C71_full_claim_is_false"],
  "False inside alarms, whose lines are only looked at when the alarm is complete; proved for all other places, and that every result is settled by one line.")
claim("C72", "proved", ["C72_error_iff", "C72_accepted_iff", "C72_panic_iff", "C72_one_fault", "C72_undecided_iff", "C72_next_line"],
  "For all documents; the faults are those of Spec/Fault.lean, an automaton with the open blocks as its state.")
claim("C73", "proved", ["C73_means", "C73_one", "C73_which", "C73_property_errors", "C73_value_errors"],
  "For all documents; the conditions are in Spec/Errors.lean. Errors of the standard library are one error (ext) in the model, and the error for a property that occurs twice has no name in the code.")
claim("C74", "proved", ["C74_exact", "C74_one", "C74_rfc"],
  "For all documents. The grammar is in Spec/Exact.lean; what a line of a property is read as is the decoder of its value (C50, C57, C58 say what that is).")
claim("C75", "proved", ["C75_line_by_line", "C75_one_line"])
claim("C76", "partial", ["C76_same_reading_partial", "C76_utc_partial", "C76_same_zones_partial", "C76_unknown_zone", "C76_local_time", "C76_zero_time", "C76_full_claim_is_false",
  "C76_accepted_exactly_partial", "C76_same_exactly_partial", "C76_zones_exactly_partial", "C76_instants_exactly_partial", "C76_only_what_is_read", "C76_z_same"],
  "False as stated: zones unknown to the other machine, local times, and rules with COUNT and UNTIL at the zero of package time. Without the first and the last, the calendars are the same but for times, "
  "which have the same reading in the same zone; they are the same if the times are in UTC or the machines have the same zones. "
  "Exactly: a document accepted on one machine is accepted on another iff that one knows the zones of the times that are read and the rules are rules there, and gives the same calendar iff "
  "these times are the same instants there.")
claim("C77", "partial", ["C77_not_checked", "C77_utc_exactly_partial", "C77_full_claim_is_false"],
  "False, for every accepted document with such a time: the Z may be left out. Proved exactly which lines give times in UTC.")
claim("C78", "partial", ["C78_not_checked", "C78_int32_partial", "C78_full_claim_is_false"],
  "False, for every accepted document with such a number: any number of 32 bits may be there.")
claim("C79", "partial", ["C79_not_compared", "C79_exchanged", "C79_full_claim_is_false"],
  "False, for every accepted document with an event that has both: they may be exchanged.")
claim("C80", "partial", ["C80_machine_zones", "C80_refused_partial", "C80_every_document", "C80_own_zone", "C80_full_claim_is_false"],
  "False: every time of an accepted document is in UTC or in a zone of the machine; other names make the document unreadable, whatever it defines.")
claim("C81", "partial", ["C81_expressible", "C81_written_partial", "C81_exact_partial", "C81_offsets", "C81_no_text", "C81_full_claim_is_false"],
  "False for UTC offsets that are not negative: the sign is missing. Proved for all other values, with exactly which values have a text.")
claim("C82", "partial", ["C82_document_partial", "C82_uri_alarm", "C82_offset_line", "C82_full_claim_is_false"],
  "False for offsets that are not negative, URIs in parameters (no quotes), zones on rules, REQUEST-STATUS. Proved as an equivalence for all calendars whose properties the library writes well; alarms that open a URI are never written as they should be.")
claim("C83", "proved", ["C83_exactly_for_all", "C83_the_very_same", "C83_exactly_these_come_back", "C83_week_and_day", "C18_exactly", "C20_exactly", "C21_exactly", "C21_date_exactly", "C23_exactly", "C26_exactly", "C27_exactly", "C31_exactly"],
  "C83_exactly_for_all: an equivalence for all valid calendars, whatever the texts and URIs of their parameters, as long as what the package does not check (strings of URIs and floats by the library, format types) has no control characters and zone names need no quotes. C83_exactly_these_come_back also says that Encode returns, for parameters without quotes and carets. For zone names and format types with such characters see C46.")
claim("C84", "proved", ["C84_written", "C84_list_written", "C84_kept_exactly", "C84_list_kept_exactly", "C84_validation", "C84_list_validation", "C84_not_utf8_accepted", "C84_full_claim_is_false"],
  "For texts and lists of texts on their own; whole calendars, with their parameters, are in C105. That every accepted text is kept is refuted.")
claim("C85", "proved", ["C85_value", "C85_value_all", "C85_value_one", "C85_parameter", "C85_property", "C85_line", "C85_lines", "C85_document_line", "C85_document_property"],
  "Exact (iff) for values, parameters, properties, content lines and documents. The errors of the standard library (strconv, time, url, base64) are one constructor, ext.")
claim("C86", "proved", ["C86_value", "C86_value_all", "C86_parameter", "C86_property", "C86_encode", "C86_nothing_written", "C86_entries", "C86_alarm_without_type"],
  "Exact (iff) for values, parameters, properties and calendars.")
claim("C87", "proved", ["C87_nil_calendar", "C87_panics", "C87_error", "C87_no_nil", "C87_no_panic", "C87_nil", "C87_same", "C87_go_type", "C87_nil_anywhere"],
  "Exact (iff) for the panic and for each error. C87_go_type: the calendars spoken of are exactly those the Go types allow.")
claim("C88", "proved", ["C88_at_most", "C88_nesting", "C88_exact", "C88_unbounded", "C88_lower_case"],
  "Counts calls (Verif.Depth), not octets of stack. C88_lower_case: the bound by open blocks needs upper case names.  C88_exact: the number itself, for documents that are accepted.")
claim("C89", "proved", ["C89_reasons", "C89_text_iff_error", "C89_text_iff", "C89_one_text", "C89_component_property", "C89_sections", "C89_fields", "C89_which_event", "C89_spelling", "C89_block_names", "C89_property_names", "C89_component_words"],
  "Exact (iff) for every document; what the errors of properties and of the standard library say is a parameter.")
claim("C90", "proved", ["C90_text_iff_error", "C90_text_iff", "C90_places"],
  "Exact (iff) for every calendar; what the errors of properties say is a parameter.")
claim("C91", "proved", ["C91_reasons", "C91_text_iff_error", "C91_text_iff", "C91_one_text", "C91_ends_with_reason", "C91_begins_with_name", "C91_same_name", "C91_names", "C91_words", "C91_component_property", "C91_spelling", "C91_words_names", "C91_own_names"],
  "Exact (iff) for every property; what the errors of the standard library say is a parameter.")
claim("C92", "proved", ["C92_text_iff_error", "C92_text_iff", "C92_calendar", "C92_names", "C92_says_decoding", "C92_spelling"],
  "Exact (iff) for every calendar of the Go types.")
claim("C93", "partial", ["C93_never_panics", "C93_at_most_the_buffer", "C93_count_partial", "C93_negative_count", "C93_full_claim_is_false"],
  "False as stated: with a reader that delivers nothing and no error between two markers the count is negative (C93_negative_count).  That no call panics and that the count is at most the size of the buffer is proved for all readers; that it is not negative for all readers that deliver something with every call that returns no error.")

claim("C94", "partial", ["C94_exactly_partial", "C94_valid_exactly_partial", "C94_stays_exactly_partial", "C94_of_the_calendar_partial", "C94_times", "C94_sample", "C94_written_otherwise", "C94_refused", "C94_full_claim_is_false"],
  "False as stated, with six witnesses. C94_exactly_partial is an equivalence: of what is read and passes validation again, it says exactly when the text is the same. C94_times: times in zones with the rules of their name are never the reason. C94_of_the_calendar_partial asks nothing of what was read: exactly which calendars are read again, pass validation again and are written as they were. C94_valid_exactly_partial: exactly which pass validation again.")

claim("C95", "proved", ["C95_exactly", "C95_one", "C95_line_ends", "C95_other_line_ends", "C95_first_line_end", "C95_wrong_line", "C95_wrong_start", "C95_needs_cr_lf", "C95_first_characters", "C95_octets_partial", "C95_readers_partial"],
  "Exact (iff) for all unfolded texts. In octets for documents delivered at once that do not hit the bug of C08 (C95_octets_partial), and for all readers whose calls do not cut a marker (C95_readers_partial).")

claim("C96", "partial", ["C96_pieces", "C96_broken_between_pieces", "C96_lines_at_most_75_octets", "C96_transparent", "C96_write_returns_length", "C96_granularity_partial", "C96_character_broken", "C96_full_claim_is_false"],
  "The last part is false: a character written in two strings may be broken up (C96_character_broken). All others are proved for all octets; strings with the same pieces are written alike. The bound of 75 octets needs CR and LF to be written as CR LF only, as in C01.")
claim("C97", "proved", ["C97_at_most_twice", "C97_carets", "C97_without_carets", "C97_octets", "C97_twice_is_reached"],
  "Counted are characters, octets of binary values, list elements, parameters, properties and components (Spec/Size). What net/url and the time zone database keep is outside the model.")
claim("C98", "proved", ["C98_composed", "C98_component", "C98_property", "C98_component_property"],
  "For writers that take all octets; what others get is a beginning of it (C05). The functions are the same for all calendars, they are quantified before the calendar.")

claim("C99", "proved", ["C99_text", "C99_folding", "C99_octets", "C99_read_and_written"],
      "C99_text: at most 240 characters for each unit of size (Spec/Size) and the texts from the Go library once. C99_folding: 71 octets become at most 74, for every writer and every division into writes. C99_octets: both together. C99_read_and_written: Decode, then Encode; the library is taken to lengthen an address by at most a factor U (net/url escapes an octet as three), to write a float in at most F characters, and to have zone offsets of 32 bits.")

claim("C100", "proved", ["C100_read", "C100_calls", "C100_not_after_an_error", "C100_error_passed_on"],
      "C100_read: one call of Read, from any state. C100_calls: all calls of a consumer that stops at the first error it sees. The two others say in plain words what Calls (Spec/Calls) means. Calls made by a Read that does not return (C08) are not spoken of.")

claim("C101", "proved", ["C101_calls", "C101_pieces", "C101_whole_characters", "C101_all_accepted", "C101_together", "C101_encode", "C101_same_folder", "C101_same_count", "C101_same_encode", "C101_short_writes_unnoticed"],
      "For writers that do anything, also break the contract of io.Writer; only that a nil error means that everything was accepted needs the contract (C101_short_writes_unnoticed: without it octets are lost unnoticed). C101_same_folder and C101_same_encode: the model with the calls recorded is the one of the other properties.")
claim("C102", "proved", ["C102_decode", "C102_no_escapes", "C102_encode", "C102_seven_bit", "C102_read_and_written", "C102_made_up"],
      "C102_made_up: line feed, double quote and replacement character are indeed made up.  URIs and numbers are texts of the Go library.")
claim("C103", "proved", ["C103_same", "C103_never_iff", "C103_how_far", "C103_one_text", "C103_caret", "C103_failing_writer_does_not_stop_it", "C103_nothing_written_is_false"],
      "The calls of the folder are those of the encode methods, one by one (Emit). C103_same: this Encode is the one of the other properties. C103_how_far with C103_one_text: exactly what is written when it does not return.")

claim("C104", "partial", ["C104_one_line_partial", "C104_call_size_partial", "C104_number_of_calls_partial", "C104_decoded_partial", "C104_decoded_one_line_partial", "C104_never_one_line_partial", "C104_never_call_size_partial", "C104_full_claim_is_false"],
      "False as stated: the name of a time zone that holds line feeds is handed over in one call (C104_full_claim_is_false). Proved for all calendars that break no line (Unbroken, the exact condition of C46), so for all that were read, and also when Encode does not return (C104_never_one_line_partial). What is missing: calendars with control characters in zone names, format types and library texts, for which it is false.")

claim("C105", "proved", ["C105_taken_for", "C105_written", "C105_validation", "C105_encode", "C105_read", "C105_comes_back", "C105_utf8", "C105_one", "C105_sample", "C105_encoder_rounds", "C105_encoder_returns", "C105_calls_same", "C105_calls_utf8"],
      "For all calendars; C105_read asks that the text has no fold in it (as C44), C105_comes_back has the hypotheses of C44_exact_partial on the calendar that comes back. C105_utf8: for strings that are UTF-8 this is the Encode of the other properties.")

claim("C106", "partial", ["C106_exactly", "C106_as_they_are", "C106_each_call", "C106_sent", "C106_folded_partial", "C106_sample", "C106_full_claim_is_false"],
      "False as stated: a LANGUAGE parameter with the octet 0xff passes validation and is written as it is (C106_full_claim_is_false). C106_exactly: the document is UTF-8 if and only if all parameters, URLs and zone names in it are; C106_sent: so is what the caller's writer is given, with its folds, for the calls of Write as the encode methods make them; C106_as_they_are: these strings are written octet by octet. C106_folded_partial is for any other division into writes, none of which may end within a character.")

claim("C107", "partial", ["C107_read_partial", "C107_same", "C107_eager", "C107_untouched", "C107_all_partial", "C107_decode_partial", "C107_decode_eager_partial", "C107_scribbled", "C107_full_claim_is_false"],
      "False as stated: a reader that delivers nothing, returns no error and has changed the octet it was given decides whether a CR is found again (C107_scribbled). Proved for all readers that leave the slice alone in this one case, so for all that always deliver something or return an error (C107_eager), and for all that do not use the rest (C107_untouched). What is missing: the readers of the counterexample.")
claim("C108", "proved", ["C108_sequence", "C108_lawful", "C108_decodes", "C108_schedule", "C108_schedule_through", "C108_arrays", "C108_scribbled_decode", "C108_scribbled_encode", "C108_scribbled_true", "C108_needs_the_contract"],
      "For all sequences and all schedules where the writers do not change the marker of a fold, TRUE and FALSE, so for all that keep to the contract of io.Writer (C108_lawful), and without a hypothesis for calls of Decode alone (C108_decodes). A writer that breaks the contract does change later calls of Encode and Decode, by other callers as well (C108_scribbled_decode, C108_scribbled_encode, C108_scribbled_true). A call of folder.Write or unfolder.Read is one step of a schedule.")

claim("C109", "proved", ["C109_settled", "C109_asks", "C109_stays", "C109_calendar", "C109_same", "C109_returns"],
      "For all texts: C109_asks and C109_settled are equivalences. For octets and readers (C109_returns) what was read before each call does not decide the result, or ends in the middle of a character. When the caller's reader is called by the unfolding reader is C69.")
claim("C110", "partial", ["C110_full_claim_is_false", "C110_second_fails", "C110_any_pieces", "C110_octet_between_partial"],
      "False, for all pairs of calendars: the first call takes the first octet of the second calendar, and the second call says that this is not a calendar (C110_second_fails). C110_any_pieces: in whatever pieces they come, folded or not, some of what is behind the first calendar is taken by the first call, and no later call gets it. Both are returned if one more octet, not SPACE, comes between them.")

claim("C111", "proved", ["C111_phrases", "C111_taken_apart", "C111_decode", "C111_accepts", "C111_line_ends", "C111_never_unknown", "C111_ends_with_line_end", "C111_slices"],
  "Each function of tokeniser.go is modelled by itself (Tokens.lean), with the tokens and the phraser that asks for them; the theorems show that this reads the same content lines as parseLine, on which the other properties are stated.")
claim("C112", "proved", ["C112_duration", "C112_text_piece", "C112_text", "C112_text_list", "C112_offset", "C112_escapes", "C112_write_escapes", "C112_same"],
  "The code of these functions is modelled a second time, with every call of the string tokeniser (Scanned.lean), and shown to be the functions on texts that the other properties are stated about. That decoded escapes are kept besides, and that escaping may never end, is stated exactly.")
claim("C113", "proved", ["C113_never_another", "C113_goes_on", "C113_returned", "C113_unnoticed", "C113_reported", "C113_as_end", "C113_broken_off", "C113_complete"],
      "For all treatments of a failure by the parser library (a parameter): it is reported, or taken for the end of the text, when there is nothing left to look at. C113_broken_off and C113_complete, for the octets of the caller's reader, are for readers that do not cut fold markers (see C07) and calendars that are written line by line (see C46).")
claim("C114", "partial", ["C114_exactly_partial", "C114_folded_partial", "C114_hangs_partial", "C114_stuck_partial", "C114_before_fold_partial", "C114_returns_partial", "C114_full_claim_is_false"],
      "False for every calendar with a line of more than 75 octets: a fold is given to a call of Write of its own, and the unfolding reader does not get past a fold that is delivered alone, so Decode never returns (and Encode neither, being blocked in the pipe). For calendars that are written line by line (see C46): Decode returns exactly if no line has more than 75 octets, and then the same as from a file. C114_before_fold_partial is for texts that would not be read as a calendar: the only results are those that the text in front of the first fold decides.")
claim("C115", "proved", ["C115_short_lines", "C115_exactly", "C115_no_place", "C115_full_lines", "C115_only_way", "C115_shortest"],
      "C115_no_place, C115_full_lines and C115_only_way are for texts without CR LF SPACE, in which every line that begins with a space is from a fold.")
claim("C116", "proved", ["C116_runs", "C116_runs_75", "C116_exact", "C116_encode", "C116_long_lines"],
      "For all octets, all calls and all writers, failing ones too.  C116_exact: neither 79 nor 177 can be made smaller.")

claim("C117", "proved", ["C117_at_most", "C117_at_least", "C117_decode", "C117_one_by_one", "C117_no_folds"],
      "The last part supposes buffers of two octets or more and that the end comes with a call of its own.")

claim("C118", "proved", ["C118_calls", "C118_text", "C118_encode", "C118_encode_text", "C118_the_text", "C118_per_property"],
      "")

claim("C119", "partial", ["C119_first_part", "C119_text_partial", "C119_file_partial", "C119_pieces_partial", "C119_not_read_partial", "C119_last_octets", "C119_full_claim_is_false"],
      "False as stated: without the line end behind its last line the calendar is read, so that a writer may fail at the last two octets, and the calendar that is read is then the one read from the whole. "
      "Apart from that it is proved (C119_text_partial is exact), for calendars without line ends in zone names and URIs, for files read at once or in pieces that do not cut folds.")
claim("C120", "partial", ["C120_left_partial", "C120_octets_partial", "C120_octets_sample", "C120_retried_partial", "C120_file_partial", "C120_pieces_partial", "C120_exactly_partial", "C120_never_mixed_partial", "C120_spoilt_partial", "C120_sample"],
      "Proved, as an equivalence, for the octets of the file, broken off anywhere, also inside of a fold or of a character, and for the text; for files read at once, or in pieces that do not cut fold markers, also through the reader. For calendars that are written line by line (see C46). Missing: other calendars, and pieces that cut fold markers (see C07).")

claim("C121", "partial", ["C121_full_claim_is_false", "C121_appended_partial", "C121_space", "C121_two_partial", "C121_file_partial"],
      "False if what is written begins with SPACE: the line end behind END:VCALENDAR is then taken for a fold, and the line goes on (C121_space says what is read then; C121_full_claim_is_false). Proved for everything else, for calendars that are written line by line (see C46), and for two calendars in one file, the second one whole or not.")

with open(os.path.join(ROOT, "MANIFEST.json"), "w") as f:
    json.dump({"claims": CLAIMS}, f, indent=1, ensure_ascii=False)
    f.write("\n")
