{
 "claims": [
  {
   "property": "C01",
   "status": "partial",
   "theorems": [
    "Ics.Props.C01_lines_at_most_75_octets",
    "Ics.Props.C01_encode_lines_partial",
    "Ics.Props.C01_any_lines_partial",
    "Ics.Props.C01_decoded_partial",
    "Ics.Props.C01_zone_name_long_line",
    "Ics.Props.C01_full_claim_is_false"
   ],
   "note": "The first theorem is the claim for the writes of its quantifier.  For every calendar it is false: a time in a zone whose name holds lone carriage returns (time.FixedZone) is written as a line of 93 octets.  It holds for every calendar that is written line by line (C46), so for every one that Decode returned and Encode writes."
  },
  {
   "property": "C02",
   "status": "proved",
   "theorems": [
    "Ics.Props.C02_fold_never_splits_characters",
    "Ics.Props.C02_lines_utf8",
    "Ics.Props.C96_broken_between_pieces"
   ],
   "note": ""
  },
  {
   "property": "C03",
   "status": "proved",
   "theorems": [
    "Ics.Props.C03_folding_is_transparent",
    "Ics.Props.C96_transparent",
    "Ics.Props.C96_broken_between_pieces"
   ],
   "note": ""
  },
  {
   "property": "C04",
   "status": "proved",
   "theorems": [
    "Ics.Props.C04_write_granularity_irrelevant",
    "Ics.Props.C04_write_returns_length"
   ],
   "note": ""
  },
  {
   "property": "C05",
   "status": "proved",
   "theorems": [
    "Ics.Props.C05_failing_writer",
    "Ics.Props.C05_error_is_sticky"
   ],
   "note": ""
  },
  {
   "property": "C07",
   "status": "partial",
   "theorems": [
    "Ics.Props.C07_unfolding_partial",
    "Ics.Props.C07_no_folds_any_chunking_partial",
    "Ics.Props.C07_single_delivery_partial",
    "Ics.Props.C07_octet_by_octet_partial",
    "Ics.Props.C07_uncut_partial",
    "Ics.Props.C07_cut_is_wrong",
    "Ics.Props.C07_exactly_partial",
    "Ics.Props.C07_decode_partial",
    "Ics.Props.C07_same_result_partial",
    "Ics.Props.C07_marker_at_the_end",
    "Ics.Props.C07_full_claim_is_false",
    "Ics.Props.C07_result_depends_on_chunking"
   ],
   "note": "The full claim is false for this code: a proved counterexample; proved for readers cutting outside markers and line ends, for marker-free documents under any chunking, for a document delivered by one call, and for every document without CR CR read octet by octet.  Exact for buffers from five octets up and readers that deliver something with every call and the end with a call of its own: if the unfolded document has no marker and no marker is followed by SPACE, a run that ends gives the unfolded document if and only if none of the calls of the reader cut a marker (C07_exactly_partial)."
  },
  {
   "property": "C08",
   "status": "partial",
   "theorems": [
    "Ics.Props.C08_read_terminates_partial",
    "Ics.Props.C08_marker_removal_terminates_iff",
    "Ics.Props.C08_read_can_hang",
    "Ics.Props.C08_read_hangs_iff",
    "Ics.Props.C08_reading_hangs_iff",
    "Ics.Props.C08_decode_hangs_iff",
    "Ics.Props.C08_same_result",
    "Ics.Props.C08_only_the_calls_made",
    "Ics.Props.C08_full_claim_is_false"
   ],
   "note": "The full claim is false: Read hangs on a piece holding a marker and ending in a rotation of CR LF SPACE; exact condition proved, for the loop, for one Read in any state, for all of the reading and for Decode (C08_decode_hangs_iff)."
  },
  {
   "property": "C09",
   "status": "partial",
   "theorems": [
    "Ics.Props.C07_unfolding_partial",
    "Ics.Props.C07_no_folds_any_chunking_partial",
    "Ics.Props.C09_well_cut_partial",
    "Ics.Props.C09_no_folds_partial",
    "Ics.Props.C09_uncut_partial",
    "Ics.Props.C09_space_invented",
    "Ics.Props.C09_octets_lost",
    "Ics.Props.C09_octet_lost_behind_cr",
    "Ics.Props.C09_full_claim_is_false",
    "Ics.Props.C09_false_for_lazy_readers"
   ],
   "note": "The full claim is false (an octet invented, octets lost); holds for well cut readers, for marker-free documents, and whenever none of the calls of the reader cut a marker."
  },
  {
   "property": "C10",
   "status": "proved",
   "theorems": [
    "Ics.Props.C10_print_parse",
    "Ics.Props.C10_print_parse_last",
    "Ics.Props.C10_document",
    "Ics.Props.C10_print_injective"
   ],
   "note": ""
  },
  {
   "property": "C11",
   "status": "proved",
   "theorems": [
    "Ics.Props.C11_parsed_lines_wellformed",
    "Ics.Props.C11_document",
    "Ics.Props.C11_accepted_document_is_its_lines"
   ],
   "note": ""
  },
  {
   "property": "C16",
   "status": "proved",
   "theorems": [
    "Ics.Props.C16_text_round_trip",
    "Ics.Props.C16_encoding_is_rfc_text",
    "Ics.Props.C16_rfc_text_decodes",
    "Ics.Props.C16_decoding_exact"
   ],
   "note": ""
  },
  {
   "property": "C17",
   "status": "proved",
   "theorems": [
    "Ics.Props.C17_mtext_round_trip",
    "Ics.Props.C17_encoding_is_rfc_list",
    "Ics.Props.C17_rfc_list_decodes",
    "Ics.Props.C17_decoding_exact"
   ],
   "note": ""
  },
  {
   "property": "C18",
   "status": "partial",
   "theorems": [
    "Ics.Props.C18_duration_round_trip_partial",
    "Ics.Props.C18_exactly",
    "Ics.Props.C18_weeks_drop_the_rest",
    "Ics.Props.C18_full_claim_is_false"
   ],
   "note": "The full claim is false: a duration with weeks and another unit loses the other unit; proved for all others."
  },
  {
   "property": "C19",
   "status": "partial",
   "theorems": [
    "Ics.Props.C19_rfc_durations_accepted_partial",
    "Ics.Props.C19_encoding_is_rfc",
    "Ics.Props.C19_accepted_are_items_partial",
    "Ics.Props.C19_decoded_in_range",
    "Ics.Props.C19_decoding_exact",
    "Ics.Props.C19_full_claim_is_false"
   ],
   "note": "All RFC durations are accepted with the right fields; the converse is false (P1M is accepted)."
  },
  {
   "property": "C20",
   "status": "partial",
   "theorems": [
    "Ics.Props.C20_offset_round_trip_partial",
    "Ics.Props.C20_exactly",
    "Ics.Props.C20_negative_offset_is_rfc_partial",
    "Ics.Props.C20_nonnegative_offset_is_not_rfc",
    "Ics.Props.C20_nonnegative_offset_with_sign_is_rfc",
    "Ics.Props.C20_rfc_offset_decodes",
    "Ics.Props.C20_accepted_offsets",
    "Ics.Props.C20_full_claim_is_false"
   ],
   "note": "Round trip for offsets below 100 hours; offsets >= 0 are written without the mandatory sign, so the grammar half is false."
  },
  {
   "property": "C25",
   "status": "proved",
   "theorems": [
    "Ics.Props.C25_binary_round_trip",
    "Ics.Props.C25_only_with_encoding",
    "Ics.Props.C25_encoding_is_base64",
    "Ics.Props.C25_decoding_exact"
   ],
   "note": ""
  },
  {
   "property": "C26",
   "status": "proved",
   "theorems": [
    "Ics.Props.C26_integer_round_trip",
    "Ics.Props.C26_exactly",
    "Ics.Props.C26_integer_exact",
    "Ics.Props.C26_boolean_round_trip",
    "Ics.Props.C26_boolean_rfc"
   ],
   "note": ""
  },
  {
   "property": "C21",
   "status": "partial",
   "theorems": [
    "Ics.Props.C21_datetime_round_trip_partial",
    "Ics.Props.C21_exactly",
    "Ics.Props.C21_date_exactly",
    "Ics.Props.C21_utc_round_trip_partial",
    "Ics.Props.C21_zoned_round_trip_partial",
    "Ics.Props.C21_timezone_written",
    "Ics.Props.C21_date_round_trip",
    "Ics.Props.C21_time_of_day_round_trip",
    "Ics.Props.C21_time_comes_back",
    "Ics.Props.C21_calendar_start",
    "Ics.Props.C21_calendar_step",
    "Ics.Props.C21_calendar_real",
    "Ics.Props.C21_ambiguous_times_collide",
    "Ics.Props.C21_fraction_lost",
    "Ics.Props.C21_full_claim_is_false"
   ],
   "note": "The full claim is false: fractions of a second are lost and ambiguous readings collide; proved for all other instants."
  },
  {
   "property": "C22",
   "status": "partial",
   "theorems": [
    "Ics.Props.C22_date_exact",
    "Ics.Props.C22_datetime_means",
    "Ics.Props.C22_time_means",
    "Ics.Props.C22_datetime_exact_partial",
    "Ics.Props.C22_zoned_exact_partial",
    "Ics.Props.C22_full_claim_is_false"
   ],
   "note": "Exact characterisation; dates satisfy the claim, date-times also accept fractional seconds (witness)."
  },
  {
   "property": "C23",
   "status": "partial",
   "theorems": [
    "Ics.Props.C23_recur_round_trip_partial",
    "Ics.Props.C23_exactly",
    "Ics.Props.C23_utc_round_trip_partial",
    "Ics.Props.C23_occurrence_not_checked",
    "Ics.Props.C23_until_dropped",
    "Ics.Props.C23_full_claim_is_false"
   ],
   "note": "The full claim is false: validation accepts rules with any BYDAY occurrence and with both COUNT and UNTIL, which do not come back; proved for all rules in the ranges of RFC 5545."
  },
  {
   "property": "C24",
   "status": "proved",
   "theorems": [
    "Ics.Props.C24_decoded_in_range",
    "Ics.Props.C24_frequency_given",
    "Ics.Props.C24_panics_only_on_plus_digit",
    "Ics.Props.C24_panics_iff"
   ],
   "note": ""
  },
  {
   "property": "C27",
   "status": "partial",
   "theorems": [
    "Ics.Props.C27_period_round_trip_partial",
    "Ics.Props.C27_exactly",
    "Ics.Props.C27_unzoned_period_round_trip_partial",
    "Ics.Props.C27_decoded_accepted_partial",
    "Ics.Props.C27_zoned_periods_rejected",
    "Ics.Props.C27_duration_lost",
    "Ics.Props.C27_full_claim_is_false"
   ],
   "note": "The full claim is false: every decoded period with a named zone and an end is rejected by validation, and an end hides the duration; proved for the others."
  },
  {
   "property": "C29",
   "status": "partial",
   "theorems": [
    "Ics.Props.C29_round_trip_partial",
    "Ics.Props.C29_encoder_diverges",
    "Ics.Props.C29_encoder_rounds",
    "Ics.Props.C29_decoding_exact_partial",
    "Ics.Props.C29_escapes_kept",
    "Ics.Props.C29_full_claim_is_false"
   ],
   "note": "Exact: the encoder returns only for strings without newline, caret, quote (else it loops for ever); the decoder keeps escape sequences besides decoding them. Full claim refuted."
  },
  {
   "property": "C31",
   "status": "partial",
   "theorems": [
    "Ics.Props.C31_round_trip_partial",
    "Ics.Props.C31_exactly",
    "Ics.Props.C31_uris_rejected",
    "Ics.Props.C31_unquoted_uri_rejected",
    "Ics.Props.C31_uri_splits_line",
    "Ics.Props.C31_empty_vanishes",
    "Ics.Props.C31_unnamed_values_collapse",
    "Ics.Props.C31_full_claim_is_false"
   ],
   "note": "Round trip for the values listed in Spec.GoodParam; URIs are written without the quotes decoding demands; empty values vanish. Full claim refuted."
  },
  {
   "property": "C32",
   "status": "proved",
   "theorems": [
    "Ics.Props.C32_no_repeated_parameter",
    "Ics.Props.C32_repeated_error",
    "Ics.Props.C32_unknown_parameters_ignored",
    "Ics.Props.C32_tzid_matters"
   ],
   "note": "All property types of the tables; TZID and ENCODING are the only other parameters that matter."
  },
  {
   "property": "C33",
   "status": "proved",
   "theorems": [
    "Ics.Props.C33_decode_one_alternative",
    "Ics.Props.C33_valid_one_alternative"
   ],
   "note": "All property types of the tables."
  },
  {
   "property": "C06",
   "status": "proved",
   "theorems": [
    "Ics.Props.C06_nothing_written"
   ],
   "note": ""
  },
  {
   "property": "C28",
   "status": "partial",
   "theorems": [
    "Ics.Props.C28_validation_is_inverted",
    "Ics.Props.C28_finite_rejected",
    "Ics.Props.C28_value_claim_is_false",
    "Ics.Props.C28_encode_rejects_finite",
    "Ics.Props.C28_paris_rejected",
    "Ics.Props.C28_full_claim_is_false"
   ],
   "note": "The claim is false: validation is inverted, and Encode rejects every calendar with a position that has a finite coordinate."
  },
  {
   "property": "C30",
   "status": "partial",
   "theorems": [
    "Ics.Props.C30_termination_exact_partial",
    "Ics.Props.C30_caret_diverges",
    "Ics.Props.C30_full_claim_is_false"
   ],
   "note": "Exact: Encode returns for every calendar unless it is valid and has a newline, a caret or a quote in the text of a parameter; then it never returns.  So the full claim is refuted."
  },
  {
   "property": "C38",
   "status": "partial",
   "theorems": [
    "Ics.Props.C38_exactly_partial",
    "Ics.Props.C38_both_sides",
    "Ics.Props.C38_each_refused",
    "Ics.Props.C38_read_as_other",
    "Ics.Props.C38_two_ends",
    "Ics.Props.C38_full_claim_is_false",
    "Ics.Props.C44_round_trip_partial"
   ],
   "note": "The claim is false: an event with DTEND and DURATION is valid and encoded, and Decode rejects it.  Exact: of the valid calendars that Encode writes, those are read that keep the rules and whose parameters and values other than LAST-MODIFIED are readable (no URI in a parameter, years of four digits, known zones, weeks up to 53, integers of 32 bits, no negative offset written as zero); supposing only that URIs, floats, names of zones and format types have no control characters."
  },
  {
   "property": "C44",
   "status": "partial",
   "theorems": [
    "Ics.Props.C44_round_trip_partial",
    "Ics.Props.C83_exactly_these_come_back",
    "Ics.Props.C44_exact_partial",
    "Ics.Props.C44_octets_partial",
    "Ics.Props.C44_full_claim_is_false",
    "Ics.Props.C44_what_comes_back_partial",
    "Ics.Props.C44_octets_are_the_text",
    "Ics.Props.C44_octets_exactly_partial",
    "Ics.Props.C44_sample"
   ],
   "note": "Whole calendars at the level of text and of octets; excludes parameters and values that do not come back (see C18-C31) and LAST-MODIFIED. Full claim refuted.  C44_what_comes_back_partial: for every calendar that is written, whether it is read, and what exactly is found then; C44_octets_exactly_partial says the same of the octets."
  },
  {
   "property": "C46",
   "status": "partial",
   "theorems": [
    "Ics.Props.C46_exact_lines_partial",
    "Ics.Props.C46_zone_name_injects",
    "Ics.Props.C46_format_type_breaks_line",
    "Ics.Props.C46_full_claim_is_false",
    "Ics.Props.C46_exactly_partial",
    "Ics.Props.C46_seen_partial",
    "Ics.Props.C46_decoded_partial",
    "Ics.Props.C46_broken"
   ],
   "note": "Refuted for zone names and format types.  C46_exactly_partial: what is written is line by line the outline of the calendar if and only if no URI, float, format type or time zone name is written with control characters; C46_seen_partial: then the reader sees those lines; C46_decoded_partial: every decoded calendar is such (on a library that writes what it read without control characters)."
  },
  {
   "property": "C47",
   "status": "partial",
   "theorems": [
    "Ics.Props.C47_lost",
    "Ics.Props.C47_always_lost",
    "Ics.Props.C47_full_claim_is_false"
   ],
   "note": "The claim is false: LAST-MODIFIED never survives, in any calendar covered by C44."
  },
  {
   "property": "C48",
   "status": "partial",
   "theorems": [
    "Ics.Props.C48_names_return_partial",
    "Ics.Props.C48_last_modified_unread",
    "Ics.Props.C48_full_claim_is_false"
   ],
   "note": "All fields of all sections but LAST-MODIFIED, for which it is refuted."
  },
  {
   "property": "C12",
   "status": "partial",
   "theorems": [
    "Ics.Props.C12_no_panic_partial",
    "Ics.Props.C12_open_alarm",
    "Ics.Props.C12_plus_day",
    "Ics.Props.C12_truncated_alarm",
    "Ics.Props.C12_panics_iff",
    "Ics.Props.C12_panics_iff_partial",
    "Ics.Props.C12_full_claim_is_false"
   ],
   "note": "Decode panics at most if the document ends inside an alarm, or a rule has a plus sign and a digit for a day; both do happen.  Refuted.  C12_panics_iff says exactly which documents these are."
  },
  {
   "property": "C13",
   "status": "partial",
   "theorems": [
    "Ics.Props.C13_closed_partial",
    "Ics.Props.C13_every_document",
    "Ics.Props.C13_begin_and_end",
    "Ics.Props.C13_extra_end",
    "Ics.Props.C13_full_claim_is_false"
   ],
   "note": "Holds if BEGIN, END and ACTION are written in upper case; refuted in general (an alarm ended by `end:VALARM`).  C13_every_document: it is enough that BEGIN and END are in upper case in alarms."
  },
  {
   "property": "C14",
   "status": "proved",
   "theorems": [
    "Ics.Props.C14_rest_ignored",
    "Ics.Props.C14_append"
   ],
   "note": ""
  },
  {
   "property": "C34",
   "status": "partial",
   "theorems": [
    "Ics.Props.C34_required_partial",
    "Ics.Props.C34_names_partial",
    "Ics.Props.C34_every_document",
    "Ics.Props.C34_required_present",
    "Ics.Props.C34_full_claim_is_false"
   ],
   "note": "From exactly one line if BEGIN, END and ACTION are in upper case; for every accepted document where the blocks are divided as the decoder does (C34_every_document); in the result always.  Refuted in general."
  },
  {
   "property": "C35",
   "status": "partial",
   "theorems": [
    "Ics.Props.C35_single_partial",
    "Ics.Props.C35_names_partial",
    "Ics.Props.C35_every_document",
    "Ics.Props.C35_two_actions",
    "Ics.Props.C35_full_claim_is_false"
   ],
   "note": "Holds if BEGIN, END and ACTION are in upper case (for all properties but ACTION itself), and for every accepted document where the blocks are divided as the decoder does (C35_every_document).  Refuted in general."
  },
  {
   "property": "C36",
   "status": "proved",
   "theorems": [
    "Ics.Props.C36_rules",
    "Ics.Props.C36_lines_partial",
    "Ics.Props.C36_every_document"
   ],
   "note": ""
  },
  {
   "property": "C37",
   "status": "partial",
   "theorems": [
    "Ics.Props.C37_none_partial",
    "Ics.Props.C37_inverted",
    "Ics.Props.C37_duration_only",
    "Ics.Props.C37_email_rejected",
    "Ics.Props.C37_full_claim_is_false"
   ],
   "note": "The claim is false: EMAIL and URI alarms are accepted only if they break it, the rule is not checked for AUDIO and DISPLAY."
  },
  {
   "property": "C39",
   "status": "partial",
   "theorems": [
    "Ics.Props.C39_order_partial",
    "Ics.Props.C39_every_document",
    "Ics.Props.C39_full_claim_is_false"
   ],
   "note": "Holds if BEGIN, END and ACTION are in upper case, and for all accepted documents where the blocks are divided as the decoder does (C39_every_document).  Refuted in general."
  },
  {
   "property": "C40",
   "status": "partial",
   "theorems": [
    "Ics.Props.C40_foreign",
    "Ics.Props.C40_unknown_partial",
    "Ics.Props.C40_everywhere",
    "Ics.Props.C40_everywhere_alarm",
    "Ics.Props.C40_action_outside",
    "Ics.Props.C40_full_claim_is_false"
   ],
   "note": "Unconditional for names that no component knows, at any place and for every result.  For names unknown only to the component they are in: closed blocks before the place must have BEGIN, END and ACTION in upper case; without that the claim is refuted.  C40_everywhere: for all documents, in any case, in the component that the decoder has open."
  },
  {
   "property": "C41",
   "status": "partial",
   "theorems": [
    "Ics.Props.C41_block_partial",
    "Ics.Props.C41_everywhere",
    "Ics.Props.C41_only_closed",
    "Ics.Props.C41_in_alarm",
    "Ics.Props.C41_lower_case",
    "Ics.Props.C41_full_claim_is_false"
   ],
   "note": "Holds outside of alarms for blocks with names in upper case, for every result.  Refuted inside alarms and for nested names in lower case.  C41_everywhere and C41_only_closed: for all documents, with exactly which blocks are accepted."
  },
  {
   "property": "C42",
   "status": "proved",
   "theorems": [
    "Ics.Props.C42_order",
    "Ics.Props.C42_swap"
   ],
   "note": ""
  },
  {
   "property": "C43",
   "status": "partial",
   "theorems": [
    "Ics.Props.C43_names_partial",
    "Ics.Props.C43_begin_partial",
    "Ics.Props.C43_end_partial",
    "Ics.Props.C43_begin_everywhere",
    "Ics.Props.C43_end_everywhere",
    "Ics.Props.C43_end_name_everywhere",
    "Ics.Props.C43_end_name",
    "Ics.Props.C43_action",
    "Ics.Props.C43_alarm_end",
    "Ics.Props.C43_spelling",
    "Ics.Props.C43_full_claim_is_false"
   ],
   "note": "Holds for property and parameter names, for BEGIN lines in known components, for the END keyword outside of alarms.  Refuted for names behind END, ACTION and END in alarms, and nested unknown blocks.  The theorems ending in _everywhere hold for all documents and every result."
  },
  {
   "property": "C15",
   "status": "partial",
   "theorems": [
    "Ics.Props.C15_no_part_is_decoded_partial",
    "Ics.Props.C15_octets_partial",
    "Ics.Props.C15_pieces_partial",
    "Ics.Props.C15_zone_name_ends_document",
    "Ics.Props.C15_full_claim_is_false",
    "Ics.Props.C15_any_part_partial",
    "Ics.Props.C15_any_octets_partial",
    "Ics.Props.C15_any_pieces_partial",
    "Ics.Props.C15_decoded_partial",
    "Ics.Props.C15_exactly_partial",
    "Ics.Props.C15_octets_exactly_partial"
   ],
   "note": "Holds, for text and for octets cut anywhere (but for the line end at the very end, without which the calendar is read as well), for every calendar that is written line by line (C46_exactly_partial), so for every decoded one; refuted in general by a zone name that holds END:VCALENDAR."
  },
  {
   "property": "C45",
   "status": "partial",
   "theorems": [
    "Ics.Props.C45_valid_iff_partial",
    "Ics.Props.C45_typed",
    "Ics.Props.C45_period",
    "Ics.Props.C45_zero_time",
    "Ics.Props.C45_position",
    "Ics.Props.C45_zone_period",
    "Ics.Props.C45_full_claim_is_false"
   ],
   "note": "A decoded calendar is typed, and valid exactly if it has no zero time, no position and no period that ends before it starts or has a zone.  Refuted in general, for each of these."
  },
  {
   "property": "C49",
   "status": "partial",
   "theorems": [
    "Ics.Props.C49_accepted_partial",
    "Ics.Props.C49_every_document",
    "Ics.Props.C49_sound_partial",
    "Ics.Props.C49_scale_ignored",
    "Ics.Props.C49_full_claim_is_false"
   ],
   "note": "Exact for documents with BEGIN, END, ACTION and component names in upper case, against lists written down from RFC 5545 with the library's differences listed (changes, libLaws); and, with blocks divided as the decoder does, for all documents (C49_every_document).  Refuted against the lists of the RFC itself."
  },
  {
   "property": "C50",
   "status": "proved",
   "theorems": [
    "Ics.Props.C50_reads",
    "Ics.Props.C50_no_other",
    "Ics.Props.C50_parameter_order",
    "Ics.Props.C50_default_type"
   ],
   "note": ""
  },
  {
   "property": "C51",
   "status": "partial",
   "theorems": [
    "Ics.Props.C51_kept_partial",
    "Ics.Props.C51_todo_rule_lost",
    "Ics.Props.C51_full_claim_is_false"
   ],
   "note": "Exactly which properties are dropped is proved; the claim is false, for instance for RRULE in VTODO."
  },
  {
   "property": "C52",
   "status": "partial",
   "theorems": [
    "Ics.Props.C52_no_lists_partial",
    "Ics.Props.C52_every_document",
    "Ics.Props.C52_single_values",
    "Ics.Props.C52_full_claim_is_false"
   ],
   "note": "The full claim is false: no accepted document has a list of two or more times in these properties.  Single dates and date-times are read."
  },
  {
   "property": "C53",
   "status": "partial",
   "theorems": [
    "Ics.Props.C53_none_partial",
    "Ics.Props.C53_every_document",
    "Ics.Props.C53_full_claim_is_false"
   ],
   "note": "The full claim is false: no accepted document has a REQUEST-STATUS of the form of RFC 5545."
  },
  {
   "property": "C54",
   "status": "partial",
   "theorems": [
    "Ics.Props.C54_related_ignored",
    "Ics.Props.C54_full_claim_is_false"
   ],
   "note": "The claim is false: RELATED makes no difference to the result, in any document."
  },
  {
   "property": "C55",
   "status": "proved",
   "theorems": [
    "Ics.Props.C55_alike"
   ],
   "note": ""
  },
  {
   "property": "C56",
   "status": "partial",
   "theorems": [
    "Ics.Props.C56_decode_exact",
    "Ics.Props.C56_rfc_rules_read",
    "Ics.Props.C56_written_rules_partial",
    "Ics.Props.C56_beyond_the_rfc",
    "Ics.Props.C56_full_claim_is_false"
   ],
   "note": "Every RFC 5545 rule is read as described, and the accepted language is characterised exactly. It is larger than that of RFC 5545 (repeated FREQ, COUNT, UNTIL; '+MO'), so 'accepts nothing else' is false. Writing: for UNTIL values that C23 covers."
  },
  {
   "property": "C57",
   "status": "proved",
   "theorems": [
    "Ics.Props.C57_values_exact",
    "Ics.Props.C57_one_meaning"
   ],
   "note": "For all fourteen value types: what is accepted and what it means, by a description in Spec/Meaning, Spec/TimeMeaning, Spec/Rule and Spec/Values that does not use the decoders. What the URL and number parsers of the Go library accept is a parameter."
  },
  {
   "property": "C58",
   "status": "proved",
   "theorems": [
    "Ics.Props.C58_parameters_exact",
    "Ics.Props.C58_single",
    "Ics.Props.C58_unknown_names",
    "Ics.Props.C58_range"
   ],
   "note": "For all parameter types of properties, against ParamMeans. RFC 6868 escapes are read as the code does (C29 shows where this is wrong)."
  },
  {
   "property": "C59",
   "status": "proved",
   "theorems": [
    "Ics.Props.C59_valid_exact",
    "Ics.Props.C59_encode_refuses",
    "Ics.Props.C59_encode_never_panics",
    "Ics.Props.C59_go_type",
    "Ics.Props.C59_go_type_property"
   ],
   "note": "For all calendars that the Go types allow; a nil calendar and alarm types defined outside the package are not modelled."
  },
  {
   "property": "C60",
   "status": "partial",
   "theorems": [
    "Ics.Props.C60_exactly_partial",
    "Ics.Props.C60_both_sides",
    "Ics.Props.C60_again_partial",
    "Ics.Props.C60_stable_partial",
    "Ics.Props.C60_identity_unseen",
    "Ics.Props.C60_uri_parameter",
    "Ics.Props.C60_false_parameter",
    "Ics.Props.C60_full_claim_is_false"
   ],
   "note": "Proved for all decoded calendars that pass validation and have no LAST-MODIFIED, no URI or empty text parameter, no RSVP=FALSE, no caret in a parameter, no fraction of a second, no zero time as an end, and only URIs and floats that the Go library reads back.  C60_exactly_partial: exactly these, for libraries that write URIs and floats without control characters.  Refuted without these."
  },
  {
   "property": "C61",
   "status": "partial",
   "theorems": [
    "Ics.Props.C61_hangs_exact_partial",
    "Ics.Props.C61_caret_hangs",
    "Ics.Props.C61_full_claim_is_false"
   ],
   "note": "Exactly which decoded calendars make Encode run forever: those with a caret in the text of a parameter.  So the claim is false."
  },
  {
   "property": "C62",
   "status": "partial",
   "theorems": [
    "Ics.Props.C62_once_partial",
    "Ics.Props.C62_west_partial",
    "Ics.Props.C62_east_partial",
    "Ics.Props.C62_shown",
    "Ics.Props.C62_accepts",
    "Ics.Props.C62_rfc_unique",
    "Ics.Props.C62_east_twice",
    "Ics.Props.C62_west_gap",
    "Ics.Props.C62_new_york",
    "Ics.Props.C62_exactly_partial",
    "Ics.Props.C62_half",
    "Ics.Props.C62_full_claim_is_false"
   ],
   "note": "Right for readings that occur once, for all that occur west of Greenwich, and for all that do not occur twice east of Greenwich. Refuted: twice in the east the last is taken, in a gap in the west the offset behind it. C62_exactly_partial says exactly which readings are decoded as the RFC says, in any zone."
  },
  {
   "property": "C63",
   "status": "partial",
   "theorems": [
    "Ics.Props.C63_fits_partial",
    "Ics.Props.C63_unfolded_partial",
    "Ics.Props.C63_octet_by_octet_partial",
    "Ics.Props.C63_uncut_partial",
    "Ics.Props.C63_hangs",
    "Ics.Props.C63_corrupts",
    "Ics.Props.C63_full_claim_is_false"
   ],
   "note": "False as stated: for every buffer size from 109 octets up there is a calendar that Encode writes and that Decode, reading with that buffer, never finishes (C63_hangs); with others the text is changed (C63_corrupts).  Proved for documents that fit the buffer, and for documents in which no line had to be folded, with buffers of any sizes from two octets up, for all documents read octet by octet, and for all pieces and buffers whenever none of the calls of the reader cut a marker."
  },
  {
   "property": "C64",
   "status": "partial",
   "theorems": [
    "Ics.Props.C64_space_partial",
    "Ics.Props.C64_space_pieces_partial",
    "Ics.Props.C64_uncut_partial",
    "Ics.Props.C64_tab",
    "Ics.Props.C64_full_claim_is_false"
   ],
   "note": "False for HTAB: a CR LF HTAB inside of the calendar always makes Decode fail (C64_tab).  Proved for all ways to fold with SPACE, when the document is read at once and has no bad end (C08), or in pieces that end outside of markers and line ends, or in any pieces that do not cut a marker."
  },
  {
   "property": "C65",
   "status": "proved",
   "theorems": [
    "Ics.Props.C65_settled_or_undecided",
    "Ics.Props.C65_not_both",
    "Ics.Props.C65_answer_stands"
   ],
   "note": ""
  },
  {
   "property": "C66",
   "status": "partial",
   "theorems": [
    "Ics.Props.C66_components_partial",
    "Ics.Props.C66_merge_partial",
    "Ics.Props.C66_everywhere",
    "Ics.Props.C66_which_lines",
    "Ics.Props.C66_lower_case",
    "Ics.Props.C66_full_claim_is_false"
   ],
   "note": "Holds, both ways, for documents with BEGIN, END, ACTION and the names of components in upper case; refuted without that.  C66_everywhere: for all documents and every result, in any case, for lines between two places where the decoder has nothing but the calendar open; C66_which_lines says exactly which lines these are."
  },
  {
   "property": "C67",
   "status": "partial",
   "theorems": [
    "Ics.Props.C67_injective_partial",
    "Ics.Props.C67_octets_partial",
    "Ics.Props.C67_empty_parameter",
    "Ics.Props.C67_full_claim_is_false",
    "Ics.Props.C67_found_partial"
   ],
   "note": "Holds for the calendars of C44, for texts and octets.  C67_found_partial: two calendars of one text differ at most in what is not found in any text (Spec/Found).  Refuted in general: an empty parameter is written like none."
  },
  {
   "property": "C68",
   "status": "proved",
   "theorems": [
    "Ics.Props.C68_method",
    "Ics.Props.C68_rfc_names",
    "Ics.Props.C68_properties",
    "Ics.Props.C68_parameters",
    "Ics.Props.C68_other_numbers",
    "Ics.Props.C68_closed_parameters",
    "Ics.Props.C68_spelling"
   ],
   "note": ""
  },
  {
   "property": "C69",
   "status": "partial",
   "theorems": [
    "Ics.Props.C69_asked_again",
    "Ics.Props.C69_always_waits",
    "Ics.Props.C69_one_more_partial",
    "Ics.Props.C69_any_pieces",
    "Ics.Props.C69_any_pieces_folded",
    "Ics.Props.C69_never_less",
    "Ics.Props.C69_full_claim_is_false"
   ],
   "note": "False as stated, and for every calendar: C69_always_waits shows that the reader is asked again before anything is passed on, since what Encode writes ends in CR LF. C69_asked_again says exactly for which deliveries the reader is asked again. C69_one_more_partial: one octet other than SPACE, or the end of the input, is enough for a document without folds. C69_any_pieces: that it waits is so in whatever pieces the document comes in. C69_any_pieces_folded: the same with folds, if no piece ends inside one. C69_never_less: nor does it return a calendar while only a part of the document has come in."
  },
  {
   "property": "C70",
   "status": "partial",
   "theorems": [
    "Ics.Props.C70_cut",
    "Ics.Props.C70_cut_partial",
    "Ics.Props.C70_never_blamed",
    "Ics.Props.C70_full_claim_is_false"
   ],
   "note": "False as stated: a cut inside an alarm makes Decode panic. Proved that this is the only exception (C70_cut, for all documents)."
  },
  {
   "property": "C71",
   "status": "partial",
   "theorems": [
    "Ics.Props.C71_next_property",
    "Ics.Props.C71_first_wrong_line_partial",
    "Ics.Props.C71_one_line",
    "Ics.Props.C71_not_in_alarms",
    "Ics.Props.C71_full_claim_is_false"
   ],
   "note": "False inside alarms, whose lines are only looked at when the alarm is complete; proved for all other places, and that every result is settled by one line."
  },
  {
   "property": "C72",
   "status": "proved",
   "theorems": [
    "Ics.Props.C72_error_iff",
    "Ics.Props.C72_accepted_iff",
    "Ics.Props.C72_panic_iff",
    "Ics.Props.C72_one_fault",
    "Ics.Props.C72_undecided_iff",
    "Ics.Props.C72_next_line"
   ],
   "note": "For all documents; the faults are those of Spec/Fault.lean, an automaton with the open blocks as its state."
  },
  {
   "property": "C73",
   "status": "proved",
   "theorems": [
    "Ics.Props.C73_means",
    "Ics.Props.C73_one",
    "Ics.Props.C73_which",
    "Ics.Props.C73_property_errors",
    "Ics.Props.C73_value_errors"
   ],
   "note": "For all documents; the conditions are in Spec/Errors.lean. Errors of the standard library are one error (ext) in the model, and the error for a property that occurs twice has no name in the code."
  },
  {
   "property": "C74",
   "status": "proved",
   "theorems": [
    "Ics.Props.C74_exact",
    "Ics.Props.C74_one",
    "Ics.Props.C74_rfc"
   ],
   "note": "For all documents. The grammar is in Spec/Exact.lean; what a line of a property is read as is the decoder of its value (C50, C57, C58 say what that is)."
  },
  {
   "property": "C75",
   "status": "proved",
   "theorems": [
    "Ics.Props.C75_line_by_line",
    "Ics.Props.C75_one_line"
   ],
   "note": ""
  },
  {
   "property": "C76",
   "status": "partial",
   "theorems": [
    "Ics.Props.C76_same_reading_partial",
    "Ics.Props.C76_utc_partial",
    "Ics.Props.C76_same_zones_partial",
    "Ics.Props.C76_unknown_zone",
    "Ics.Props.C76_local_time",
    "Ics.Props.C76_zero_time",
    "Ics.Props.C76_full_claim_is_false",
    "Ics.Props.C76_accepted_exactly_partial",
    "Ics.Props.C76_same_exactly_partial",
    "Ics.Props.C76_zones_exactly_partial",
    "Ics.Props.C76_instants_exactly_partial",
    "Ics.Props.C76_only_what_is_read",
    "Ics.Props.C76_z_same"
   ],
   "note": "False as stated: zones unknown to the other machine, local times, and rules with COUNT and UNTIL at the zero of package time. Without the first and the last, the calendars are the same but for times, which have the same reading in the same zone; they are the same if the times are in UTC or the machines have the same zones. Exactly: a document accepted on one machine is accepted on another iff that one knows the zones of the times that are read and the rules are rules there, and gives the same calendar iff these times are the same instants there."
  },
  {
   "property": "C77",
   "status": "partial",
   "theorems": [
    "Ics.Props.C77_not_checked",
    "Ics.Props.C77_utc_exactly_partial",
    "Ics.Props.C77_full_claim_is_false"
   ],
   "note": "False, for every accepted document with such a time: the Z may be left out. Proved exactly which lines give times in UTC."
  },
  {
   "property": "C78",
   "status": "partial",
   "theorems": [
    "Ics.Props.C78_not_checked",
    "Ics.Props.C78_int32_partial",
    "Ics.Props.C78_full_claim_is_false"
   ],
   "note": "False, for every accepted document with such a number: any number of 32 bits may be there."
  },
  {
   "property": "C79",
   "status": "partial",
   "theorems": [
    "Ics.Props.C79_not_compared",
    "Ics.Props.C79_exchanged",
    "Ics.Props.C79_full_claim_is_false"
   ],
   "note": "False, for every accepted document with an event that has both: they may be exchanged."
  },
  {
   "property": "C80",
   "status": "partial",
   "theorems": [
    "Ics.Props.C80_machine_zones",
    "Ics.Props.C80_refused_partial",
    "Ics.Props.C80_every_document",
    "Ics.Props.C80_own_zone",
    "Ics.Props.C80_full_claim_is_false"
   ],
   "note": "False: every time of an accepted document is in UTC or in a zone of the machine; other names make the document unreadable, whatever it defines."
  },
  {
   "property": "C81",
   "status": "partial",
   "theorems": [
    "Ics.Props.C81_expressible",
    "Ics.Props.C81_written_partial",
    "Ics.Props.C81_exact_partial",
    "Ics.Props.C81_offsets",
    "Ics.Props.C81_no_text",
    "Ics.Props.C81_full_claim_is_false"
   ],
   "note": "False for UTC offsets that are not negative: the sign is missing. Proved for all other values, with exactly which values have a text."
  },
  {
   "property": "C82",
   "status": "partial",
   "theorems": [
    "Ics.Props.C82_document_partial",
    "Ics.Props.C82_uri_alarm",
    "Ics.Props.C82_offset_line",
    "Ics.Props.C82_full_claim_is_false"
   ],
   "note": "False for offsets that are not negative, URIs in parameters (no quotes), zones on rules, REQUEST-STATUS. Proved as an equivalence for all calendars whose properties the library writes well; alarms that open a URI are never written as they should be."
  },
  {
   "property": "C83",
   "status": "proved",
   "theorems": [
    "Ics.Props.C83_exactly_for_all",
    "Ics.Props.C83_the_very_same",
    "Ics.Props.C83_exactly_these_come_back",
    "Ics.Props.C83_week_and_day",
    "Ics.Props.C18_exactly",
    "Ics.Props.C20_exactly",
    "Ics.Props.C21_exactly",
    "Ics.Props.C21_date_exactly",
    "Ics.Props.C23_exactly",
    "Ics.Props.C26_exactly",
    "Ics.Props.C27_exactly",
    "Ics.Props.C31_exactly"
   ],
   "note": "C83_exactly_for_all: an equivalence for all valid calendars, whatever the texts and URIs of their parameters, as long as what the package does not check (strings of URIs and floats by the library, format types) has no control characters and zone names need no quotes. C83_exactly_these_come_back also says that Encode returns, for parameters without quotes and carets. For zone names and format types with such characters see C46."
  },
  {
   "property": "C84",
   "status": "proved",
   "theorems": [
    "Ics.Props.C84_written",
    "Ics.Props.C84_list_written",
    "Ics.Props.C84_kept_exactly",
    "Ics.Props.C84_list_kept_exactly",
    "Ics.Props.C84_validation",
    "Ics.Props.C84_list_validation",
    "Ics.Props.C84_not_utf8_accepted",
    "Ics.Props.C84_full_claim_is_false"
   ],
   "note": "For texts and lists of texts on their own; whole calendars, with their parameters, are in C105. That every accepted text is kept is refuted."
  },
  {
   "property": "C85",
   "status": "proved",
   "theorems": [
    "Ics.Props.C85_value",
    "Ics.Props.C85_value_all",
    "Ics.Props.C85_value_one",
    "Ics.Props.C85_parameter",
    "Ics.Props.C85_property",
    "Ics.Props.C85_line",
    "Ics.Props.C85_lines",
    "Ics.Props.C85_document_line",
    "Ics.Props.C85_document_property"
   ],
   "note": "Exact (iff) for values, parameters, properties, content lines and documents. The errors of the standard library (strconv, time, url, base64) are one constructor, ext."
  },
  {
   "property": "C86",
   "status": "proved",
   "theorems": [
    "Ics.Props.C86_value",
    "Ics.Props.C86_value_all",
    "Ics.Props.C86_parameter",
    "Ics.Props.C86_property",
    "Ics.Props.C86_encode",
    "Ics.Props.C86_nothing_written",
    "Ics.Props.C86_entries",
    "Ics.Props.C86_alarm_without_type"
   ],
   "note": "Exact (iff) for values, parameters, properties and calendars."
  },
  {
   "property": "C87",
   "status": "proved",
   "theorems": [
    "Ics.Props.C87_nil_calendar",
    "Ics.Props.C87_panics",
    "Ics.Props.C87_error",
    "Ics.Props.C87_no_nil",
    "Ics.Props.C87_no_panic",
    "Ics.Props.C87_nil",
    "Ics.Props.C87_same",
    "Ics.Props.C87_go_type",
    "Ics.Props.C87_nil_anywhere"
   ],
   "note": "Exact (iff) for the panic and for each error. C87_go_type: the calendars spoken of are exactly those the Go types allow."
  },
  {
   "property": "C88",
   "status": "proved",
   "theorems": [
    "Ics.Props.C88_at_most",
    "Ics.Props.C88_nesting",
    "Ics.Props.C88_exact",
    "Ics.Props.C88_unbounded",
    "Ics.Props.C88_lower_case"
   ],
   "note": "Counts calls (Verif.Depth), not octets of stack. C88_lower_case: the bound by open blocks needs upper case names.  C88_exact: the number itself, for documents that are accepted."
  },
  {
   "property": "C89",
   "status": "proved",
   "theorems": [
    "Ics.Props.C89_reasons",
    "Ics.Props.C89_text_iff_error",
    "Ics.Props.C89_text_iff",
    "Ics.Props.C89_one_text",
    "Ics.Props.C89_component_property",
    "Ics.Props.C89_sections",
    "Ics.Props.C89_fields",
    "Ics.Props.C89_which_event",
    "Ics.Props.C89_spelling",
    "Ics.Props.C89_block_names",
    "Ics.Props.C89_property_names",
    "Ics.Props.C89_component_words"
   ],
   "note": "Exact (iff) for every document; what the errors of properties and of the standard library say is a parameter."
  },
  {
   "property": "C90",
   "status": "proved",
   "theorems": [
    "Ics.Props.C90_text_iff_error",
    "Ics.Props.C90_text_iff",
    "Ics.Props.C90_places"
   ],
   "note": "Exact (iff) for every calendar; what the errors of properties say is a parameter."
  },
  {
   "property": "C91",
   "status": "proved",
   "theorems": [
    "Ics.Props.C91_reasons",
    "Ics.Props.C91_text_iff_error",
    "Ics.Props.C91_text_iff",
    "Ics.Props.C91_one_text",
    "Ics.Props.C91_ends_with_reason",
    "Ics.Props.C91_begins_with_name",
    "Ics.Props.C91_same_name",
    "Ics.Props.C91_names",
    "Ics.Props.C91_words",
    "Ics.Props.C91_component_property",
    "Ics.Props.C91_spelling",
    "Ics.Props.C91_words_names",
    "Ics.Props.C91_own_names"
   ],
   "note": "Exact (iff) for every property; what the errors of the standard library say is a parameter."
  },
  {
   "property": "C92",
   "status": "proved",
   "theorems": [
    "Ics.Props.C92_text_iff_error",
    "Ics.Props.C92_text_iff",
    "Ics.Props.C92_calendar",
    "Ics.Props.C92_names",
    "Ics.Props.C92_says_decoding",
    "Ics.Props.C92_spelling"
   ],
   "note": "Exact (iff) for every calendar of the Go types."
  },
  {
   "property": "C93",
   "status": "partial",
   "theorems": [
    "Ics.Props.C93_never_panics",
    "Ics.Props.C93_at_most_the_buffer",
    "Ics.Props.C93_count_partial",
    "Ics.Props.C93_negative_count",
    "Ics.Props.C93_full_claim_is_false"
   ],
   "note": "False as stated: with a reader that delivers nothing and no error between two markers the count is negative (C93_negative_count).  That no call panics and that the count is at most the size of the buffer is proved for all readers; that it is not negative for all readers that deliver something with every call that returns no error."
  },
  {
   "property": "C94",
   "status": "partial",
   "theorems": [
    "Ics.Props.C94_exactly_partial",
    "Ics.Props.C94_valid_exactly_partial",
    "Ics.Props.C94_stays_exactly_partial",
    "Ics.Props.C94_of_the_calendar_partial",
    "Ics.Props.C94_times",
    "Ics.Props.C94_sample",
    "Ics.Props.C94_written_otherwise",
    "Ics.Props.C94_refused",
    "Ics.Props.C94_full_claim_is_false"
   ],
   "note": "False as stated, with six witnesses. C94_exactly_partial is an equivalence: of what is read and passes validation again, it says exactly when the text is the same. C94_times: times in zones with the rules of their name are never the reason. C94_of_the_calendar_partial asks nothing of what was read: exactly which calendars are read again, pass validation again and are written as they were. C94_valid_exactly_partial: exactly which pass validation again."
  },
  {
   "property": "C95",
   "status": "proved",
   "theorems": [
    "Ics.Props.C95_exactly",
    "Ics.Props.C95_one",
    "Ics.Props.C95_line_ends",
    "Ics.Props.C95_other_line_ends",
    "Ics.Props.C95_first_line_end",
    "Ics.Props.C95_wrong_line",
    "Ics.Props.C95_wrong_start",
    "Ics.Props.C95_needs_cr_lf",
    "Ics.Props.C95_first_characters",
    "Ics.Props.C95_octets_partial",
    "Ics.Props.C95_readers_partial"
   ],
   "note": "Exact (iff) for all unfolded texts. In octets for documents delivered at once that do not hit the bug of C08 (C95_octets_partial), and for all readers whose calls do not cut a marker (C95_readers_partial)."
  },
  {
   "property": "C96",
   "status": "partial",
   "theorems": [
    "Ics.Props.C96_pieces",
    "Ics.Props.C96_broken_between_pieces",
    "Ics.Props.C96_lines_at_most_75_octets",
    "Ics.Props.C96_transparent",
    "Ics.Props.C96_write_returns_length",
    "Ics.Props.C96_granularity_partial",
    "Ics.Props.C96_character_broken",
    "Ics.Props.C96_full_claim_is_false"
   ],
   "note": "The last part is false: a character written in two strings may be broken up (C96_character_broken). All others are proved for all octets; strings with the same pieces are written alike. The bound of 75 octets needs CR and LF to be written as CR LF only, as in C01."
  },
  {
   "property": "C97",
   "status": "proved",
   "theorems": [
    "Ics.Props.C97_at_most_twice",
    "Ics.Props.C97_carets",
    "Ics.Props.C97_without_carets",
    "Ics.Props.C97_octets",
    "Ics.Props.C97_twice_is_reached"
   ],
   "note": "Counted are characters, octets of binary values, list elements, parameters, properties and components (Spec/Size). What net/url and the time zone database keep is outside the model."
  },
  {
   "property": "C98",
   "status": "proved",
   "theorems": [
    "Ics.Props.C98_composed",
    "Ics.Props.C98_component",
    "Ics.Props.C98_property",
    "Ics.Props.C98_component_property"
   ],
   "note": "For writers that take all octets; what others get is a beginning of it (C05). The functions are the same for all calendars, they are quantified before the calendar."
  },
  {
   "property": "C99",
   "status": "proved",
   "theorems": [
    "Ics.Props.C99_text",
    "Ics.Props.C99_folding",
    "Ics.Props.C99_octets",
    "Ics.Props.C99_read_and_written"
   ],
   "note": "C99_text: at most 240 characters for each unit of size (Spec/Size) and the texts from the Go library once. C99_folding: 71 octets become at most 74, for every writer and every division into writes. C99_octets: both together. C99_read_and_written: Decode, then Encode; the library is taken to lengthen an address by at most a factor U (net/url escapes an octet as three), to write a float in at most F characters, and to have zone offsets of 32 bits."
  },
  {
   "property": "C100",
   "status": "proved",
   "theorems": [
    "Ics.Props.C100_read",
    "Ics.Props.C100_calls",
    "Ics.Props.C100_not_after_an_error",
    "Ics.Props.C100_error_passed_on"
   ],
   "note": "C100_read: one call of Read, from any state. C100_calls: all calls of a consumer that stops at the first error it sees. The two others say in plain words what Calls (Spec/Calls) means. Calls made by a Read that does not return (C08) are not spoken of."
  },
  {
   "property": "C101",
   "status": "proved",
   "theorems": [
    "Ics.Props.C101_calls",
    "Ics.Props.C101_pieces",
    "Ics.Props.C101_whole_characters",
    "Ics.Props.C101_all_accepted",
    "Ics.Props.C101_together",
    "Ics.Props.C101_encode",
    "Ics.Props.C101_same_folder",
    "Ics.Props.C101_same_count",
    "Ics.Props.C101_same_encode",
    "Ics.Props.C101_short_writes_unnoticed"
   ],
   "note": "For writers that do anything, also break the contract of io.Writer; only that a nil error means that everything was accepted needs the contract (C101_short_writes_unnoticed: without it octets are lost unnoticed). C101_same_folder and C101_same_encode: the model with the calls recorded is the one of the other properties."
  },
  {
   "property": "C102",
   "status": "proved",
   "theorems": [
    "Ics.Props.C102_decode",
    "Ics.Props.C102_no_escapes",
    "Ics.Props.C102_encode",
    "Ics.Props.C102_seven_bit",
    "Ics.Props.C102_read_and_written",
    "Ics.Props.C102_made_up"
   ],
   "note": "C102_made_up: line feed, double quote and replacement character are indeed made up.  URIs and numbers are texts of the Go library."
  },
  {
   "property": "C103",
   "status": "proved",
   "theorems": [
    "Ics.Props.C103_same",
    "Ics.Props.C103_never_iff",
    "Ics.Props.C103_how_far",
    "Ics.Props.C103_one_text",
    "Ics.Props.C103_caret",
    "Ics.Props.C103_failing_writer_does_not_stop_it",
    "Ics.Props.C103_nothing_written_is_false"
   ],
   "note": "The calls of the folder are those of the encode methods, one by one (Emit). C103_same: this Encode is the one of the other properties. C103_how_far with C103_one_text: exactly what is written when it does not return."
  },
  {
   "property": "C104",
   "status": "partial",
   "theorems": [
    "Ics.Props.C104_one_line_partial",
    "Ics.Props.C104_call_size_partial",
    "Ics.Props.C104_number_of_calls_partial",
    "Ics.Props.C104_decoded_partial",
    "Ics.Props.C104_decoded_one_line_partial",
    "Ics.Props.C104_never_one_line_partial",
    "Ics.Props.C104_never_call_size_partial",
    "Ics.Props.C104_full_claim_is_false"
   ],
   "note": "False as stated: the name of a time zone that holds line feeds is handed over in one call (C104_full_claim_is_false). Proved for all calendars that break no line (Unbroken, the exact condition of C46), so for all that were read, and also when Encode does not return (C104_never_one_line_partial). What is missing: calendars with control characters in zone names, format types and library texts, for which it is false."
  },
  {
   "property": "C105",
   "status": "proved",
   "theorems": [
    "Ics.Props.C105_taken_for",
    "Ics.Props.C105_written",
    "Ics.Props.C105_validation",
    "Ics.Props.C105_encode",
    "Ics.Props.C105_read",
    "Ics.Props.C105_comes_back",
    "Ics.Props.C105_utf8",
    "Ics.Props.C105_one",
    "Ics.Props.C105_sample",
    "Ics.Props.C105_encoder_rounds",
    "Ics.Props.C105_encoder_returns",
    "Ics.Props.C105_calls_same",
    "Ics.Props.C105_calls_utf8"
   ],
   "note": "For all calendars; C105_read asks that the text has no fold in it (as C44), C105_comes_back has the hypotheses of C44_exact_partial on the calendar that comes back. C105_utf8: for strings that are UTF-8 this is the Encode of the other properties."
  },
  {
   "property": "C106",
   "status": "partial",
   "theorems": [
    "Ics.Props.C106_exactly",
    "Ics.Props.C106_as_they_are",
    "Ics.Props.C106_each_call",
    "Ics.Props.C106_sent",
    "Ics.Props.C106_folded_partial",
    "Ics.Props.C106_sample",
    "Ics.Props.C106_full_claim_is_false"
   ],
   "note": "False as stated: a LANGUAGE parameter with the octet 0xff passes validation and is written as it is (C106_full_claim_is_false). C106_exactly: the document is UTF-8 if and only if all parameters, URLs and zone names in it are; C106_sent: so is what the caller's writer is given, with its folds, for the calls of Write as the encode methods make them; C106_as_they_are: these strings are written octet by octet. C106_folded_partial is for any other division into writes, none of which may end within a character."
  },
  {
   "property": "C107",
   "status": "partial",
   "theorems": [
    "Ics.Props.C107_read_partial",
    "Ics.Props.C107_same",
    "Ics.Props.C107_eager",
    "Ics.Props.C107_untouched",
    "Ics.Props.C107_all_partial",
    "Ics.Props.C107_decode_partial",
    "Ics.Props.C107_decode_eager_partial",
    "Ics.Props.C107_scribbled",
    "Ics.Props.C107_full_claim_is_false"
   ],
   "note": "False as stated: a reader that delivers nothing, returns no error and has changed the octet it was given decides whether a CR is found again (C107_scribbled). Proved for all readers that leave the slice alone in this one case, so for all that always deliver something or return an error (C107_eager), and for all that do not use the rest (C107_untouched). What is missing: the readers of the counterexample."
  },
  {
   "property": "C108",
   "status": "proved",
   "theorems": [
    "Ics.Props.C108_sequence",
    "Ics.Props.C108_lawful",
    "Ics.Props.C108_decodes",
    "Ics.Props.C108_schedule",
    "Ics.Props.C108_schedule_through",
    "Ics.Props.C108_arrays",
    "Ics.Props.C108_scribbled_decode",
    "Ics.Props.C108_scribbled_encode",
    "Ics.Props.C108_scribbled_true",
    "Ics.Props.C108_needs_the_contract"
   ],
   "note": "For all sequences and all schedules where the writers do not change the marker of a fold, TRUE and FALSE, so for all that keep to the contract of io.Writer (C108_lawful), and without a hypothesis for calls of Decode alone (C108_decodes). A writer that breaks the contract does change later calls of Encode and Decode, by other callers as well (C108_scribbled_decode, C108_scribbled_encode, C108_scribbled_true). A call of folder.Write or unfolder.Read is one step of a schedule."
  },
  {
   "property": "C109",
   "status": "proved",
   "theorems": [
    "Ics.Props.C109_settled",
    "Ics.Props.C109_asks",
    "Ics.Props.C109_stays",
    "Ics.Props.C109_calendar",
    "Ics.Props.C109_same",
    "Ics.Props.C109_returns"
   ],
   "note": "For all texts: C109_asks and C109_settled are equivalences. For octets and readers (C109_returns) what was read before each call does not decide the result, or ends in the middle of a character. When the caller's reader is called by the unfolding reader is C69."
  },
  {
   "property": "C110",
   "status": "partial",
   "theorems": [
    "Ics.Props.C110_full_claim_is_false",
    "Ics.Props.C110_second_fails",
    "Ics.Props.C110_any_pieces",
    "Ics.Props.C110_octet_between_partial"
   ],
   "note": "False, for all pairs of calendars: the first call takes the first octet of the second calendar, and the second call says that this is not a calendar (C110_second_fails). C110_any_pieces: in whatever pieces they come, folded or not, some of what is behind the first calendar is taken by the first call, and no later call gets it. Both are returned if one more octet, not SPACE, comes between them."
  },
  {
   "property": "C111",
   "status": "proved",
   "theorems": [
    "Ics.Props.C111_phrases",
    "Ics.Props.C111_taken_apart",
    "Ics.Props.C111_decode",
    "Ics.Props.C111_accepts",
    "Ics.Props.C111_line_ends",
    "Ics.Props.C111_never_unknown",
    "Ics.Props.C111_ends_with_line_end",
    "Ics.Props.C111_slices"
   ],
   "note": "Each function of tokeniser.go is modelled by itself (Tokens.lean), with the tokens and the phraser that asks for them; the theorems show that this reads the same content lines as parseLine, on which the other properties are stated."
  },
  {
   "property": "C112",
   "status": "proved",
   "theorems": [
    "Ics.Props.C112_duration",
    "Ics.Props.C112_text_piece",
    "Ics.Props.C112_text",
    "Ics.Props.C112_text_list",
    "Ics.Props.C112_offset",
    "Ics.Props.C112_escapes",
    "Ics.Props.C112_write_escapes",
    "Ics.Props.C112_same"
   ],
   "note": "The code of these functions is modelled a second time, with every call of the string tokeniser (Scanned.lean), and shown to be the functions on texts that the other properties are stated about. That decoded escapes are kept besides, and that escaping may never end, is stated exactly."
  },
  {
   "property": "C113",
   "status": "proved",
   "theorems": [
    "Ics.Props.C113_never_another",
    "Ics.Props.C113_goes_on",
    "Ics.Props.C113_returned",
    "Ics.Props.C113_unnoticed",
    "Ics.Props.C113_reported",
    "Ics.Props.C113_as_end",
    "Ics.Props.C113_broken_off",
    "Ics.Props.C113_complete"
   ],
   "note": "For all treatments of a failure by the parser library (a parameter): it is reported, or taken for the end of the text, when there is nothing left to look at. C113_broken_off and C113_complete, for the octets of the caller's reader, are for readers that do not cut fold markers (see C07) and calendars that are written line by line (see C46)."
  },
  {
   "property": "C114",
   "status": "partial",
   "theorems": [
    "Ics.Props.C114_exactly_partial",
    "Ics.Props.C114_folded_partial",
    "Ics.Props.C114_hangs_partial",
    "Ics.Props.C114_stuck_partial",
    "Ics.Props.C114_before_fold_partial",
    "Ics.Props.C114_returns_partial",
    "Ics.Props.C114_full_claim_is_false"
   ],
   "note": "False for every calendar with a line of more than 75 octets: a fold is given to a call of Write of its own, and the unfolding reader does not get past a fold that is delivered alone, so Decode never returns (and Encode neither, being blocked in the pipe). For calendars that are written line by line (see C46): Decode returns exactly if no line has more than 75 octets, and then the same as from a file. C114_before_fold_partial is for texts that would not be read as a calendar: the only results are those that the text in front of the first fold decides."
  },
  {
   "property": "C115",
   "status": "proved",
   "theorems": [
    "Ics.Props.C115_short_lines",
    "Ics.Props.C115_exactly",
    "Ics.Props.C115_no_place",
    "Ics.Props.C115_full_lines",
    "Ics.Props.C115_only_way",
    "Ics.Props.C115_shortest"
   ],
   "note": "C115_no_place, C115_full_lines and C115_only_way are for texts without CR LF SPACE, in which every line that begins with a space is from a fold."
  },
  {
   "property": "C116",
   "status": "proved",
   "theorems": [
    "Ics.Props.C116_runs",
    "Ics.Props.C116_runs_75",
    "Ics.Props.C116_exact",
    "Ics.Props.C116_encode",
    "Ics.Props.C116_long_lines"
   ],
   "note": "For all octets, all calls and all writers, failing ones too.  C116_exact: neither 79 nor 177 can be made smaller."
  },
  {
   "property": "C117",
   "status": "proved",
   "theorems": [
    "Ics.Props.C117_at_most",
    "Ics.Props.C117_at_least",
    "Ics.Props.C117_decode",
    "Ics.Props.C117_one_by_one",
    "Ics.Props.C117_no_folds"
   ],
   "note": "The last part supposes buffers of two octets or more and that the end comes with a call of its own."
  },
  {
   "property": "C118",
   "status": "proved",
   "theorems": [
    "Ics.Props.C118_calls",
    "Ics.Props.C118_text",
    "Ics.Props.C118_encode",
    "Ics.Props.C118_encode_text",
    "Ics.Props.C118_the_text",
    "Ics.Props.C118_per_property"
   ],
   "note": ""
  },
  {
   "property": "C119",
   "status": "partial",
   "theorems": [
    "Ics.Props.C119_first_part",
    "Ics.Props.C119_text_partial",
    "Ics.Props.C119_file_partial",
    "Ics.Props.C119_pieces_partial",
    "Ics.Props.C119_not_read_partial",
    "Ics.Props.C119_last_octets",
    "Ics.Props.C119_full_claim_is_false"
   ],
   "note": "False as stated: without the line end behind its last line the calendar is read, so that a writer may fail at the last two octets, and the calendar that is read is then the one read from the whole. Apart from that it is proved (C119_text_partial is exact), for calendars without line ends in zone names and URIs, for files read at once or in pieces that do not cut folds."
  },
  {
   "property": "C120",
   "status": "partial",
   "theorems": [
    "Ics.Props.C120_left_partial",
    "Ics.Props.C120_octets_partial",
    "Ics.Props.C120_octets_sample",
    "Ics.Props.C120_retried_partial",
    "Ics.Props.C120_file_partial",
    "Ics.Props.C120_pieces_partial",
    "Ics.Props.C120_exactly_partial",
    "Ics.Props.C120_never_mixed_partial",
    "Ics.Props.C120_spoilt_partial",
    "Ics.Props.C120_sample"
   ],
   "note": "Proved, as an equivalence, for the octets of the file, broken off anywhere, also inside of a fold or of a character, and for the text; for files read at once, or in pieces that do not cut fold markers, also through the reader. For calendars that are written line by line (see C46). Missing: other calendars, and pieces that cut fold markers (see C07)."
  },
  {
   "property": "C121",
   "status": "partial",
   "theorems": [
    "Ics.Props.C121_full_claim_is_false",
    "Ics.Props.C121_appended_partial",
    "Ics.Props.C121_space",
    "Ics.Props.C121_two_partial",
    "Ics.Props.C121_file_partial"
   ],
   "note": "False if what is written begins with SPACE: the line end behind END:VCALENDAR is then taken for a fold, and the line goes on (C121_space says what is read then; C121_full_claim_is_false). Proved for everything else, for calendars that are written line by line (see C46), and for two calendars in one file, the second one whole or not."
  }
 ]
}
