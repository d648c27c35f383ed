{
 "claims": [
  {
   "property": "C01",
   "status": "partial",
   "theorems": [
    "LN.C01_match_is_real_partial",
    "LN.C01_plain_fields",
    "LN.C01_fields_tile",
    "LN.C01_every_rulebase_partial",
    "LN.C01_exact_partial",
    "LN.C01_overconsumption_violated"
   ],
   "note": "exact for rulebases without user-defined types and repeat (Flat) and for all rulebases where the next field decides (Decided); for every rulebase up to where the text of a user-defined type ends, which the code gets wrong (violated)"
  },
  {
   "property": "C02",
   "status": "partial",
   "theorems": [
    "LN.C02_complete_partial",
    "LN.C02_types_partial",
    "LN.C02_types_violated",
    "LN.C02_repeat_violated"
   ],
   "note": "flat rulebases, and rulebases with user-defined types where the next field decides; the code loses matches otherwise (violated)"
  },
  {
   "property": "C03",
   "status": "partial",
   "theorems": [
    "LN.C03_first_alternative_wins_partial",
    "LN.C03_order_antisymm",
    "LN.C03_sorted_alternatives_partial",
    "LN.C03_repeat_unsorted_violated",
    "LN.C17_optimise_meaning_partial"
   ],
   "note": "First match in order of alternatives, and alternatives sorted by priority after optimising (any graph built by any history); together (C17_optimise_meaning_partial) the selected rule is first in priority order among all matching rules of the graph as loaded, for rule bases without user types and repeat. Violated inside repeat sub-graphs, which the optimiser does not sort. Ties are broken by qsort (unspecified)."
  },
  {
   "property": "C04",
   "status": "partial",
   "theorems": [
    "LN.C04_nonmatch_intact_partial",
    "LN.C04_nonmatch_intact_every_rulebase_partial",
    "LN.C04_nul_violated"
   ],
   "note": "every rulebase, messages without NUL bytes; with NUL the code truncates unparsed-data (violated)"
  },
  {
   "property": "C05",
   "status": "partial",
   "theorems": [
    "LN.C05_unparsed_furthest_partial",
    "LN.C05_types_furthest_partial",
    "LN.C05_every_rulebase_partial",
    "LN.C05_types_violated",
    "LN.C05_repeat_violated"
   ],
   "note": "furthest position for rulebases without user-defined types and repeat (Flat) and for rulebases with user-defined types where the next field decides; in every rulebase a position that fields reach (added after seeded bug m057 survived). Otherwise violated."
  },
  {
   "property": "C06",
   "status": "partial",
   "theorems": [
    "LN.C06_no_undefined_behaviour_partial",
    "LN.C06_nul_violated",
    "LN.C06_number_violated",
    "LN.C06_8bit_violated",
    "LN.C06_cef_violated",
    "LN.C06_op_quoted_violated",
    "LN.C06_unconfigured_violated",
    "LN.C06_annotation_violated",
    "LN.C06_empty_mockup_violated"
   ],
   "note": "all rulebases (incl. types and repeat) that are fully configured, non-recursive, without cee-syslog (or @cee: nowhere but at the beginning of the message); messages of 7-bit non-NUL bytes without runs of 10+ digits; each excluded point is violated by the code"
  },
  {
   "property": "C07",
   "status": "partial",
   "theorems": [
    "LN.C07_terminates_partial",
    "LN.C07_plain_terminates_partial",
    "LN.C07_returns_or_runs_forever",
    "LN.C07_recursive_type_violated",
    "LN.C07_repeat_empty_violated"
   ],
   "note": "rulebases without recursive types whose repeat separators begin with literal text; the code does not terminate for recursive types and repeats matching empty text"
  },
  {
   "property": "C08",
   "status": "proved",
   "theorems": [
    "LN.C08_history_independent",
    "LN.C08_stats_do_not_matter"
   ],
   "note": "any rulebase"
  },
  {
   "property": "C09",
   "status": "proved",
   "theorems": [
    "LN.C09_only_named_fields_show",
    "LN.C09_only_named_fields_show_partial",
    "LN.C09_unnamed_contribute_nothing",
    "LN.C09_unnamed_contribute_nothing_nested"
   ],
   "note": "every rulebase"
  },
  {
   "property": "C10",
   "status": "proved",
   "theorems": [
    "LN.C10_placement_documented"
   ],
   "note": ""
  },
  {
   "property": "C11",
   "status": "partial",
   "theorems": [
    "LN.C11_tags_of_matched_rule_partial",
    "LN.C11_tags_every_rulebase_partial",
    "LN.C11_tags_of_other_rule_violated"
   ],
   "note": "every rulebase, when no field of the rule starts at the end of the message; otherwise the code may deliver the tags of another rule (violated)"
  },
  {
   "property": "C12",
   "status": "proved",
   "theorems": [
    "LN.C12_annotations_exact",
    "LN.C12_annotations_accumulate"
   ],
   "note": "any rulebase"
  },
  {
   "property": "C13",
   "status": "partial",
   "theorems": [
    "LN.C13_metadata_partial",
    "LN.C13_no_option_no_metadata",
    "LN.C13_every_rulebase_partial",
    "LN.C13_types_violated"
   ],
   "note": "exact for rulebases without user-defined types and repeat (Flat); for every rulebase the location is right and the mockup begins with the rule's text; with user-defined types their inner fields are appended to it (violated)"
  },
  {
   "property": "C14",
   "status": "proved",
   "theorems": [
    "LN.C14_options_accumulate",
    "LN.C14_order_irrelevant",
    "LN.C14_option_set",
    "LN.C14_options_only_add",
    "LN.C14_option_effects",
    "LN.C14_history"
   ],
   "note": "any rulebase; whenever both runs are free of undefined behaviour; C14_option_effects pins the effect of each option bit (added after seeded bug m069 survived); C14_history: any history of calls"
  },
  {
   "property": "C15",
   "status": "partial",
   "theorems": [
    "LN.C15_types_exact_partial",
    "LN.C15_types_value_partial",
    "LN.C01_overconsumption_violated"
   ],
   "note": "exact where the next field decides; in every rulebase the value is that of a real match of a definition, but the code may consume a different amount of text (C01_overconsumption_violated)"
  },
  {
   "property": "C16",
   "status": "partial",
   "theorems": [
    "LN.C16_repeat_exact_partial",
    "LN.C16_elements_spelled_out",
    "LN.C16_malformed_repeat_violated",
    "LN.C16_malformed_load_violated",
    "LN.C02_repeat_violated",
    "LN.C80_end_to_end_partial",
    "LN.C16_unknown_inner_violated"
   ],
   "note": "exact where the next field decides From text to event for rules with repeat fields: C80."
  },
  {
   "property": "C17",
   "status": "partial",
   "theorems": [
    "LN.C17_optimise_meaning_partial",
    "LN.C17_optimise_same_result_partial",
    "LN.C17_nested_sound_partial",
    "LN.C17_types_partial",
    "LN.C17_types_violated",
    "LN.C17_unparsed_violated"
   ],
   "note": "For every graph built by any history of rule additions without user-defined types/repeat and every NUL-free message: same messages match, the event is that of a matching rule of the graph as loaded (fields, tags, mockup, location), the first by priority. With user-defined types and repeat: soundness always, and the same messages match where the next field decides (C17_types_partial); otherwise violated, as is the position of unparsed-data."
  },
  {
   "property": "C18",
   "status": "partial",
   "theorems": [
    "LN.C18_no_use_after_free",
    "LN.C18_delete_complete_partial",
    "LN.C18_second_free_detected",
    "LN.C18_complete_violated"
   ],
   "note": "Every history of rule/type additions (any JSON configurations, alternatives, nested arrays, repeat) and optimiser runs: no use of freed nodes, deletion succeeds and frees every node unless some node ever received 256 parsers; C18_complete_violated shows the leak caused by the 8-bit counter."
  },
  {
   "property": "C19",
   "status": "partial",
   "theorems": [
    "LN.C19_union_partial",
    "LN.C19_union_optimised_partial",
    "LN.C19_union_types_partial",
    "LN.C19_union_types_optimised_partial",
    "LN.C19_types_sound_partial",
    "LN.C19_keeps_matching_partial",
    "LN.C19_second_load_violated",
    "LN.C19_alternative_violated",
    "LN.C19_many_violated"
   ],
   "note": "One load (of any number of lines which nowhere go on in more than 255 different ways; sharp, C19_many_violated) matches exactly the union of its rules, before and after optimising: for plain fields without further condition, for rules and type definitions with user-defined types where the next field decides (Clear); soundness with types in general; over any number of loads matching messages go on matching. Violated: rules added by a second load, alternative."
  },
  {
   "property": "C20",
   "status": "partial",
   "theorems": [
    "LN.C20_number_partial",
    "LN.C20_number_overflow_violated",
    "LN.C20_character_classes",
    "LN.C20_hex_digit_values"
   ],
   "note": "all numbers up to 2^63-49; beyond that the code overflows a signed integer"
  },
  {
   "property": "C21",
   "status": "proved",
   "theorems": [
    "LN.C21_float",
    "LN.C20_character_classes"
   ],
   "note": "messages without NUL bytes; a double is represented by the text it is created from"
  },
  {
   "property": "C22",
   "status": "partial",
   "theorems": [
    "LN.C22_hexnumber_partial",
    "LN.C22_hexnumber_violated",
    "LN.C20_character_classes"
   ],
   "note": "values below 2^63; larger ones wrap around in the code"
  },
  {
   "property": "C23",
   "status": "proved",
   "theorems": [
    "LN.C23_kernel_timestamp",
    "LN.C20_character_classes"
   ],
   "note": ""
  },
  {
   "property": "C24",
   "status": "proved",
   "theorems": [
    "LN.C24_whitespace",
    "LN.C20_character_classes"
   ],
   "note": ""
  },
  {
   "property": "C25",
   "status": "proved",
   "theorems": [
    "LN.C25_word",
    "LN.C25_alpha",
    "LN.C20_character_classes"
   ],
   "note": ""
  },
  {
   "property": "C26",
   "status": "partial",
   "theorems": [
    "LN.C26_string_to_partial",
    "LN.C26_one_byte_violated"
   ],
   "note": "search strings of two or more bytes; one-byte search strings never match in the code"
  },
  {
   "property": "C27",
   "status": "proved",
   "theorems": [
    "LN.C27_char_to",
    "LN.C27_char_sep",
    "LN.C27_char_sep_always"
   ],
   "note": ""
  },
  {
   "property": "C28",
   "status": "partial",
   "theorems": [
    "LN.C28_literal_partial",
    "LN.C28_literal_nul_violated"
   ],
   "note": "messages without NUL bytes; with a NUL after the literal the code reads out of bounds"
  },
  {
   "property": "C29",
   "status": "proved",
   "theorems": [
    "LN.C29_rest"
   ],
   "note": ""
  },
  {
   "property": "C30",
   "status": "partial",
   "theorems": [
    "LN.C30_quoted_string_partial",
    "LN.C30_quotes_kept_violated",
    "LN.C30_op_quoted_string_partial",
    "LN.C30_unnamed_violated"
   ],
   "note": "acceptance proved; the code keeps the quotes in quoted-string values and dereferences NULL for unnamed op-quoted-string fields"
  },
  {
   "property": "C31",
   "status": "proved",
   "theorems": [
    "LN.C31_date_iso",
    "LN.C20_character_classes"
   ],
   "note": ""
  },
  {
   "property": "C32",
   "status": "proved",
   "theorems": [
    "LN.C32_time_24hr",
    "LN.C32_time_12hr",
    "LN.C20_character_classes"
   ],
   "note": ""
  },
  {
   "property": "C33",
   "status": "proved",
   "theorems": [
    "LN.C33_duration",
    "LN.C20_character_classes"
   ],
   "note": ""
  },
  {
   "property": "C34",
   "status": "proved",
   "theorems": [
    "LN.C34_ipv4",
    "LN.C20_character_classes"
   ],
   "note": ""
  },
  {
   "property": "C35",
   "status": "partial",
   "theorems": [
    "LN.C35_accepts_partial",
    "LN.C35_alphabet_partial",
    "LN.C35_sound_violated",
    "LN.C35_complete_violated",
    "LN.C20_character_classes",
    "LN.C35_exact",
    "LN.C35_addresses_accepted"
   ],
   "note": "Every RFC 4291 text form followed by white space or the end is matched, except '::' for one group at the beginning, or at the end with text following (those are rejected: violated). The converse is violated ('ab' matches); proved instead: only hex digits, colons and dots are consumed. What is accepted instead is described exactly (Spec.ipv6), and ipv6 fields are in the scope of C71 and C75 to C88."
  },
  {
   "property": "C36",
   "status": "proved",
   "theorems": [
    "LN.C36_mac48",
    "LN.C20_character_classes"
   ],
   "note": ""
  },
  {
   "property": "C37",
   "status": "partial",
   "theorems": [
    "LN.C37_cisco_partial",
    "LN.C37_second_separator_violated",
    "LN.C20_character_classes"
   ],
   "note": "Exact (match iff, value) except for messages where the second ip/port pair is not joined by '/', which the code accepts too (violated), and digit strings beyond 18 digits."
  },
  {
   "property": "C38",
   "status": "partial",
   "theorems": [
    "LN.C38_json_partial",
    "LN.C38_array_violated"
   ],
   "note": "objects, relative to the JSON library; arrays never match in the code (it tests for the closing bracket)"
  },
  {
   "property": "C39",
   "status": "partial",
   "theorems": [
    "LN.C39_cee_partial",
    "LN.C39_offset_violated",
    "LN.C20_character_classes"
   ],
   "note": "fields at the beginning of the message, relative to the JSON library; elsewhere the code reports too many bytes"
  },
  {
   "property": "C40",
   "status": "proved",
   "theorems": [
    "LN.C40_name_value_list",
    "LN.C20_character_classes"
   ],
   "note": "exact, all messages and configurations"
  },
  {
   "property": "C41",
   "status": "proved",
   "theorems": [
    "LN.C41_iptables",
    "LN.C20_character_classes"
   ],
   "note": "exact, all messages"
  },
  {
   "property": "C42",
   "status": "proved",
   "theorems": [
    "LN.C42_cef_roundtrip",
    "LN.C20_character_classes"
   ],
   "note": "round trip for every event without NUL bytes"
  },
  {
   "property": "C43",
   "status": "proved",
   "theorems": [
    "LN.C43_lea",
    "LN.C20_character_classes"
   ],
   "note": "exact, all messages"
  },
  {
   "property": "C44",
   "status": "partial",
   "theorems": [
    "LN.C44_quoted_partial",
    "LN.C44_unquoted_partial",
    "LN.C44_reject_partial",
    "LN.C44_escaped_space_violated",
    "LN.C44_unquoted_double_violated",
    "LN.C20_character_classes"
   ],
   "note": "Round trip for quoted and unquoted strings with both escape modes and arbitrary permitted sets; rejection if no backslash escape is involved. Violated: escaped space in unquoted string, doubled quotes in unquoted string with backslash escapes; 8-bit bytes are undefined behaviour (C06)."
  },
  {
   "property": "C45",
   "status": "partial",
   "theorems": [
    "LN.C45_rfc5424_partial",
    "LN.C45_rfc5424_any_format",
    "LN.C45_rfc3164_partial",
    "LN.C45_empty_numbers_violated",
    "LN.C45_overflow_violated",
    "LN.C20_character_classes"
   ],
   "note": "exact acceptance for messages without runs of ten digits, with possibly empty numbers (violated)"
  },
  {
   "property": "C46",
   "status": "partial",
   "theorems": [
    "LN.C46_unix_partial",
    "LN.C46_unix_ms_partial",
    "LN.C46_rfc3164_partial",
    "LN.C46_year_violated",
    "LN.C46_fraction_violated",
    "LN.C46_rfc3164_year_violated"
   ],
   "note": "years 1970-2100 (the code returns 0 otherwise), no runs of ten digits"
  },
  {
   "property": "C47",
   "status": "partial",
   "theorems": [
    "LN.C47_parser_contained_partial",
    "LN.C47_search_contained_partial",
    "LN.C47_cee_violated"
   ],
   "note": "all parsers; cee-syslog violates the property where @cee: stands in the middle of a message (C47_cee_violated)"
  },
  {
   "property": "C48",
   "status": "partial",
   "theorems": [
    "LN.C48_literal_rule_partial",
    "LN.C48_nul_violated"
   ],
   "note": "End to end: load the line 'rule=:text' into a fresh context, optimise, normalize. Violated: where a message goes on with a NUL behind the text of the rule, memory behind the text is read."
  },
  {
   "property": "C49",
   "status": "partial",
   "theorems": [
    "LN.C49_rule_text",
    "LN.C49_malformed",
    "LN.C49_leading_blank_violated"
   ],
   "note": "All rule texts made of literals and well formed field descriptions (plain, extra data, JSON parameters, JSON), and all that go wrong in their last field description. Violated: blanks in front of the type are not stripped."
  },
  {
   "property": "C50",
   "status": "partial",
   "theorems": [
    "LN.C50_tags_partial",
    "LN.C50_empty_tag_violated"
   ],
   "note": "All lists of tags that are not empty and free of comma, colon, NUL. Violated: an empty tag crashes the loader."
  },
  {
   "property": "C51",
   "status": "partial",
   "theorems": [
    "LN.C51_prefix",
    "LN.C51_prefix_is_inlined",
    "LN.C51_loads_the_same",
    "LN.C51_prefix_loaded",
    "LN.C51_no_prefix_violated"
   ],
   "note": "All rule bases made of well formed lines. Violated: extendprefix= without prefix crashes."
  },
  {
   "property": "C52",
   "status": "partial",
   "theorems": [
    "LN.C52_string_lines",
    "LN.C52_file_lines",
    "LN.C52_comments_ignored",
    "LN.C52_long_line_violated"
   ],
   "note": "All texts made of lines that do not end inside a field description (where the documentation lets fields span lines), without NUL and byte 255, of at most 65535 bytes per line. Violated: of longer lines the first 65536 bytes are dropped (with a message) and the rest is taken for a line of its own."
  },
  {
   "property": "C53",
   "status": "partial",
   "theorems": [
    "LN.C53_terminates_partial",
    "LN.C53_file_terminates_partial",
    "LN.C53_unknown_reported",
    "LN.C53_annotate_violated",
    "LN.C53_include_violated",
    "LN.C53_silent_violated",
    "LN.C53_long_type_name_violated",
    "LN.C53_rule_no_colon_violated",
    "LN.C53_no_kind_violated",
    "LN.C53_type_no_colon_violated",
    "LN.C53_annotate_no_colon_violated"
   ],
   "note": "Loading arbitrary texts terminates unless an annotate= line ends with white space (endless loop, proved) or files include each other in cycles (proved not to end); unknown kinds are reported, with the exception of lines starting with '=' and rule lines without colon. annotations without colon, definitions of types without colon, or with names of 1024 bytes or more, are ignored silently"
  },
  {
   "property": "C54",
   "status": "partial",
   "theorems": [
    "LN.C54_string_is_file_partial",
    "LN.C54_violated",
    "LN.C54_byte255_violated"
   ],
   "note": "All contents without NUL/255 and without fields spanning lines. Violated for fields that span lines near the end of a file."
  },
  {
   "property": "C55",
   "status": "partial",
   "theorems": [
    "LN.C55_same_rule_twice_partial",
    "LN.C55_duplicate_rule_partial",
    "LN.C55_second_load_violated"
   ],
   "note": "Any history before, any rules/types between, fields other than alternative/repeat, within one load. Violated across loads (optimiser between)."
  },
  {
   "property": "C56",
   "status": "partial",
   "theorems": [
    "LN.C56_recover_partial",
    "LN.C56_unambiguous_partial",
    "LN.C56_every_event",
    "LN.C56_arrays_violated"
   ],
   "note": "All events and name lists with string/integer members: an independent CSV reader recovers every value. C56_every_event gives the text for every event. Violated for arrays, null and unsupported types."
  },
  {
   "property": "C57",
   "status": "partial",
   "theorems": [
    "LN.C57_recover_partial",
    "LN.C57_unambiguous_partial",
    "LN.C57_names_violated",
    "LN.C57_newline_violated",
    "LN.C57_return_code_violated"
   ],
   "note": "Events with RFC 5424 names, string/integer/array values, plain tags: an independent reader recovers names and values. Violated: names and tags are not escaped; newline is encoded in a way RFC readers cannot tell from backslash n; return code -1 on success without tags."
  },
  {
   "property": "C58",
   "status": "partial",
   "theorems": [
    "LN.C58_no_markup_partial",
    "LN.C58_recover_partial",
    "LN.C58_tags_violated",
    "LN.C57_return_code_violated"
   ],
   "note": "Values never become markup and can be recovered. Violated for tags and field names, which are not escaped."
  },
  {
   "property": "C59",
   "status": "partial",
   "theorems": [
    "LN.C59_foreign_rejected",
    "LN.C59_exit_partial",
    "LN.C59_no_use_after_free",
    "LN.C59_double_exit_violated",
    "LN.C59_unchecked_violated",
    "LN.C59_foreign_violated"
   ],
   "note": "All histories of API calls: checked functions refuse foreign objects without effect, deleting a live context succeeds and frees its graph (unless 256 parsers in one node), no use after free. Violated: a deleted handle is not recognised (both magic numbers are the same); ln_setCtxOpts, ln_enableDebug, ln_normalize do not check."
  },
  {
   "property": "C60",
   "status": "partial",
   "theorems": [
    "LN.C60_debug",
    "LN.C60_error_partial",
    "LN.C60_error_cookie",
    "LN.C60_error_violated"
   ],
   "note": "All histories: right callback always; right cookie for the debug callback; the error callback gets the debug callback's cookie (violated)."
  },
  {
   "property": "C61",
   "status": "partial",
   "theorems": [
    "LN.C61_terminated_lines_partial",
    "LN.C61_last_line",
    "LN.C61_violated"
   ],
   "note": "All streams of terminated lines; a last line without newline loses its last byte, lines are cut at NUL (violated)."
  },
  {
   "property": "C62",
   "status": "partial",
   "theorems": [
    "LN.C62_types_accumulate_partial",
    "LN.C62_type_is_union_partial",
    "LN.C62_types_derive_partial",
    "LN.C62_order_violated"
   ],
   "note": "Types are never lost or renumbered by anything that follows; a type is the union of its definitions whatever their order, also of definitions which use other types (C62_types_derive_partial). Violated: rules using a type before its definition are dropped."
  },
  {
   "property": "C63",
   "status": "partial",
   "theorems": [
    "LN.C63_counters_grow_partial",
    "LN.C63_backtracked_exceeds_called_violated"
   ],
   "note": "monotonicity proved; backtracked <= called is false of the code"
  },
  {
   "property": "C64",
   "status": "partial",
   "theorems": [
    "LN.C64_match_is_real_partial",
    "LN.C64_no_match_lost_partial",
    "LN.C64_search_ends_partial",
    "LN.C64_violated"
   ],
   "note": "v1 search (v1_ptree.c) over any field parsers which stay within the message (this assumption is proved of the parsers of v1_parser.c by C72_engine_assumptions and C73_engine_assumptions; C74_end_to_end_partial is free of it). Sound and complete for well formed samples without iptables, rest last in its sample, ASCII literals and no field starting behind the last byte; each of these conditions is necessary (C64_violated)."
  },
  {
   "property": "C65",
   "status": "partial",
   "theorems": [
    "LN.C65_sample_added_partial",
    "LN.C65_tree_is_samples_partial",
    "LN.C65_order_irrelevant_partial",
    "LN.C65_violated",
    "LN.C65_long_literal_violated"
   ],
   "note": "v1 tree construction: the tree is a map from samples to tags. Conditions (complete samples, literals below 65536 bytes, parser data determined by parser and raw data) are necessary, see the violations."
  },
  {
   "property": "C66",
   "status": "partial",
   "theorems": [
    "LN.C66_loads_keep_graph",
    "LN.C66_out_of_bounds_violated"
   ],
   "note": "All sequences of load calls and all texts: no use after free, complete deletion (unless 256 parsers in one node, C18). Out-of-bounds reads in the lexer exist."
  },
  {
   "property": "C67",
   "status": "partial",
   "theorems": [
    "LN.C67_debug_length",
    "LN.C67_error_length_partial",
    "LN.C67_text_bounded",
    "LN.C67_error_length_violated",
    "LN.C67_error_text_partial"
   ],
   "note": "All texts; for error messages with a location only up to the buffer size, beyond it the reported length exceeds the buffer (violated). The text itself, as long as nothing is cut."
  },
  {
   "property": "C68",
   "status": "proved",
   "theorems": [
    "LN.C68_contexts_independent"
   ],
   "note": "All histories; the environment (file system, time) is fixed."
  },
  {
   "property": "C69",
   "status": "partial",
   "theorems": [
    "LN.C69_counts_partial",
    "LN.C69_raw_output_partial",
    "LN.C69_every_line_counted",
    "LN.C69_output_partial",
    "LN.C69_violated"
   ],
   "note": "All streams, options and rulebases, provided that no field of a matching rule is called unparsed-data and event.tags is a list of strings; violated otherwise."
  },
  {
   "property": "C70",
   "status": "partial",
   "theorems": [
    "LN.C70_no_match_partial",
    "LN.C70_total_partial",
    "LN.C70_violated"
   ],
   "note": "for messages without NUL bytes and without iptables fields; violated by an embedded NUL (read behind the copy)."
  },
  {
   "property": "C71",
   "status": "partial",
   "theorems": [
    "LN.C71_simple_types_partial",
    "LN.C71_type_names",
    "LN.C71_ipv6_partial",
    "LN.C71_iptables",
    "LN.C71_json_partial",
    "LN.C71_name_value",
    "LN.C71_cisco_partial",
    "LN.C71_lea_partial",
    "LN.C71_cef_partial",
    "LN.C71_eight_bit_terminator_violated",
    "LN.C71_one_byte_string_to_violated",
    "LN.C71_cisco_value_violated",
    "LN.C20_character_classes",
    "LN.C71_iptables_field_partial",
    "LN.C71_unknown_type"
   ],
   "note": "21 simple types uniformly plus seven structured ones, for messages without NUL bytes, dates without runs of ten digits; further conditions are necessary (violated theorems). cef and lea: acceptance and value (tightened after seeded bugs p008, p009, p021); their length is wrong (C72). Types with nested rules: C73. The type iptables: rulebases of one rule."
  },
  {
   "property": "C72",
   "status": "partial",
   "theorems": [
    "LN.C72_parsers_contained_partial",
    "LN.C72_engine_assumptions",
    "LN.C72_cee_violated",
    "LN.C72_cef_violated",
    "LN.C72_lea_violated",
    "LN.C72_no_extra_data_violated",
    "LN.C72_date_overflow_violated"
   ],
   "note": "All v1 types but those with nested contexts, cee-syslog, cef and checkpoint-lea, for which it is violated; discharges the parser assumptions of C64, C65 and C70."
  },
  {
   "property": "C73",
   "status": "partial",
   "theorems": [
    "LN.C73_nested_types_partial",
    "LN.C73_engine_assumptions",
    "LN.C73_nested_rulebase",
    "LN.C73_int_value",
    "LN.C73_descent_partial",
    "LN.C73_always_matches_violated",
    "LN.C73_suffix_at_end_violated",
    "LN.C73_int_of_int_violated",
    "LN.C73_missing_file_violated",
    "LN.C73_trailing_separator_violated",
    "LN.C73_nul_violated",
    "LN.C73_empty_separator_violated",
    "LN.C73_endless_recursion_violated",
    "LN.C73_hex_value",
    "LN.C73_descent_file_partial"
   ],
   "note": "Any nesting of interpret/suffixed/named_suffixed/tokenized over simple types, from the rule text to the delivered value; descent and recursive relative to C64, C73_nested_rulebase says which rulebase they use (after seeded bug p022). The conditions are necessary (violated theorems)."
  },
  {
   "property": "C74",
   "status": "partial",
   "theorems": [
    "LN.C74_lines_partial",
    "LN.C74_rule_text",
    "LN.C74_end_to_end_partial",
    "LN.C74_extend_violated",
    "LN.C74_annotate_blank_violated",
    "LN.C74_unknown_lines_violated",
    "LN.C74_long_line_violated",
    "LN.C74_annotation_comment"
   ],
   "note": "End to end for well-formed lines of at most 10239 bytes and fields of the types of C73 and rest; messages without NUL bytes and runs of ten digits; a match is only guaranteed if no field starts at the end of the message (C64_violated). Discharges the parser parameter of C64, C65, C70. Lines from 10240 bytes on are mutilated (violated)."
  },
  {
   "property": "C75",
   "status": "partial",
   "theorems": [
    "LN.C75_name_and_priority",
    "LN.C75_field_means_partial",
    "LN.C75_other_types",
    "LN.C75_priority_order",
    "LN.C75_malformed_list_violated",
    "LN.C75_eight_bit_permitted_violated",
    "LN.C75_priority_any",
    "LN.C75_priority_limits_violated",
    "LN.C75_priority_no_number",
    "LN.C75_malformed_string_violated"
   ],
   "note": "all built-in types except repeat and alternative, whose parameters have the documented form; acceptance exact for all of them (cef: on events as they are to be written and on texts which do not begin with CEF:0|; cee-syslog: @cee: nowhere but at the beginning of the message), on messages of ASCII characters without runs of ten digits and outside of the situations described by the _violated theorems of the types (InScope). Added after seeded bugs in constructors and in the table of parsers (n009-n017, n024, n029, n030) survived. string fields with malformed settings are loaded and crash"
  },
  {
   "property": "C76",
   "status": "partial",
   "theorems": [
    "LN.C76_end_to_end_partial"
   ],
   "note": "End to end: text, loader, optimiser, search, annotation and metadata, for any number of rules (which nowhere go on in more than 255 different ways) whose fields are as in C75 (all built-in types except repeat and alternative; no user-defined types), and rules which break off before a field description that is not well formed (reported) or of an unknown type: they match nothing; messages in the scope of C06 and C75. If no rule matches, the exact position unparsed-data starts at is part of the claim: the last one up to which beginnings of rules (including those that break off), not stopping inside a shared literal text, make up the message (ReadsFurthest)."
  },
  {
   "property": "C77",
   "status": "proved",
   "theorems": [
    "LN.C77_history"
   ],
   "note": "all histories, rulebases of both versions"
  },
  {
   "property": "C78",
   "status": "partial",
   "theorems": [
    "LN.C78_string",
    "LN.C78_file",
    "LN.C78_string_end_to_end_partial",
    "LN.C78_file_end_to_end_partial",
    "LN.C78_last_line_number_violated"
   ],
   "note": "C78_string/C78_file: all rulebases of well formed lines, including types and compounds (effect on the graph, annotations, prefix, messages), with or without a newline at the very end; end to end in the scope of C76, including rules which break off; the messages of the loader are exact (itemsMsgs). Violated: rules in a last line without newline carry the number of the line before (0 if there is none). Missing: lines of 64 KiB and more (C52), include loops (C53)."
  },
  {
   "property": "C79",
   "status": "partial",
   "theorems": [
    "LN.C79_end_to_end_partial",
    "LN.C79_string_end_to_end_partial",
    "LN.C79_file_end_to_end_partial"
   ],
   "note": "From the text of the rulebase (string, files, includes) to the event, with fields of user-defined types nested to any depth, malformed rules and definitions included, with exactly the messages about them; the exact position of unparsed-data if no rule matches (ReadsFurthestT). Missing: ambiguous rulebases (C10 has the witnesses that the claim is false there), types which contain themselves, alternative and repeat, more than 255 different ways to go on at a point, what stands behind the rule text in the metadata (C13)."
  },
  {
   "property": "C80",
   "status": "partial",
   "theorems": [
    "LN.C80_end_to_end_partial",
    "LN.C80_string_end_to_end_partial",
    "LN.C80_file_end_to_end_partial",
    "LN.C80_rules_end_to_end_partial",
    "LN.C80_rules_string_end_to_end_partial",
    "LN.C80_rules_file_end_to_end_partial",
    "LN.C80_plain_field_partial",
    "LN.C80_named_separator_violated"
   ],
   "note": "Rulebases with one rule, or with several rules (none given twice, with nowhere more than 255 ways to go on) and a message which tells them apart (TellsApart: where rules part, at most one of the fields can begin), messages in the scope of C06, repetitions which make progress. Missing: messages which do not tell the rules apart (the search may then go wrong, C10), user-defined types and alternative beside repeat, option 0x08. A named field in the separator crashes (violated)."
  },
  {
   "property": "C81",
   "status": "partial",
   "theorems": [
    "LN.C81_search",
    "LN.C81_version1_violated",
    "LN.C81_version1_embedded_violated"
   ],
   "note": "Version 2: proved. Violated for version 1 rulebases in the rulebase directory: found, but not loaded.  Rulebases a version 1 rule refers to (descent) are not searched for in the directory either."
  },
  {
   "property": "C82",
   "status": "partial",
   "theorems": [
    "LN.C82_end_to_end_partial",
    "LN.C82_versions",
    "LN.C82_second_rulebase_violated",
    "LN.C82_text_violated"
   ],
   "note": "Scope of C74. Violated: a second version 1 rulebase replaces the rules of the first; a rulebase given as text switches the context to version 2 and hides them."
  },
  {
   "property": "C83",
   "status": "partial",
   "theorems": [
    "LN.C83_separate",
    "LN.C83_type_names",
    "LN.C83_statistics_partial",
    "LN.C83_second_report_violated",
    "LN.C83_longest_violated",
    "LN.C83_no_alternative"
   ],
   "note": "All counts, for all rulebases. The path reported exists and is a longest one if no node can be reached in two ways; violated with alternatives. Violated: a second report says that there is nothing, since marks are not cleared.  For rulebases without alternative the statistics are right in all, longest path included (C83_no_alternative)."
  },
  {
   "property": "C84",
   "status": "proved",
   "theorems": [
    "LN.C84_dot",
    "LN.C84_usage_dot",
    "LN.C84_labels",
    "LN.C84_literals",
    "LN.C83_type_names"
   ],
   "note": ""
  },
  {
   "property": "C85",
   "status": "partial",
   "theorems": [
    "LN.C85_usage_partial",
    "LN.C85_duplicate_violated",
    "LN.C85_reload_violated",
    "LN.C84_literals",
    "LN.C85_no_alternative",
    "LN.C85_merged_name"
   ],
   "note": "Which nodes are listed: all rulebases. Names: graphs in which no node can be reached in two ways, loaded once. Violated: nodes behind alternatives are listed repeatedly; loading a second rulebase changes the names (the root's becomes [|]).  Without alternative and loaded once: each used node listed once under the unique text leading to it (C85_no_alternative); how two names of a node are merged (C85_merged_name)."
  },
  {
   "property": "C86",
   "status": "partial",
   "theorems": [
    "LN.C86_meaning_unique",
    "LN.C86_rejected",
    "LN.C86_rulebase_required",
    "LN.C86_load_failure",
    "LN.C86_run_partial",
    "LN.C86_run_version1_partial",
    "LN.C86_dot_partial",
    "LN.C86_dot_option_violated",
    "LN.C86_mixed_rulebases_violated",
    "LN.C86_version1_reports_violated"
   ],
   "note": "All command lines and inputs; a run which ends normally does what the options say, with rules of version 2 and 1. Missing: messages of -v, two streams for one file. Violated: -d without argument as documented; -r with -R twice is accepted; reports for version 1 rules are empty."
  },
  {
   "property": "C87",
   "status": "partial",
   "theorems": [
    "LN.C87_file_partial",
    "LN.C87_text_partial",
    "LN.C87_types_file_partial",
    "LN.C87_types_text_partial",
    "LN.C87_repeat_file_partial",
    "LN.C87_repeat_text_partial",
    "LN.C87_alternative_file_partial",
    "LN.C87_alternative_text_partial"
   ],
   "note": "From command line, rulebase file and log to stdout, stderr and exit code, including that the run ends. Missing: what C78 misses, special names of fields. Also for rulebases with user-defined types, repeat and alternative fields."
  },
  {
   "property": "C88",
   "status": "partial",
   "theorems": [
    "LN.C88_end_to_end_partial",
    "LN.C88_string_end_to_end_partial",
    "LN.C88_file_end_to_end_partial",
    "LN.C88_leak_violated",
    "LN.C88_lost_violated",
    "LN.C88_sequence_violated",
    "LN.C88_nested_violated"
   ],
   "note": "end to end for alternatives between single fields whose alternatives keep apart, malformed rules included, with exactly the messages about them; witnesses show that without this fields leak between rules or are lost, that a sequence which is not the first branch is misread, and that nested alternatives lose the rule"
  }
 ]
}