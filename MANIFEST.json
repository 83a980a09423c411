{
 "claims": [
  {
   "property": "C01",
   "status": "proved",
   "theorems": [
    "Strpp.C01_utf8_round_trip",
    "Strpp.C01_reserved_not_round_trip"
   ],
   "note": "Exact: the round trip holds exactly for the non-reserved values; C01_reserved_not_round_trip shows the exclusion is needed."
  },
  {
   "property": "C02",
   "status": "proved",
   "theorems": [
    "Strpp.C02_utf8_len",
    "Strpp.C02_utf8_len_value",
    "Strpp.C02_utf8_shape"
   ],
   "note": ""
  },
  {
   "property": "C03",
   "status": "proved",
   "theorems": [
    "Strpp.C03_utf8_get_safe"
   ],
   "note": ""
  },
  {
   "property": "C04",
   "status": "partial",
   "theorems": [
    "Strpp.C04_len_scan_partial",
    "Strpp.C04_len_scan_wellformed",
    "Strpp.C04_refuted_overread"
   ],
   "note": "Proved for well-formed text and for any buffer when the sequence fits before the NUL; refuted at full strength (UTF8Len(const UTF8*) trusts the lead byte and runs past a NUL)."
  },
  {
   "property": "C05",
   "status": "proved",
   "theorems": [
    "Strpp.C05_sequence_round_trip",
    "Strpp.C05_injective",
    "Strpp.C05_append"
   ],
   "note": ""
  },
  {
   "property": "C06",
   "status": "partial",
   "theorems": [
    "Strpp.C06_backup_partial",
    "Strpp.C06_backup_wellformed",
    "Strpp.C06_backup_limited",
    "Strpp.C06_refuted_malformed"
   ],
   "note": "Proved for encoded text; refuted on malformed bytes (backs over a longer run)."
  },
  {
   "property": "C07",
   "status": "partial",
   "theorems": [
    "Strpp.C07_reencode_partial",
    "Strpp.C07_refuted_overlong"
   ],
   "note": "Proved for every maximal sequence that decodes to a shortest form; refuted for overlong forms."
  },
  {
   "property": "C08",
   "status": "proved",
   "theorems": [
    "Strpp.C08_utf16_units",
    "Strpp.C08_utf16_round_trip"
   ],
   "note": ""
  },
  {
   "property": "C09",
   "status": "partial",
   "theorems": [
    "Strpp.C09_utf16_get_partial",
    "Strpp.C09_refuted_lone_surrogate"
   ],
   "note": "Complete description of UTF16Get for every unit pair except that a lone trailing surrogate aborts on an assertion instead of giving the replacement character (C09_refuted_lone_surrogate)."
  },
  {
   "property": "C10",
   "status": "proved",
   "theorems": [
    "Strpp.C10_upper_memo_independent",
    "Strpp.C10_lower_memo_independent",
    "Strpp.C10_digit_memo_independent"
   ],
   "note": ""
  },
  {
   "property": "C11",
   "status": "proved",
   "theorems": [
    "Strpp.C11_upper_is_table",
    "Strpp.C11_lower_is_table",
    "Strpp.C11_above_bmp"
   ],
   "note": ""
  },
  {
   "property": "C12",
   "status": "proved",
   "theorems": [
    "Strpp.C12_upper_idempotent",
    "Strpp.C12_lower_idempotent",
    "Strpp.C12_ascii",
    "Strpp.C12_title",
    "Strpp.C12_alphabetic"
   ],
   "note": ""
  },
  {
   "property": "C13",
   "status": "partial",
   "theorems": [
    "Strpp.C13_digit_partial",
    "Strpp.C13_refuted_special",
    "Strpp.C13_hex_digit",
    "Strpp.C13_ascii_digit",
    "Strpp.C13_white"
   ],
   "note": "Proved for the digit rows of the table and for white space; refuted for U+3007 and U+3021..3029: the special cases in UCS4Digit are dead code."
  },
  {
   "property": "C14",
   "status": "partial",
   "theorems": [
    "Strpp.C14_increment_partial",
    "Strpp.C14_nul_add_partial",
    "Strpp.C14_guarded_add_partial",
    "Strpp.C14_forward_sequence_partial",
    "Strpp.C14_refuted",
    "Strpp.C14_guarded_overshoot"
   ],
   "note": "Proved for forward moves; refuted for negative moves and GuardedCharPtr overshoot, which the code gets wrong."
  },
  {
   "property": "C15",
   "status": "partial",
   "theorems": [
    "Strpp.C15_guarded_add_partial",
    "Strpp.C15_increment_partial",
    "Strpp.C15_decrement_partial",
    "Strpp.C15_deref_partial",
    "Strpp.C15_refuted"
   ],
   "note": "Proved on encoded text; refuted for overlong NUL and mid-character origins."
  },
  {
   "property": "C16",
   "status": "partial",
   "theorems": [
    "Strpp.ErrNum.C16_msg",
    "Strpp.ErrNum.C16_set_partial",
    "Strpp.ErrNum.C16_injective_partial",
    "Strpp.ErrNum.C16_int_round_trip",
    "Strpp.ErrNum.C16_repack",
    "Strpp.ErrNum.C16_refuted",
    "Strpp.ErrNum.C16_never_negative"
   ],
   "note": "msg() always comes back; set() comes back or'ed with 0x3000, so exactly the set numbers with those bits survive; refuted for others (C16_refuted). The int32 round trip and re-packing are proved without restriction."
  },
  {
   "property": "C17",
   "status": "proved",
   "theorems": [
    "Strpp.RC.C17_no_fault",
    "Strpp.RC.C17_not_early",
    "Strpp.RC.C17_quiescent",
    "Strpp.RC.C17_calls_end",
    "Strpp.RC.C17_can_finish"
   ],
   "note": ""
  },
  {
   "property": "C18",
   "status": "proved",
   "theorems": [
    "Strpp.Arr.C18_isolation",
    "Strpp.Arr.C18_history"
   ],
   "note": ""
  },
  {
   "property": "C19",
   "status": "partial",
   "theorems": [
    "Strpp.Arr.C19_step_partial",
    "Strpp.Arr.C19_history_partial",
    "Strpp.Arr.C19_elem",
    "Strpp.Arr.C19_refuted_push",
    "Strpp.Arr.C19_refuted_remove",
    "Strpp.Arr.C19_refuted_clear",
    "Strpp.Arr.C19_refuted_slice"
   ],
   "note": "Every call with legal arguments gives the list result, and so does any history of such calls, except where the code is wrong: push/insert/remove-from-the-middle on an unshared array whose slice has a non-zero offset, and slices that reach the end of their body, which abort (C19_refuted_*)."
  },
  {
   "property": "C20",
   "status": "partial",
   "theorems": [
    "Strpp.Arr.C20_find",
    "Strpp.Arr.C20_rfind_partial",
    "Strpp.Arr.C20_refuted",
    "Strpp.Arr.C20_quantifiers",
    "Strpp.Arr.C20_inject",
    "Strpp.Arr.C20_equal",
    "Strpp.Arr.C20_compare_partial",
    "Strpp.Arr.C20_bsearch_partial"
   ],
   "note": "find, all/any/one/find_index/detect, inject and equality are proved; rfind is proved except that it never reports index 0, compare except when the first array is longer with equal prefix; bsearch only as sound when it reports an index (it misses elements and may read beyond the end)."
  },
  {
   "property": "C21",
   "status": "proved",
   "theorems": [
    "Strpp.Arr.C21_insert",
    "Strpp.Arr.C21_remove",
    "Strpp.Arr.C21_resize"
   ],
   "note": ""
  },
  {
   "property": "C22",
   "status": "partial",
   "theorems": [
    "Strpp.CM.C22_isolation_partial",
    "Strpp.CM.C22_refuted_put"
   ],
   "note": "Proved for every call and history except put of a key already present in a shared body, where the code erases the key from the sharers (C22_refuted_put)."
  },
  {
   "property": "C23",
   "status": "proved",
   "theorems": [
    "Strpp.CM.C23_step",
    "Strpp.CM.C23_reads",
    "Strpp.CM.C23_history"
   ],
   "note": ""
  },
  {
   "property": "C24",
   "status": "proved",
   "theorems": [
    "Strpp.SV.C24_isolation",
    "Strpp.SV.C24_isolation_history"
   ],
   "note": "For every history, safe or not, and every call: only the variable called on changes. (remove and clear do not exist in the code.)"
  },
  {
   "property": "C25",
   "status": "partial",
   "theorems": [
    "Strpp.SV.C25_index",
    "Strpp.SV.C25_substr",
    "Strpp.SV.C25_head",
    "Strpp.SV.C25_tail",
    "Strpp.SV.C25_shorter",
    "Strpp.SV.C25_refuted_shorter",
    "Strpp.SV.C25_refuted_tail"
   ],
   "note": "Proved for every reached state, all indices and lengths; refuted for shorter(length+1) (whole string) and tail(n>length) (empty)."
  },
  {
   "property": "C26",
   "status": "partial",
   "theorems": [
    "Strpp.SV.C26_equal",
    "Strpp.SV.C26_compare_partial",
    "Strpp.SV.C26_compare_slice_partial",
    "Strpp.SV.C26_refuted_compare"
   ],
   "note": "operator== exact. compare is the code point order when the comparand reaches its body's end or is not a proper prefix; refuted for a comparand slice with hidden text after it."
  },
  {
   "property": "C27",
   "status": "partial",
   "theorems": [
    "Strpp.SV.C27_find_partial",
    "Strpp.SV.C27_findAny_partial",
    "Strpp.SV.C27_findNot_partial",
    "Strpp.SV.C27_find_exact",
    "Strpp.SV.C27_rfind",
    "Strpp.SV.C27_rfindAny",
    "Strpp.SV.C27_rfindNot",
    "Strpp.SV.C27_findStr_partial",
    "Strpp.SV.C27_rfindStr_partial",
    "Strpp.SV.C27_refuted_find",
    "Strpp.SV.C27_refuted_findStr",
    "Strpp.SV.C27_refuted_rfindStr"
   ],
   "note": "Backward character searches exact. Forward searches exact up to their one extra character (C27_find_exact); string searches for needles not longer than the string; refuted: hidden character after the slice, longer needle, rfind(s,0)."
  },
  {
   "property": "C28",
   "status": "partial",
   "theorems": [
    "Strpp.SV.C28_plus",
    "Strpp.SV.C28_append_partial",
    "Strpp.SV.C28_append_char_partial",
    "Strpp.SV.C28_insert_partial",
    "Strpp.SV.C28_insert_end_partial",
    "Strpp.SV.C28_refuted_append_to_slice",
    "Strpp.SV.C28_refuted_insert_bookmark",
    "Strpp.SV.C28_refuted_self_append"
   ],
   "note": "operator+ proved for all strings; +=, insert for all except unshared slices with an offset, self append, and stale bookmarks (refuted)."
  },
  {
   "property": "C29",
   "status": "not_applicable",
   "theorems": [],
   "note": "StrVal::remove is commented out in the code (include/strval.h): there is nothing to model."
  },
  {
   "property": "C30",
   "status": "partial",
   "theorems": [
    "Strpp.SV.C30_transform_partial",
    "Strpp.SV.C30_toUpper_partial",
    "Strpp.SV.C30_toLower_partial",
    "Strpp.SV.C30_times",
    "Strpp.SV.C30_join",
    "Strpp.SV.C30_refuted_reveal"
   ],
   "note": "operator* and join proved for all strings; transform, toUpper, toLower for strings that show their whole body or share it (refuted for unshared slices)."
  },
  {
   "property": "C31",
   "status": "partial",
   "theorems": [
    "Strpp.SV.C31_codes",
    "Strpp.SV.C31_illegal_radix",
    "Strpp.SV.C31_no_digits",
    "Strpp.SV.C31_not_number",
    "Strpp.SV.C31_overflow",
    "Strpp.SV.C31_value_partial",
    "Strpp.SV.C31_value_int32",
    "Strpp.SV.C31_total",
    "Strpp.SV.C31_success_partial",
    "Strpp.SV.C31_refuted_truncation",
    "Strpp.SV.C31_refuted_long_min",
    "Strpp.SV.C31_refuted_prefix"
   ],
   "note": "False in full: values beyond 32 bits are truncated silently, -2^63 reaches signed overflow, and an explicit radix 16/2 does not accept the prefix (three refuted theorems). Proved: the exact value for every numeral that fits, and the exact error code in every other case."
  },
  {
   "property": "C32",
   "status": "partial",
   "theorems": [
    "Strpp.SV.C32_asJSON_partial",
    "Strpp.SV.C32_asJSON_bmp",
    "Strpp.SV.C32_toJSON_partial",
    "Strpp.SV.C32_refuted_astral",
    "Strpp.SV.C32_refuted_nul",
    "Strpp.SV.C32_refuted_abort"
   ],
   "note": "False in full for astral characters (surrogates of ch+0x10000), NUL (written \\0) and >= U+100000 (assertion). Proved for every string of BMP characters without NUL: the output decodes to the original."
  },
  {
   "property": "C33",
   "status": "partial",
   "theorems": [
    "Strpp.Var.C33_construct",
    "Strpp.Var.C33_as_int",
    "Strpp.Var.C33_as_long",
    "Strpp.Var.C33_refuted_type",
    "Strpp.Var.C33_number_to_string",
    "Strpp.Var.C33_string_longlong",
    "Strpp.Var.C33_string_longlong_only",
    "Strpp.Var.C33_refuted_string",
    "Strpp.Var.C33_refuted_trailing",
    "Strpp.Var.C33_round_trip",
    "Strpp.Var.C33_stored",
    "Strpp.Var.C33_impossible",
    "Strpp.Var.C33_type_partial"
   ],
   "note": "False in full: coercing between number types never changes type(), and the error test is inverted for String to Integer/Long, so a well-formed numeral aborts and '12abc' gives 12 (refuted theorems). Proved: construction, as_int/as_long/as_longlong values and aborts, number to string and back, for all values."
  },
  {
   "property": "C34",
   "status": "partial",
   "theorems": [
    "Strpp.Var.C34_json_partial",
    "Strpp.Var.C34_refuted",
    "Strpp.Var.C34_tight"
   ],
   "note": "False in full where C32 is. Proved: for every nested value whose strings are plain, and every indent, the output is one JSON text that denotes the value (grammar in Spec/JsonText.lean)."
  },
  {
   "property": "C35",
   "status": "partial",
   "theorems": [
    "Strpp.Fmt.C35_format",
    "Strpp.Fmt.C35_plain",
    "Strpp.Fmt.C35_too_few",
    "Strpp.Fmt.C35_safe",
    "Strpp.Fmt.C35_refuted_numbered",
    "Strpp.Fmt.C35_refuted_star",
    "Strpp.Fmt.C35_percent",
    "Strpp.Fmt.C35_refuted_overflow",
    "Strpp.Fmt.C35_refuted_size"
   ],
   "note": "Numbered arguments and stars do not work (refuted theorems), and a size of 10 digits overflows. Proved: exact output for all format strings made of text and size/precision directives, abort on too few arguments, and for every other format string that it returns or aborts without reading outside."
  },
  {
   "property": "C36",
   "status": "proved",
   "theorems": [
    "Strpp.Pex.C36_match_here_terminates",
    "Strpp.Pex.C36_match_terminates",
    "Strpp.Pex.C36_skip_terminates"
   ],
   "note": "For every pattern (well-formed or not), text and position; the loops' step bounds are text length + 1 and pattern length + 1."
  },
  {
   "property": "C37",
   "status": "proved",
   "theorems": [
    "Strpp.Pex.C37_match_here",
    "Strpp.Pex.C37_atom",
    "Strpp.Pex.C37_lookahead",
    "Strpp.Pex.C37_search"
   ],
   "note": "For every pattern for which matching is defined (C40). C37_lookahead holds for every Context and subclass."
  },
  {
   "property": "C38",
   "status": "partial",
   "theorems": [
    "Strpp.Pex.C38_one_result_partial",
    "Strpp.Pex.C38_matches_partial",
    "Strpp.Pex.C38_fails_partial",
    "Strpp.Pex.C38_refuted_opt_plus",
    "Strpp.Pex.C38_refuted_and_star",
    "Strpp.Pex.C38_refuted_empty_alternate",
    "Strpp.Pex.C38_refuted_optional_alternates",
    "Strpp.Pex.C38_refuted_high_byte",
    "Strpp.Pex.C38_refuted_escaped_range",
    "Strpp.Pex.C38_refuted_wide_property"
   ],
   "note": "False in full: operands that begin with an unparenthesised ?, *, + or |, empty alternates, bytes from 0x80 up, ranges starting with an escaped letter, and properties on characters above 255 (refuted theorems). Proved, both ways, for every expression written as Expr.wf says, against the big-step semantics of PEGs."
  },
  {
   "property": "C39",
   "status": "proved",
   "theorems": [
    "Strpp.Pex.C39_first",
    "Strpp.Pex.C39_total",
    "Strpp.Pex.C39_expressions"
   ],
   "note": "C39_first for every pattern; C39_expressions in terms of the meaning."
  },
  {
   "property": "C40",
   "status": "partial",
   "theorems": [
    "Strpp.Pex.C40_tidy_partial",
    "Strpp.Pex.C40_properties_partial",
    "Strpp.Pex.C40_refuted_backslash",
    "Strpp.Pex.C40_refuted_and",
    "Strpp.Pex.C40_refuted_hex"
   ],
   "note": "False in full: patterns that end after a backslash, & or \\x{ (refuted theorems). Proved for all other patterns (tidy), with the provision that characters tested for a property are in the range of <cctype>."
  },
  {
   "property": "C41",
   "status": "proved",
   "theorems": [
    "Strpp.Pex.C41_get_char",
    "Strpp.Pex.C41_reads",
    "Strpp.Pex.C41_get_byte",
    "Strpp.Pex.C41_get_byte_end"
   ],
   "note": ""
  },
  {
   "property": "C42",
   "status": "partial",
   "theorems": [
    "Strpp.Pex.C42_lookup_partial",
    "Strpp.Pex.C42_top_partial",
    "Strpp.Pex.C42_top_name_partial",
    "Strpp.Pex.C42_refuted_digits"
   ],
   "note": "Proved when no supplied name continues the called one with a byte below '>' (C42_lookup_partial, C42_top_partial); refuted for names with digits or '-' after a shared prefix: the table is sorted by strcmp and searched with the called name's '>' as its end (C42_refuted_digits). C53 is the exact contract for names of letters and underscores."
  },
  {
   "property": "C43",
   "status": "proved",
   "theorems": [
    "Strpp.Pex.C43_ends",
    "Strpp.Pex.C43_left_recursion",
    "Strpp.Pex.C43_otherwise_run"
   ],
   "note": "Ends: the recursion bound in the model (number of rules x (bytes+1) + 1) is never exhausted, for every set of rules and text, well-formed or not."
  },
  {
   "property": "C44",
   "status": "partial",
   "theorems": [
    "Strpp.Pex.C44_furthermost_partial",
    "Strpp.Pex.C44_report_partial",
    "Strpp.Pex.C44_operators_partial",
    "Strpp.Pex.C44_extended_partial",
    "Strpp.Pex.C44_captures_partial",
    "Strpp.Pex.C44_rollback_partial",
    "Strpp.Pex.C44_rollback_zero_partial",
    "Strpp.Pex.C44_refuted_rollback",
    "Strpp.Pex.C44_refuted_abandoned"
   ],
   "note": "Furthermost place and records over every history of failures, captures over every history of captures; but failures of '.', escapes, '^' and '$' are not recorded, a failed parse reports nothing, and rolling back does nothing unless it is to zero (C44_refuted_*)."
  },
  {
   "property": "C45",
   "status": "partial",
   "theorems": [
    "Strpp.Th.C45_count_partial",
    "Strpp.Th.C45_once_partial",
    "Strpp.Th.C45_joinAny_partial",
    "Strpp.Th.C45_no_fault_partial",
    "Strpp.Th.C45_refuted_last",
    "Strpp.Th.C45_refuted_exit",
    "Strpp.Th.C45_refuted_reuse",
    "Strpp.Th.C45_refuted_garbage"
   ],
   "note": "Proved for runs without exit(), without reuse of an id while a Thread with it exists, without a garbage state Ended, and with one action per statement under sequential consistency. Each of the three conditions is needed (C45_refuted_exit, _reuse, _garbage), and joinAny returns 0 when only one Thread is listed, ended or not (C45_refuted_last)."
  },
  {
   "property": "C46",
   "status": "proved",
   "theorems": [
    "Strpp.Lt.C46_exclusive",
    "Strpp.Lt.C46_enters",
    "Strpp.Lt.C46_holding",
    "Strpp.Lt.C46_aborts",
    "Strpp.Lt.C46_probe",
    "Strpp.Lt.C46_lets_in"
   ],
   "note": "pthreads Latch; the mutex is trusted to behave as an error-checking mutex."
  },
  {
   "property": "C47",
   "status": "proved",
   "theorems": [
    "Strpp.Rx.C47_offset",
    "Strpp.Rx.C47_char",
    "Strpp.Rx.C47_text",
    "Strpp.Rx.C47_count",
    "Strpp.Rx.C47_stations_doubled"
   ],
   "note": "The doubled station count is part of the statement (C47_stations_doubled)."
  },
  {
   "property": "C48",
   "status": "partial",
   "theorems": [
    "Strpp.Rx.C48_search_terminates_partial",
    "Strpp.Rx.C48_refuted_alternatives",
    "Strpp.Rx.C48_refuted_threads"
   ],
   "note": "Termination in a number of steps that does not depend on the text, and no access outside program or text, for expressions of weight at most 992 (any expression written with up to 66 characters) made of characters, escapes, classes, ., groups, |, *, +, ?, counted repetition, ^, $. False: 14 alternatives abort, and so does (^\\n|^\\n)*. C60 has the exact contract without aborts."
  },
  {
   "property": "C49",
   "status": "partial",
   "theorems": [
    "Strpp.Rx.C49_search_partial",
    "Strpp.Rx.C49_at_partial",
    "Strpp.Rx.C49_short_partial",
    "Strpp.Rx.C49_refuted_nul",
    "Strpp.Rx.C49_refuted_named",
    "Strpp.Rx.C49_refuted_count",
    "Strpp.Rx.C49_refuted_counted",
    "Strpp.Rx.C49_refuted_lookahead",
    "Strpp.Rx.C49_refuted_large"
   ],
   "note": "For every expression of the modelled syntax of weight at most 992 without counted repetition, whenever a result is returned it is right (leftmost longest, exactly if there is a match). False for named groups, NUL in the text, counted repetition, lookahead and large expressions."
  },
  {
   "property": "C50",
   "status": "proved",
   "theorems": [
    "Strpp.Rx.C50_isolation",
    "Strpp.Rx.C50_values",
    "Strpp.Rx.C50_history",
    "Strpp.Rx.C50_bodies"
   ],
   "note": ""
  },
  {
   "property": "C51",
   "status": "proved",
   "theorems": [
    "Strpp.RC.C51_unshare_exclusive"
   ],
   "note": ""
  },
  {
   "property": "C52",
   "status": "proved",
   "theorems": [
    "Strpp.SV.C52_history",
    "Strpp.SV.C52_step",
    "Strpp.SV.C52_bytes"
   ],
   "note": "The region in which calls are safe is spelled out in Safe (Proof/StrHistory.lean); outside of it see C25-C30 refutations."
  },
  {
   "property": "C53",
   "status": "proved",
   "theorems": [
    "Strpp.Pex.C53_lookup"
   ],
   "note": ""
  },
  {
   "property": "C54",
   "status": "proved",
   "theorems": [
    "Strpp.Pex.C54_one_meaning",
    "Strpp.Pex.C54_standard_meaning",
    "Strpp.Pex.C54_parses",
    "Strpp.Pex.C54_fails",
    "Strpp.Pex.C54_standard"
   ],
   "note": "Grammar.Ok is the well-formedness of C38 for each rule and distinct names of letters and underscores."
  },
  {
   "property": "C55",
   "status": "proved",
   "theorems": [
    "Strpp.Pex.C55_memory_safe"
   ],
   "note": ""
  },
  {
   "property": "C56",
   "status": "partial",
   "theorems": [
    "Strpp.Pex.C56_captured_partial",
    "Strpp.Pex.C56_call_partial",
    "Strpp.Pex.C56_no_captures_partial",
    "Strpp.Pex.C56_refuted_prefix"
   ],
   "note": "Captured exactly when a listed name is a prefix of the text from the label on; refuted at full strength."
  },
  {
   "property": "C57",
   "status": "proved",
   "theorems": [
    "Strpp.Th.C57_no_lost_wakeup",
    "Strpp.Th.C57_latch_released",
    "Strpp.Th.C57_joinAny_returns"
   ],
   "note": "Under the conditions in the statement; pthread_cond_wait trusted, with spurious wakeups."
  },
  {
   "property": "C58",
   "status": "proved",
   "theorems": [
    "Strpp.Th.C58_current",
    "Strpp.Th.C58_listed"
   ],
   "note": "Under the conditions in the statement."
  },
  {
   "property": "C59",
   "status": "partial",
   "theorems": [
    "Strpp.Rx.C59_compiles_partial",
    "Strpp.Rx.C59_refuted_thirty",
    "Strpp.Rx.C59_refuted_seventy",
    "Strpp.Rx.C59_refuted_overflow"
   ],
   "note": "False in general: 30 characters abort, [aaa...]* overruns the buffer, [0-9]{70} aborts. True (counted repetition included) for small expressions and those whose compiled form has at least 107 bytes, up to weight 992, if the counts exceed 4 by at most 30 altogether."
  },
  {
   "property": "C60",
   "status": "proved",
   "theorems": [
    "Strpp.Rx.C60_search_compiled",
    "Strpp.Rx.C60_at_compiled",
    "Strpp.Rx.C60_search",
    "Strpp.Rx.C60_at",
    "Strpp.Rx.C60_plain"
   ],
   "note": "The check is Re.steady of Spec/RxSteady.lean; weight, code size, offsets and nesting are the functions of the expression in Spec/RxSize.lean. Examples beside the theorem: cat|dog, ^([a-z]+|.\\d*)$, (ab)*[0-9]+.?; (^\\n|^\\n)*, which aborts, does not pass."
  },
  {
   "property": "C61",
   "status": "proved",
   "theorems": [
    "Strpp.Rx.C61_deep_refused",
    "Strpp.Rx.C61_others_not"
   ],
   "note": "No bound on the size of the expression."
  },
  {
   "property": "C62",
   "status": "proved",
   "theorems": [
    "Strpp.Rx.C62_ends",
    "Strpp.Rx.C62_reads",
    "Strpp.Rx.C62_refused",
    "Strpp.Rx.C62_long_min"
   ],
   "note": "The second pass is C59; here it is only shown to end."
  },
  {
   "property": "C63",
   "status": "proved",
   "theorems": [
    "Strpp.Rx.C63_history",
    "Strpp.Rx.C63_countersSame",
    "Strpp.Rx.C63_failed",
    "Strpp.Rx.C63_limit"
   ],
   "note": "Together with C50, which reduces any number of variables that share bodies to values."
  },
  {
   "property": "C64",
   "status": "partial",
   "theorems": [
    "Strpp.VM.C64_values",
    "Strpp.VM.C64_no_leak_partial",
    "Strpp.VM.C64_all_released_partial",
    "Strpp.VM.C64_reached_exists",
    "Strpp.VM.C64_counts_partial",
    "Strpp.VM.C64_refuted_leak"
   ],
   "note": "Values and safety hold for all histories. That everything is released holds for histories in which no string is coerced to a number, and is refuted for the others (C64_refuted_leak). One thread; slices of strings are whole texts (C24-C30 and C52 are about slices)."
  },
  {
   "property": "C65",
   "status": "proved",
   "theorems": [
    "Strpp.Err.C65_no_fault",
    "Strpp.Err.C65_value",
    "Strpp.Err.C65_no_error",
    "Strpp.Err.C65_calls_end",
    "Strpp.Err.C65_released",
    "Strpp.Err.C65_all_released"
   ],
   "note": "On top of the reference counting machine of C17; the three members of a Body are opaque values."
  },
  {
   "property": "C66",
   "status": "proved",
   "theorems": [
    "Strpp.Pex.C66_one_meaning",
    "Strpp.Pex.C66_extent",
    "Strpp.Pex.C66_ast",
    "Strpp.Pex.C66_label_in_top"
   ],
   "note": "The meaning includes what C44 and C56 find wrong (captures of abandoned sequences, names that are begun by a listed one) as it is in the code. C66_label_in_top shows that a label in TOP captures a map."
  },
  {
   "property": "C67",
   "status": "proved",
   "theorems": [
    "Strpp.Rx.C67_compile",
    "Strpp.Rx.C67_respell",
    "Strpp.Rx.C67_meaning",
    "Strpp.Rx.C67_search",
    "Strpp.Rx.C67_rejected",
    "Strpp.Rx.C67_rejected_repetition",
    "Strpp.Rx.C67_quest_ignored",
    "Strpp.Rx.C67_space_before_star",
    "Strpp.Rx.C67_rejected_capture"
   ],
   "note": "C67_space_before_star and C67_rejected_capture show what is outside the rules. Rejected escapes (\\n, \\x41, \\s, ...) are not refused: they are read as the character after the backslash, as C67_compile says."
  },
  {
   "property": "C68",
   "status": "proved",
   "theorems": [
    "Strpp.Rx.C68_search",
    "Strpp.Rx.C68_at",
    "Strpp.Rx.C68_short",
    "Strpp.Rx.C68_none",
    "Strpp.Rx.C68_features",
    "Strpp.Rx.C68_missed_empty"
   ],
   "note": "Soundness only; C68_missed_empty and C49_refuted_counted show that matches can be missed."
  },
  {
   "property": "C69",
   "status": "proved",
   "theorems": [
    "Strpp.ArrPar.C69_start_ok",
    "Strpp.ArrPar.C69_no_fault",
    "Strpp.ArrPar.C69_value",
    "Strpp.ArrPar.C69_out_of_range",
    "Strpp.ArrPar.C69_no_race",
    "Strpp.ArrPar.C69_read_no_race",
    "Strpp.ArrPar.C69_calls_end",
    "Strpp.ArrPar.C69_can_finish",
    "Strpp.ArrPar.C69_released",
    "Strpp.ArrPar.C69_all_released",
    "Strpp.ArrPar.C69_front_needed"
   ],
   "note": "On top of the reference counting machine of C17. Sequentially consistent interleavings; copying one element is one action, as is a reallocation. C69_front_needed shows that the restriction on rests is needed. insert of another Array, and bodies on borrowed data, are not in this model (C19 has them, for one thread)."
  },
  {
   "property": "C70",
   "status": "partial",
   "theorems": [
    "Strpp.SP.C70_no_write_partial",
    "Strpp.SP.C70_reads_partial",
    "Strpp.SP.C70_finish_partial",
    "Strpp.SP.C70_alone_partial",
    "Strpp.SP.C70_refuted_double_count",
    "Strpp.SP.C70_refuted_abort"
   ],
   "note": "C70_refuted_double_count and C70_refuted_abort are reachable counterexamples. The positive theorems need the body's characters to be counted (Counted), or a single thread. Sequentially consistent interleavings of the accesses to num_chars; the bytes do not change. Other const members (compare, find...) are made of the same lookups but are not in this model."
  },
  {
   "property": "C71",
   "status": "partial",
   "theorems": [
    "Strpp.LM.C71_after_quiet_partial",
    "Strpp.LM.C71_first_alone_partial",
    "Strpp.LM.C71_refuted_race"
   ],
   "note": "C71_refuted_race is the counterexample; the positive theorems hold for every interleaving after a quiet moment. The POSIX functions on mutex attributes are trusted as described in Model/LatchMake.lean."
  },
  {
   "property": "C72",
   "status": "partial",
   "theorems": [
    "Strpp.LM.C72_deadline_partial",
    "Strpp.LM.C72_refuted_no_wait"
   ],
   "note": "C72_refuted_no_wait refutes it for all usual delays and dates; the model of pthread_cond_timedwait is its POSIX description, without signals and spurious wake-ups."
  },
  {
   "property": "C73",
   "status": "proved",
   "theorems": [
    "Strpp.C73_len_scan",
    "Strpp.C73_backup",
    "Strpp.C73_backup_unlimited",
    "Strpp.C73_backup_undoes",
    "Strpp.C73_cut",
    "Strpp.C73_reencode"
   ],
   "note": "Exact companion of C04, C06, C07."
  },
  {
   "property": "C74",
   "status": "proved",
   "theorems": [
    "Strpp.C74_get_release",
    "Strpp.C74_get",
    "Strpp.C74_get_safe",
    "Strpp.C74_put_release",
    "Strpp.C74_put",
    "Strpp.C74_len_at"
   ],
   "note": "Exact companion of C09; the NDEBUG build is in Model/Utf16Release.lean."
  },
  {
   "property": "C75",
   "status": "proved",
   "theorems": [
    "Strpp.C75_nul_char",
    "Strpp.C75_guarded_char",
    "Strpp.C75_utf8_forward",
    "Strpp.C75_utf8_increment",
    "Strpp.C75_utf8_back",
    "Strpp.C75_guarded_utf8_stays"
   ],
   "note": "Exact companion of C14, C15. What the pointers do is stated as it is, so the refuted parts of C14 and C15 appear here as facts."
  },
  {
   "property": "C76",
   "status": "proved",
   "theorems": [
    "Strpp.Arr.C76_quantifiers",
    "Strpp.Arr.C76_find",
    "Strpp.Arr.C76_rfind",
    "Strpp.Arr.C76_null",
    "Strpp.Arr.C76_select",
    "Strpp.Arr.C76_map"
   ],
   "note": "Companion of C20 on the level of states of sharing arrays."
  },
  {
   "property": "C77",
   "status": "proved",
   "theorems": [
    "Strpp.Arr.C77_present",
    "Strpp.Arr.C77_absent",
    "Strpp.Arr.C77_past_end",
    "Strpp.Arr.C77_never_first",
    "Strpp.Arr.C77_greater_than_all"
   ],
   "note": "Exact companion of C20's binary search."
  },
  {
   "property": "C78",
   "status": "proved",
   "theorems": [
    "Strpp.SV.C78_exact",
    "Strpp.SV.C78_unique",
    "Strpp.SV.C78_illegal_radix",
    "Strpp.SV.C78_success"
   ],
   "note": "Exact companion of C31."
  },
  {
   "property": "C79",
   "status": "proved",
   "theorems": [
    "Strpp.SV.C79_compare",
    "Strpp.SV.C79_find",
    "Strpp.SV.C79_rfind",
    "Strpp.SV.C79_findStr",
    "Strpp.SV.C79_rfindStr",
    "Strpp.SV.C79_shorter"
   ],
   "note": "Exact companion of C25-C27. In compare one case is left out (the first text goes on with a NUL character after all that is stored of the second); strings longer than the text are taken without NUL characters."
  },
  {
   "property": "C80",
   "status": "proved",
   "theorems": [
    "Strpp.Arr.C80_push",
    "Strpp.Arr.C80_insert",
    "Strpp.Arr.C80_remove",
    "Strpp.Arr.C80_slice"
   ],
   "note": "Exact companion of C18, C19."
  },
  {
   "property": "C81",
   "status": "proved",
   "theorems": [
    "Strpp.CM.C81_history",
    "Strpp.CM.C81_total"
   ],
   "note": "Exact companion of C22: the disturbance by put is part of the specification."
  },
  {
   "property": "C82",
   "status": "proved",
   "theorems": [
    "Strpp.SV.C82_asJSON",
    "Strpp.SV.C82_right"
   ],
   "note": "Exact companion of C32: the wrong output for NUL and supplementary characters and the abort are part of the specification."
  },
  {
   "property": "C83",
   "status": "proved",
   "theorems": [
    "Strpp.Var.C83_total",
    "Strpp.Var.C83_coerce",
    "Strpp.Var.C83_as_number",
    "Strpp.Var.C83_as_other"
   ],
   "note": "Exact companion of C33: the inverted tests and kept types are part of the specification."
  },
  {
   "property": "C84",
   "status": "proved",
   "theorems": [
    "Strpp.Var.C84_json"
   ],
   "note": "Exact companion of C34: the strings are written as in C82."
  },
  {
   "property": "C85",
   "status": "proved",
   "theorems": [
    "Strpp.Fmt.C85_total",
    "Strpp.Fmt.C85_format"
   ],
   "note": "Exact companion of C35: the lost character after an argument number, the star that ends a directive and the size overflow are part of the specification."
  },
  {
   "property": "C86",
   "status": "proved",
   "theorems": [
    "Strpp.MapPar.C86_start_ok",
    "Strpp.MapPar.C86_no_fault",
    "Strpp.MapPar.C86_value",
    "Strpp.MapPar.C86_no_race",
    "Strpp.MapPar.C86_read_no_race",
    "Strpp.MapPar.C86_calls_end",
    "Strpp.MapPar.C86_can_finish",
    "Strpp.MapPar.C86_released",
    "Strpp.MapPar.C86_all_released",
    "Strpp.MapPar.C86_sole_needed"
   ],
   "note": "The proviso on put is needed: C86_sole_needed (put on a map that shares its entries takes the key away from the other map, and writes entries that others may be reading). Each std::map operation is one step; C86_no_race says no other call accesses the entries meanwhile."
  },
  {
   "property": "C87",
   "status": "proved",
   "theorems": [
    "Strpp.TextPar.C87_start_ok",
    "Strpp.TextPar.C87_no_fault",
    "Strpp.TextPar.C87_value",
    "Strpp.TextPar.C87_no_race",
    "Strpp.TextPar.C87_read_no_race",
    "Strpp.TextPar.C87_calls_end",
    "Strpp.TextPar.C87_can_finish",
    "Strpp.TextPar.C87_released",
    "Strpp.TextPar.C87_all_released",
    "Strpp.TextPar.C87_whole_needed"
   ],
   "note": "At the level of characters: what the transforms do to the bytes is C24-C32. The proviso is needed: C87_whole_needed (two interleavings of the same two calls, one of which leaves a string that reads past the end of its storage)."
  },
  {
   "property": "C88",
   "status": "proved",
   "theorems": [
    "Strpp.NestPar.C88_start_ok",
    "Strpp.NestPar.C88_no_fault",
    "Strpp.NestPar.C88_value",
    "Strpp.NestPar.C88_no_race",
    "Strpp.NestPar.C88_read_no_race",
    "Strpp.NestPar.C88_start_no_race",
    "Strpp.NestPar.C88_calls_end",
    "Strpp.NestPar.C88_can_finish",
    "Strpp.NestPar.C88_released",
    "Strpp.NestPar.C88_kept",
    "Strpp.NestPar.C88_all_released"
   ],
   "note": "Arrays and strings are whole bodies here (slices: C80, C87), maps are left out (C86); a variable is not made an element of itself. In-place growth of an array and in-place change of a text are one action each, which C88_start_no_race covers."
  },
  {
   "property": "C89",
   "status": "proved",
   "theorems": [
    "Strpp.C89_any_threads",
    "Strpp.C89_one_value",
    "Strpp.C89_not_digits",
    "Strpp.C89_hex",
    "Strpp.C89_ascii"
   ],
   "note": "Equality of codes with the published Unicode digit property is C13's refuted part; here the blocks are those of the table (Spec/CharClass)."
  },
  {
   "property": "C90",
   "status": "proved",
   "theorems": [
    "Strpp.ErrNum.C90_equal",
    "Strpp.ErrNum.C90_unpack",
    "Strpp.ErrNum.C90_set_survives",
    "Strpp.ErrNum.C90_msg_survives",
    "Strpp.ErrNum.C90_of_int"
   ],
   "note": ""
  },
  {
   "property": "C91",
   "status": "proved",
   "theorems": [
    "Strpp.SV.C91_substr",
    "Strpp.SV.C91_head",
    "Strpp.SV.C91_tail",
    "Strpp.SV.C91_shorter",
    "Strpp.SV.C91_head_and_rest"
   ],
   "note": "Safe calls as in C24; strings shorter than 2^30 characters."
  },
  {
   "property": "C92",
   "status": "proved",
   "theorems": [
    "Strpp.Pex.C92_call",
    "Strpp.Pex.C92_listed",
    "Strpp.Pex.C92_none",
    "Strpp.Pex.C92_lookahead"
   ],
   "note": "Captures within whole parses are C66."
  },
  {
   "property": "C93",
   "status": "proved",
   "theorems": [
    "Strpp.LM.C93_wait",
    "Strpp.LM.C93_at_once",
    "Strpp.LM.C93_negative"
   ],
   "note": "pthread_cond_timedwait is as POSIX describes it, without spurious wake-ups."
  },
  {
   "property": "C94",
   "status": "proved",
   "theorems": [
    "Strpp.VM.C94_live",
    "Strpp.VM.C94_counts",
    "Strpp.VM.C94_remains",
    "Strpp.VM.C94_how_many"
   ],
   "note": "As for C64: one thread, whole strings."
  },
  {
   "property": "C95",
   "status": "proved",
   "theorems": [
    "Strpp.Rx.C95_line",
    "Strpp.Rx.C95_order",
    "Strpp.Rx.C95_ends",
    "Strpp.Rx.C95_complete",
    "Strpp.Rx.C95_hex"
   ],
   "note": "Lines are modelled as the values printed, not their wording; completeness for expressions without lookahead and named groups (weight at most 992)."
  },
  {
   "property": "C96",
   "status": "proved",
   "theorems": [
    "Strpp.Source.C96_history",
    "Strpp.Source.C96_pairs",
    "Strpp.Source.C96_forwards",
    "Strpp.Source.C96_text",
    "Strpp.Source.C96_text_backwards",
    "Strpp.Source.C96_chars",
    "Strpp.Source.C96_matching"
   ],
   "note": "The off_t counts do not overflow; sources of one text."
  },
  {
   "property": "C97",
   "status": "proved",
   "theorems": [
    "Strpp.SV.Raw.C97_total",
    "Strpp.SV.Raw.C97_shows",
    "Strpp.SV.Raw.C97_compare",
    "Strpp.SV.Raw.C97_find",
    "Strpp.SV.Raw.C97_rfind",
    "Strpp.SV.Raw.C97_findStr",
    "Strpp.SV.Raw.C97_sum",
    "Strpp.SV.Raw.C97_case",
    "Strpp.SV.Raw.C97_otherwise",
    "Strpp.SV.Raw.C97_limit_sum",
    "Strpp.SV.Raw.C97_limit_insert",
    "Strpp.SV.Raw.C97_limit_find",
    "Strpp.SV.Raw.C97_limit_compare"
   ],
   "note": "One value at a time; sharing is that of C24-C28. Limits (C97_limit_...): sums, insertion of multi-byte characters, searching for bytes from 128 up, compare with a beginning."
  },
  {
   "property": "C98",
   "status": "proved",
   "theorems": [
    "Strpp.SV.Any.C98_make",
    "Strpp.SV.Any.C98_safe",
    "Strpp.SV.Any.C98_exact",
    "Strpp.SV.Any.C98_front",
    "Strpp.SV.Any.C98_limit_backwards",
    "Strpp.SV.Any.C98_limit_overread",
    "Strpp.SV.Any.C98_limit_none"
   ],
   "note": "Reading and substrings of one value. Limits (C98_limit_...): a lookup backwards after a truncated character, a read past the allocation, UCS4_NONE in the text."
  },
  {
   "property": "C99",
   "status": "proved",
   "theorems": [
    "Strpp.SV.C99_cases",
    "Strpp.SV.C99_insert",
    "Strpp.SV.C99_insert_chars",
    "Strpp.SV.C99_insert_front",
    "Strpp.SV.C99_insert_ascii",
    "Strpp.SV.C99_append",
    "Strpp.SV.C99_transform",
    "Strpp.SV.C99_toUpper",
    "Strpp.SV.C99_toLower"
   ],
   "note": "Exact companion of C28 and C30 for the strings those leave out. Size limit 1 GB."
  },
  {
   "property": "C100",
   "status": "proved",
   "theorems": [
    "Strpp.SV.C100_operators",
    "Strpp.SV.C100_order",
    "Strpp.SV.C100_map",
    "Strpp.SV.C100_runs",
    "Strpp.SV.C100_call",
    "Strpp.SV.C100_limit_slice",
    "Strpp.SV.C100_limit_nul"
   ],
   "note": "std::map's search and placement are described by hand from the library's documentation (trusted). The strings stay as they are during the run (keys are const; their storage is shared)."
  },
  {
   "property": "C101",
   "status": "proved",
   "theorems": [
    "Strpp.Arr.C101_pushes",
    "Strpp.Arr.C101_limit_kept"
   ],
   "note": "Counts assignments of elements in the loops; `new Element[n]` constructing n default elements and destructors are not counted."
  },
  {
   "property": "C102",
   "status": "proved",
   "theorems": [
    "Strpp.SV.C102_access",
    "Strpp.SV.C102_bound",
    "Strpp.SV.C102_scan",
    "Strpp.SV.C102_one_byte"
   ],
   "note": "Counts rounds of the loops. A cached count of a const access is not kept by the model (it is stated for strings already counted, and with the cost of counting otherwise)."
  },
  {
   "property": "C103",
   "status": "proved",
   "theorems": [
    "Strpp.Arr.C103_delete_if"
   ],
   "note": "Comparing `sp` (old storage) with `ep` (new storage) is taken as undefined behaviour, as C++ says of relational comparison used to bound a walk over another object."
  },
  {
   "property": "C104",
   "status": "proved",
   "theorems": [
    "Strpp.SV.C104_insert",
    "Strpp.SV.C104_insert_part",
    "Strpp.SV.C104_prepend",
    "Strpp.SV.C104_append",
    "Strpp.SV.C104_repeat",
    "Strpp.SV.C104_repeat_counted",
    "Strpp.SV.C104_shared",
    "Strpp.SV.C104_times",
    "Strpp.SV.C104_detach"
   ],
   "note": "Exact. Bytes copied by insertion are not counted (C101 counts those of arrays). The addend is a whole string whose characters are counted; a partial or uncounted one costs what C102 says for its two ends."
  },
  {
   "property": "C105",
   "status": "proved",
   "theorems": [
    "Strpp.SV.C105_plus",
    "Strpp.SV.C105_plus_char",
    "Strpp.SV.C105_elements",
    "Strpp.SV.C105_join"
   ],
   "note": "The elements of a StringArray are variables of their own here, as for join (C29); the Array that holds them is C01's subject."
  },
  {
   "property": "C106",
   "status": "proved",
   "theorems": [
    "Strpp.SV.C106_only",
    "Strpp.SV.C106_never",
    "Strpp.SV.C106_assign",
    "Strpp.SV.C106_part",
    "Strpp.SV.C106_ref"
   ],
   "note": "Holds for any call that comes back, not only those with good arguments (the reached state and the existence of the operands are the only hypotheses). StrRef is modelled as the temporary between two strings (C106_ref)."
  }
 ]
}