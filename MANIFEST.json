{
 "claims": [
  {
   "property": "C01",
   "status": "proved",
   "theorems": [
    "Licensecc.C01_license_ok_sound"
   ],
   "note": "Full statement, for every configuration, world, caller and hint."
  },
  {
   "property": "C02",
   "status": "proved",
   "theorems": [
    "Licensecc.C02_license_ok_complete",
    "Licensecc.C02_license_ok_iff"
   ],
   "note": "Full statement; C02_license_ok_iff combines both directions. 'Returns at all' is the hypothesis acquire = ok; C50 says when it does."
  },
  {
   "property": "C03",
   "status": "proved",
   "theorems": [
    "Licensecc.C03_exact_second",
    "Licensecc.C03_expired_never_grants",
    "Licensecc.C03_all_expired"
   ],
   "note": "Full statement at the level of the predicate the verdict is proved equivalent to (C02_license_ok_iff), and for calls."
  },
  {
   "property": "C04",
   "status": "proved",
   "theorems": [
    "Licensecc.C04_exact_second",
    "Licensecc.C04_early_never_grants",
    "Licensecc.C04_all_early"
   ],
   "note": "As C03."
  },
  {
   "property": "C05",
   "status": "proved",
   "theorems": [
    "Licensecc.C05_wrong_magic",
    "Licensecc.C05_no_caller"
   ],
   "note": "Full statement."
  },
  {
   "property": "C06",
   "status": "proved",
   "theorems": [
    "Licensecc.C06_needs_hardware",
    "Licensecc.C06_other_machine"
   ],
   "note": "Full statement; HwMatches spells out the identifying bytes."
  },
  {
   "property": "C07",
   "status": "proved",
   "theorems": [
    "Licensecc.C07_no_section_never_licensed",
    "Licensecc.C07_grants_isolated",
    "Licensecc.Ini.C07_isolation",
    "Licensecc.Ini.C07_foreign_sections",
    "Licensecc.Ini.C07_no_section"
   ],
   "note": "Full statement, on the text (Ini) and on the verdict."
  },
  {
   "property": "C08",
   "status": "proved",
   "theorems": [
    "Licensecc.C08_more_licences"
   ],
   "note": "Full statement for calls that return."
  },
  {
   "property": "C09",
   "status": "proved",
   "theorems": [
    "Licensecc.C09_merge",
    "Licensecc.C09_best_granting",
    "Licensecc.C09_best_refused",
    "Licensecc.C09_running_granting",
    "Licensecc.C09_running_refused",
    "Licensecc.C09_running_day"
   ],
   "note": "Full statement, for granting and for refused calls; C09_running_* for any course of the clock during the call."
  },
  {
   "property": "C10",
   "status": "proved",
   "theorems": [
    "Licensecc.C10_double",
    "Licensecc.C10_computed",
    "Licensecc.C10_nearest",
    "Licensecc.C10_monotone",
    "Licensecc.C10_later_expiry"
   ],
   "note": "C10_double, C10_computed: with the IEEE double arithmetic of the code (difftime, division, round), for all times, rounding to nearest in any way of breaking ties."
  },
  {
   "property": "C11",
   "status": "proved",
   "theorems": [
    "Licensecc.C11_failure_code"
   ],
   "note": "Full statement."
  },
  {
   "property": "C12",
   "status": "proved",
   "theorems": [
    "Licensecc.C12_null_dereference",
    "Licensecc.C12_otherwise_returns"
   ],
   "note": "The property is false of the code; proved: exact condition of the null dereference, and that the call returns otherwise."
  },
  {
   "property": "C13",
   "status": "proved",
   "theorems": [
    "Licensecc.C13_exception_causes",
    "Licensecc.C13_unknown_kind",
    "Licensecc.C13_unreadable_file",
    "Licensecc.C13_equals_data",
    "Licensecc.C13_bad_expiry"
   ],
   "note": "The property is false of the code; proved: the exact causes, each with a reachable witness."
  },
  {
   "property": "C14",
   "status": "proved",
   "theorems": [
    "Licensecc.C14_export_tail",
    "Licensecc.C14_status"
   ],
   "note": "Full statement, for the registry and for acquire_license."
  },
  {
   "property": "C15",
   "status": "proved",
   "theorems": [
    "Licensecc.C15_all_limits_removable",
    "Licensecc.C15_boundary_not_signed",
    "Licensecc.C15_expiry_removable",
    "Licensecc.C15_forgery_accepted",
    "Licensecc.C15_same_shape"
   ],
   "note": "The property is false of the code; proved: the forgery in general (one boundary moved; all enforced limits removed at once) and a concrete accepted one, and the restricted positive statement."
  },
  {
   "property": "C16",
   "status": "proved",
   "theorems": [
    "Licensecc.C16_layout",
    "Licensecc.C16_order"
   ],
   "note": "Full statement."
  },
  {
   "property": "C17",
   "status": "proved",
   "theorems": [
    "Licensecc.Ini.C17_entries",
    "Licensecc.Ini.C17_round_trip"
   ],
   "note": "Full statement."
  },
  {
   "property": "C18",
   "status": "proved",
   "theorems": [
    "Licensecc.Ini.C18_last_value",
    "Licensecc.Ini.C18_first_spelling",
    "Licensecc.Ini.C18_keys_distinct",
    "Licensecc.Ini.C18_section_size",
    "Licensecc.Ini.C18_names_ignore_case"
   ],
   "note": "Full statement."
  },
  {
   "property": "C19",
   "status": "proved",
   "theorems": [
    "Licensecc.Ini.C19_only_entries_matter",
    "Licensecc.Ini.C19_insert_line",
    "Licensecc.Ini.C19_layout"
   ],
   "note": "Full statement."
  },
  {
   "property": "C20",
   "status": "proved",
   "theorems": [
    "Licensecc.Ini.C20_progress",
    "Licensecc.Ini.C20_bound_irrelevant",
    "Licensecc.Ini.C20_at_most_one_item_per_byte",
    "Licensecc.Ini.C20_stops_at_nul"
   ],
   "note": "Full statement for the list level parser; C65 is the byte level counterpart."
  },
  {
   "property": "C21",
   "status": "proved",
   "theorems": [
    "Licensecc.C21_base64_round_trip",
    "Licensecc.C21_base64_injective",
    "Licensecc.C21_base64_is_rfc4648",
    "Licensecc.C21_base64_lines_are_rfc4648"
   ],
   "note": "Full statement, and agreement with RFC 4648 (independent specification)."
  },
  {
   "property": "C22",
   "status": "proved",
   "theorems": [
    "Licensecc.C22_base64_safe_iff",
    "Licensecc.C22_base64_short_is_ub"
   ],
   "note": "The property is false for 0, 1, 2 bytes; proved: exact condition."
  },
  {
   "property": "C23",
   "status": "proved",
   "theorems": [
    "Licensecc.C23_unbase64_outcome",
    "Licensecc.C23_unbase64_safe_quadruples",
    "Licensecc.C23_unbase64_short_is_ub",
    "Licensecc.C23_unbase64_13_is_ub",
    "Licensecc.C23_unbase64_throws",
    "Licensecc.C23_unbase64_returns",
    "Licensecc.C23_texts_are_malleable",
    "Licensecc.C23_foreign_counts_as_A"
   ],
   "note": "The property is false; proved: exact outcome for every text. C23_unbase64_returns gives the result for every text against a bit-level specification (Spec.bytesWritten); C23_foreign_counts_as_A: characters outside the alphabet are read as A. C23_unbase64_throws: the one text for which it throws."
  },
  {
   "property": "C24",
   "status": "proved",
   "theorems": [
    "Licensecc.HwId.C24_print_format",
    "Licensecc.HwId.C24_round_trip",
    "Licensecc.HwId.C24_print_injective"
   ],
   "note": "Full statement."
  },
  {
   "property": "C25",
   "status": "proved",
   "theorems": [
    "Licensecc.HwId.C25_eq_iff",
    "Licensecc.HwId.C25_set_strategy",
    "Licensecc.HwId.C25_set_strategy_domain",
    "Licensecc.HwId.C25_set_data",
    "Licensecc.HwId.C25_set_env",
    "Licensecc.HwId.C25_data_match_iff"
   ],
   "note": "Full statement."
  },
  {
   "property": "C26",
   "status": "proved",
   "theorems": [
    "Licensecc.C26_generated_identifier_validates",
    "Licensecc.C26_same_machine",
    "Licensecc.C26_reordered"
   ],
   "note": "Full statement; Extends says which hardware must remain."
  },
  {
   "property": "C27",
   "status": "proved",
   "theorems": [
    "Licensecc.C27_validate_iff",
    "Licensecc.C27_disk_not_distinguished",
    "Licensecc.C27_other_mac_refused"
   ],
   "note": "Full statement as an equivalence."
  },
  {
   "property": "C28",
   "status": "proved",
   "theorems": [
    "Licensecc.C28_no_exception",
    "Licensecc.C28_two_answers",
    "Licensecc.C28_wrong_size_refused",
    "Licensecc.C28_unknown_strategy_refused",
    "Licensecc.C28_ub_iff",
    "Licensecc.C28_throw_iff",
    "Licensecc.C28_short_text_is_ub"
   ],
   "note": "Full statement; the undefined behaviour is characterised exactly."
  },
  {
   "property": "C29",
   "status": "proved",
   "theorems": [
    "Licensecc.C29_small_buffer",
    "Licensecc.C29_large_buffer",
    "Licensecc.C29_no_exception"
   ],
   "note": "Full statement."
  },
  {
   "property": "C30",
   "status": "proved",
   "theorems": [
    "Licensecc.C30_indices_valid",
    "Licensecc.C30_step_is_maximum",
    "Licensecc.C30_queries_defined",
    "Licensecc.C30_add_ub_iff"
   ],
   "note": "Full statement over all operation sequences, for both platforms' MAX_PATH."
  },
  {
   "property": "C31",
   "status": "proved",
   "theorems": [
    "Licensecc.C31_good_iff",
    "Licensecc.C31_failure_is_logged_error",
    "Licensecc.C31_errors_into_warnings",
    "Licensecc.C31_warnings_into_errors",
    "Licensecc.C31_raised_events"
   ],
   "note": "Full statement."
  },
  {
   "property": "C32",
   "status": "proved",
   "theorems": [
    "Licensecc.C32_most_advanced_exact",
    "Licensecc.C32_reported_failure",
    "Licensecc.C32_acquire",
    "Licensecc.C32_signed_licence_reported"
   ],
   "note": "Full statement, for the registry and for acquire_license."
  },
  {
   "property": "C33",
   "status": "proved",
   "theorems": [
    "Licensecc.C33_accepted_iff",
    "Licensecc.C33_rejected_iff",
    "Licensecc.C33_date_notations",
    "Licensecc.C33_date_wrong_length",
    "Licensecc.C33_malformed_date_accepted",
    "Licensecc.C33_malformed_date_accepted'"
   ],
   "note": "Full statement; the accepted texts are characterised by a grammar of sscanf's behaviour, the malformed ones by witnesses."
  },
  {
   "property": "C34",
   "status": "proved",
   "theorems": [
    "Licensecc.C34_later_date_later_time",
    "Licensecc.C34_never_earlier",
    "Licensecc.C34_skipped_day",
    "Licensecc.C34_later_expiry_never_refused_earlier",
    "Licensecc.C34_extended_licence_grants"
   ],
   "note": "mktime is a parameter constrained by MidnightIn zone (any zone, also with skipped days)."
  },
  {
   "property": "C35",
   "status": "proved",
   "theorems": [
    "Licensecc.C35_trim_spec",
    "Licensecc.C35_trim_idempotent",
    "Licensecc.C35_trim_ignores_surroundings",
    "Licensecc.C35_toupper"
   ],
   "note": "Full statement."
  },
  {
   "property": "C36",
   "status": "proved",
   "theorems": [
    "Licensecc.C36_split_no_separator",
    "Licensecc.C36_split_join",
    "Licensecc.C36_split_of_join"
   ],
   "note": "Full statement."
  },
  {
   "property": "C37",
   "status": "proved",
   "theorems": [
    "Licensecc.C37_mstrnlen_terminated",
    "Licensecc.C37_mstrnlen_unterminated",
    "Licensecc.C37_mstrnlen_overread",
    "Licensecc.C37_mstrlcpy",
    "Licensecc.C37_mstrlcpy_zero",
    "Licensecc.C37_mstrlcpy_in_bounds"
   ],
   "note": "Full statement."
  },
  {
   "property": "C38",
   "status": "proved",
   "theorems": [
    "Licensecc.C38_drops",
    "Licensecc.C38_keeps",
    "Licensecc.C38_special",
    "Licensecc.C38_total",
    "Licensecc.C38_prefix"
   ],
   "note": "Full statement."
  },
  {
   "property": "C39",
   "status": "proved",
   "theorems": [
    "Licensecc.C39_read_in_order",
    "Licensecc.C39_filter_existing"
   ],
   "note": "Full statement."
  },
  {
   "property": "C40",
   "status": "proved",
   "theorems": [
    "Licensecc.C40_content_never_read",
    "Licensecc.C40_data_alone_never_returns",
    "Licensecc.C40_location_is_read"
   ],
   "note": "The property is false of the code; proved for every call."
  },
  {
   "property": "C41",
   "status": "proved",
   "theorems": [
    "Licensecc.C41_files_cut",
    "Licensecc.C41_plain_verbatim",
    "Licensecc.C41_encoded_never_returns",
    "Licensecc.C41_encoded_with_terminator"
   ],
   "note": "The part about encoded data is false of the code; proved with exact condition."
  },
  {
   "property": "C42",
   "status": "proved",
   "theorems": [
    "Licensecc.C42_identify_format"
   ],
   "note": "Full statement against regular expressions with the usual semantics (Spec.Regex)."
  },
  {
   "property": "C43",
   "status": "proved",
   "theorems": [
    "Licensecc.C43_parse",
    "Licensecc.C43_only_hex_digits",
    "Licensecc.C43_canonical",
    "Licensecc.C43_plain_hex_overruns"
   ],
   "note": "Full statement; the overrun for plain hexadecimal texts is proved in C43_plain_hex_overruns and exactly in C53."
  },
  {
   "property": "C44",
   "status": "proved",
   "theorems": [
    "Licensecc.C44_preferred_iff",
    "Licensecc.C44_undefined_iff",
    "Licensecc.C44_device_names_ignored",
    "Licensecc.C44_by_uuid",
    "Licensecc.C44_root_disk",
    "Licensecc.C44_marked_disk_identifies"
   ],
   "note": "Full statement, including the exact condition of the undefined behaviour."
  },
  {
   "property": "C45",
   "status": "proved",
   "theorems": [
    "Licensecc.C45_container_type",
    "Licensecc.C45_undefined_iff",
    "Licensecc.C45_no_exception",
    "Licensecc.C45_provider",
    "Licensecc.C45_cloud_iff",
    "Licensecc.C45_bare_iff",
    "Licensecc.C45_detail_named",
    "Licensecc.C45_summary",
    "Licensecc.C45_docker_has_no_default_identifier"
   ],
   "note": "Full statement; iteration orders of the unordered maps are arbitrary."
  },
  {
   "property": "C46",
   "status": "proved",
   "theorems": [
    "Licensecc.C46_adapters",
    "Licensecc.C46_none",
    "Licensecc.C46_no_loopback",
    "Licensecc.C46_any_order"
   ],
   "note": "Full statement; hash order arbitrary."
  },
  {
   "property": "C47",
   "status": "proved",
   "theorems": [
    "Licensecc.C47_never_produced",
    "Licensecc.C47_garbage"
   ],
   "note": "Full statement."
  },
  {
   "property": "C48",
   "status": "proved",
   "theorems": [
    "Licensecc.C48_checks_recorded",
    "Licensecc.C48_incomplete_never_checked"
   ],
   "note": "Full statement."
  },
  {
   "property": "C49",
   "status": "proved",
   "theorems": [
    "Licensecc.C49_code_is_justified"
   ],
   "note": "Full statement."
  },
  {
   "property": "C50",
   "status": "proved",
   "theorems": [
    "Licensecc.C50_undefined_behaviour_causes",
    "Licensecc.C50_returns",
    "Licensecc.C50_long_module_path"
   ],
   "note": "Causes of undefined behaviour as an inductive list; absence implies a return."
  },
  {
   "property": "C51",
   "status": "proved",
   "theorems": [
    "Licensecc.C51_identifier",
    "Licensecc.C51_identifier_unique",
    "Licensecc.C51_identify_pc",
    "Licensecc.C51_text_selects_ethernet",
    "Licensecc.C51_variable_three_fails",
    "Licensecc.C51_docker_and_cloud_fail",
    "Licensecc.C51_no_disk_fails"
   ],
   "note": "Full statement as an equivalence."
  },
  {
   "property": "C52",
   "status": "proved",
   "theorems": [
    "Licensecc.C52_first_call_decides"
   ],
   "note": "Full statement over all histories of calls."
  },
  {
   "property": "C53",
   "status": "proved",
   "theorems": [
    "Licensecc.C53_disks",
    "Licensecc.C53_undefined_iff",
    "Licensecc.C53_ntfs_overruns",
    "Licensecc.C53_identify_pc_overruns"
   ],
   "note": "Full statement."
  },
  {
   "property": "C54",
   "status": "proved",
   "theorems": [
    "Licensecc.C54_attribute",
    "Licensecc.C54_missing_attribute",
    "Licensecc.C54_cache",
    "Licensecc.C54_when_used",
    "Licensecc.C54_missing_label_is_markup",
    "Licensecc.C54_device",
    "Licensecc.C54_borrowed_label"
   ],
   "note": "Well-formed caches are described by a grammar; the borrowed attributes are proved for all caches with that defect."
  },
  {
   "property": "C55",
   "status": "proved",
   "theorems": [
    "Licensecc.C55_network_identifier",
    "Licensecc.C55_disk_identifier",
    "Licensecc.C55_any_strategy"
   ],
   "note": "Full statement."
  },
  {
   "property": "C56",
   "status": "proved",
   "theorems": [
    "Licensecc.C56_issued_accepted",
    "Licensecc.C56_near_module",
    "Licensecc.C56_passed_text"
   ],
   "note": "Full statement."
  },
  {
   "property": "C57",
   "status": "proved",
   "theorems": [
    "Licensecc.C57_only_three_limits",
    "Licensecc.C57_same_verdict",
    "Licensecc.C57_same_result"
   ],
   "note": "Full statement."
  },
  {
   "property": "C58",
   "status": "proved",
   "theorems": [
    "Licensecc.C58_accepts_iff",
    "Licensecc.C58_overrun_iff",
    "Licensecc.C58_no_exception",
    "Licensecc.C58_short_signature_safe",
    "Licensecc.C58_rsa4096",
    "Licensecc.C58_long_signature_never_returns",
    "Licensecc.C58_long_signature_overruns"
   ],
   "note": "OpenSSL functions are parameters."
  },
  {
   "property": "C59",
   "status": "proved",
   "theorems": [
    "Licensecc.Logger.C59_log_path",
    "Licensecc.Logger.C59_log_path_windows",
    "Licensecc.Logger.C59_entry_fits",
    "Licensecc.Logger.C59_history",
    "Licensecc.Logger.C59_entry_fits_windows",
    "Licensecc.Logger.C59_history_windows",
    "Licensecc.C59_bad_signature_never_returns"
   ],
   "note": "All histories; Linux and Windows paths."
  },
  {
   "property": "C60",
   "status": "proved",
   "theorems": [
    "Licensecc.Win.C60_key_read",
    "Licensecc.Win.C60_key_1024",
    "Licensecc.Win.C60_longer_key_unread",
    "Licensecc.Win.C60_accepts_iff",
    "Licensecc.Win.C60_longer_key_ignored",
    "Licensecc.Win.C60_throws_iff",
    "Licensecc.Win.C60_empty_signature",
    "Licensecc.Win.C60_crash_iff",
    "Licensecc.Win.C60_never_returns"
   ],
   "note": "BCrypt functions are parameters."
  },
  {
   "property": "C61",
   "status": "proved",
   "theorems": [
    "Licensecc.Win.C61_address_read",
    "Licensecc.Win.C61_address_overrun_iff",
    "Licensecc.Win.C61_adapters",
    "Licensecc.Win.C61_real_scores_higher",
    "Licensecc.Win.C61_real_first",
    "Licensecc.Win.C61_order",
    "Licensecc.Win.C61_failure_codes",
    "Licensecc.Win.C61_no_adapter_ub"
   ],
   "note": "std::sort is any sorting function."
  },
  {
   "property": "C62",
   "status": "proved",
   "theorems": [
    "Licensecc.Win.C62_table_read",
    "Licensecc.Win.C62_no_table",
    "Licensecc.Win.C62_short_answer",
    "Licensecc.Win.C62_dangling_number",
    "Licensecc.Win.C62_truncated_table",
    "Licensecc.Win.C62_never_container",
    "Licensecc.Win.C62_bare_metal"
   ],
   "note": "Full statement."
  },
  {
   "property": "C63",
   "status": "proved",
   "theorems": [
    "Licensecc.Win.C63_disk_accepted_iff",
    "Licensecc.Win.C63_ntfs_everywhere",
    "Licensecc.Win.C63_drive_c_identifies",
    "Licensecc.Win.C63_default_identifier",
    "Licensecc.Win.C63_default_virtual",
    "Licensecc.Win.C63_identifier_kept"
   ],
   "note": "Full statement."
  },
  {
   "property": "C64",
   "status": "proved",
   "theorems": [
    "Licensecc.Inspector.C64_texts_distinct",
    "Licensecc.Inspector.C64_every_code_described",
    "Licensecc.Inspector.C64_first_line",
    "Licensecc.Inspector.C64_file",
    "Licensecc.Inspector.C64_magic_never_ok",
    "Licensecc.Inspector.C64_section_lines",
    "Licensecc.Inspector.C64_section_verdict",
    "Licensecc.Inspector.C64_overread_iff",
    "Licensecc.Inspector.C64_this_computer",
    "Licensecc.Inspector.C64_windows"
   ],
   "note": "Covers main up to and including the licence file; see C70 for the rest."
  },
  {
   "property": "C65",
   "status": "proved",
   "theorems": [
    "Licensecc.IniMem.C65_load_safe",
    "Licensecc.IniMem.C65_values",
    "Licensecc.IniMem.C65_keys",
    "Licensecc.IniMem.C65_size",
    "Licensecc.IniMem.C65_text",
    "Licensecc.IniMem.C65_order_trans",
    "Licensecc.IniMem.C65_order_irrefl",
    "Licensecc.IniMem.C65_order_same",
    "Licensecc.IniMem.C65_unclosed_header",
    "Licensecc.IniParse.C65_parse"
   ],
   "note": "Full statement; the memory is a list of bytes with explicit indices. C65_parse has every setting of the options (comments, values of several lines) and refines Model/IniStore.loadEvery."
  },
  {
   "property": "C66",
   "status": "proved",
   "theorems": [
    "Licensecc.C66_module_name",
    "Licensecc.C66_long_executable_path",
    "Licensecc.C66_no_network",
    "Licensecc.C66_no_executable",
    "Licensecc.C66_licence_survives",
    "Licensecc.C66_identifies_iff",
    "Licensecc.C66_sound",
    "Licensecc.C66_copied_licence_refused"
   ],
   "note": "Composition of all Linux parts."
  },
  {
   "property": "C67",
   "status": "proved",
   "theorems": [
    "Licensecc.Win.C67_long_executable_path",
    "Licensecc.Win.C67_no_network",
    "Licensecc.Win.C67_no_executable",
    "Licensecc.Win.C67_licence_survives",
    "Licensecc.Win.C67_identifies_iff",
    "Licensecc.Win.C67_sound",
    "Licensecc.Win.C67_copied_licence_refused",
    "Licensecc.Win.C67_ntfs_licence"
   ],
   "note": "Composition of all Windows parts."
  },
  {
   "property": "C68",
   "status": "proved",
   "theorems": [
    "Licensecc.C68_vendor_linux",
    "Licensecc.C68_vendor_windows",
    "Licensecc.C68_brand_windows",
    "Licensecc.C68_brand_linux",
    "Licensecc.C68_short_brand_lost",
    "Licensecc.C68_long_brand_kept",
    "Licensecc.C68_no_brand",
    "Licensecc.C68_hypervisor",
    "Licensecc.C68_model",
    "Licensecc.C68_same_model",
    "Licensecc.C68_bare_linux",
    "Licensecc.C68_bare_windows",
    "Licensecc.C68_hidden_kvm"
   ],
   "note": "The brand fails on Linux for texts of at most 32 bytes: C68_short_brand_lost, C68_hidden_kvm."
  },
  {
   "property": "C69",
   "status": "proved",
   "theorems": [
    "Licensecc.Threads.C69_race_iff",
    "Licensecc.Threads.C69_results",
    "Licensecc.Threads.C69_alone",
    "Licensecc.Threads.C69_warm_up",
    "Licensecc.Threads.C69_wrong_identifier",
    "Licensecc.Threads.C69_log_crash",
    "Licensecc.Threads.C69_licence_refused",
    "Licensecc.Win.Threads.C69_windows_race_iff",
    "Licensecc.Win.Threads.C69_windows_results",
    "Licensecc.Win.Threads.C69_windows_log_crash"
   ],
   "note": "The property a user expects (thread safety) fails; C69_race_iff and C69_windows_race_iff give the exact condition. Interleavings are sequentially consistent and each access is atomic; the cells are listed in Model/Threads and Model/WinThreads (the Microsoft C library has one result of localtime per thread). A call's view of the computer does not change while it runs, and no licence begins or expires during a call (Call.Works)."
  },
  {
   "property": "C70",
   "status": "proved",
   "theorems": [
    "Licensecc.Inspector.C70_number",
    "Licensecc.Inspector.C70_texts_tell",
    "Licensecc.Inspector.C70_adapter",
    "Licensecc.Inspector.C70_network",
    "Licensecc.Inspector.C70_no_network",
    "Licensecc.Inspector.C70_argument",
    "Licensecc.Inspector.C70_environment",
    "Licensecc.Inspector.C70_environment_unset",
    "Licensecc.Inspector.C70_main",
    "Licensecc.Inspector.C70_main_long",
    "Licensecc.Inspector.C70_main_overruns",
    "Licensecc.Inspector.C70_windows",
    "Licensecc.Inspector.C70_windows_no_adapter",
    "Licensecc.Inspector.C70_windows_no_table"
   ],
   "note": "IPv4 addresses are printed backwards: C70_adapter. The library's own writes, which come between the lines, are in C71."
  },
  {
   "property": "C71",
   "status": "proved",
   "theorems": [
    "Licensecc.Output.C71_same",
    "Licensecc.Output.C71_acquire",
    "Licensecc.Output.C71_silent",
    "Licensecc.Output.C71_windows_same",
    "Licensecc.Output.C71_windows",
    "Licensecc.Output.C71_windows_longer",
    "Licensecc.Output.C71_identify_same",
    "Licensecc.Output.C71_identify",
    "Licensecc.Output.C71_inspector",
    "Licensecc.Output.C71_debug",
    "Licensecc.Output.C71_wrong_identifier",
    "Licensecc.Output.C71_windows_call",
    "Licensecc.Output.C71_short_text"
   ],
   "note": "The property 'a library is silent' fails: C71_wrong_identifier, C71_short_text, C71_windows, C71_debug; C71_acquire and C71_silent say that nothing else is written."
  },
  {
   "property": "C72",
   "status": "proved",
   "theorems": [
    "Licensecc.Resources.C72_same_linux",
    "Licensecc.Resources.C72_same_windows",
    "Licensecc.Resources.C72_linux",
    "Licensecc.Resources.C72_windows",
    "Licensecc.Resources.C72_peak_linux",
    "Licensecc.Resources.C72_peak_windows",
    "Licensecc.Resources.C72_windows_leak"
   ],
   "note": "C72_same_linux and C72_same_windows tie the second model of the functions to the first one. Calls with undefined behaviour are excluded (what runs before them is not claimed to be in order). Standard containers and strings are not counted; malloc, new, EVP_PKEY_new and BIO_new are assumed to succeed; builds with NDEBUG. Windows calls ending with std::length_error are excluded: C72_windows_leak shows what they leave behind."
  },
  {
   "property": "C73",
   "status": "proved",
   "theorems": [
    "Licensecc.Utf.C73_utf8_to_utf16",
    "Licensecc.Utf.C73_utf8_to_utf32",
    "Licensecc.Utf.C73_utf16_to_utf32",
    "Licensecc.Utf.C73_utf16_to_utf8",
    "Licensecc.Utf.C73_utf16_to_utf32_lenient",
    "Licensecc.Utf.C73_utf16_to_utf8_lenient",
    "Licensecc.Utf.C73_utf32_to_utf16",
    "Licensecc.Utf.C73_utf32_to_utf8",
    "Licensecc.Utf.C73_text_8_16",
    "Licensecc.Utf.C73_text_8_32",
    "Licensecc.Utf.C73_text_16_8",
    "Licensecc.Utf.C73_text_16_32",
    "Licensecc.Utf.C73_text_32_16",
    "Licensecc.Utf.C73_text_32_8",
    "Licensecc.Utf.C73_legal_sequence",
    "Licensecc.Utf.C73_misread",
    "Licensecc.Utf.C73_lenient_surrogates",
    "Licensecc.Utf.C73_large_passed_over",
    "Licensecc.Utf.C73_legal_sequence_empty"
   ],
   "note": "Negations of what a user expects: C73_misread, C73_lenient_surrogates, C73_large_passed_over, C73_legal_sequence_empty. Forming a pointer behind the end of a range without using it is taken as harmless."
  },
  {
   "property": "C74",
   "status": "proved",
   "theorems": [
    "Licensecc.C74_contents",
    "Licensecc.C74_values",
    "Licensecc.C74_value",
    "Licensecc.C74_settings",
    "Licensecc.C74_settings_fixed",
    "Licensecc.C74_set_get",
    "Licensecc.C74_set_other",
    "Licensecc.C74_delete_get",
    "Licensecc.C74_sorted",
    "Licensecc.C74_size",
    "Licensecc.C74_set_result",
    "Licensecc.C74_delete_result",
    "Licensecc.C74_long",
    "Licensecc.C74_bool"
   ],
   "note": "Strings are byte lists without NUL; memory is not modelled here (Model/IniMem has it for loading, Model/IniHeap for the life of the object: C77, with arguments that point into the object). m_nOrder does not overflow."
  },
  {
   "property": "C75",
   "status": "proved",
   "theorems": [
    "Licensecc.C75_every",
    "Licensecc.C75_round_trip",
    "Licensecc.C75_layout",
    "Licensecc.C75_save_again",
    "Licensecc.C75_values",
    "Licensecc.C75_loaded",
    "Licensecc.C75_stable",
    "Licensecc.C75_reader",
    "Licensecc.C75_issuer",
    "Licensecc.C75_line_break"
   ],
   "note": "Texts with a malformed header ('[' without ']') and values that begin with their own tag are excluded here: load returns none for them; loadEvery has them (C65_parse proves that it is what the parser does in memory), and C75_every shows that the two agree on all others. Findings: C75_line_break and the examples. With several lines per value the necessity of the conditions is not claimed."
  },
  {
   "property": "C76",
   "status": "proved",
   "theorems": [
    "Licensecc.C76_get_double",
    "Licensecc.C76_double_back",
    "Licensecc.C76_long",
    "Licensecc.C76_unique",
    "Licensecc.C76_version",
    "Licensecc.C76_bool",
    "Licensecc.C76_long_text",
    "Licensecc.C76_long_fits",
    "Licensecc.C76_double_overrun",
    "Licensecc.C76_double_text"
   ],
   "note": "The property 'setting a number never writes outside its buffer' fails for double: C76_double_overrun says exactly when. sprintf(\"%f\") and strtod are those of glibc in the C locale: both round correctly. On Windows sprintf_s ends the program instead of overrunning."
  },
  {
   "property": "C77",
   "status": "proved",
   "theorems": [
    "Licensecc.C77_no_fault",
    "Licensecc.C77_separate",
    "Licensecc.C77_result",
    "Licensecc.C77_reset",
    "Licensecc.C77_value",
    "Licensecc.C77_pointer_stable",
    "Licensecc.C77_pointer_released",
    "Licensecc.C77_growth",
    "Licensecc.C77_replace_bounded",
    "Licensecc.C77_no_leak",
    "Licensecc.C77_own_arguments",
    "Licensecc.C77_alias_set",
    "Licensecc.C77_alias_delete"
   ],
   "note": "The statement says where the code fails the wish 'no argument leads to a read of released memory': C77_alias_set, C77_alias_delete, with examples. Stored strings are not written to after parsing (LoadData cuts the block into strings before; that is C30/IniMem), trees are sorted lists, new does not fail. All texts are allowed, malformed headers included, and the settings may change between calls."
  },
  {
   "property": "C78",
   "status": "proved",
   "theorems": [
    "Licensecc.C78_load",
    "Licensecc.C78_save",
    "Licensecc.C78_silent",
    "Licensecc.C78_torn",
    "Licensecc.C78_values",
    "Licensecc.C78_licence",
    "Licensecc.C78_crash",
    "Licensecc.C78_stream_load",
    "Licensecc.C78_stream_unopened",
    "Licensecc.C78_stream_torn"
   ],
   "note": "C78_torn, C78_values, C78_licence and C78_crash are for objects with one line per value (the setting that the library and the inspector use); with several lines per value a text cut short can also give `<`, `<<` or the value followed by a part of its tag. The functions with wide file names are not modelled. C78_silent states where SaveFile fails the wish that SI_OK means saved."
  },
  {
   "property": "C79",
   "status": "proved",
   "theorems": [
    "Licensecc.C79_load32",
    "Licensecc.C79_load16",
    "Licensecc.C79_save32",
    "Licensecc.C79_save16",
    "Licensecc.C79_round_trip",
    "Licensecc.C79_surrogate32",
    "Licensecc.C79_surrogate16",
    "Licensecc.C79_mb",
    "Licensecc.C79_mb_beyond",
    "Licensecc.C79_load_mb",
    "Licensecc.C79_save_mb",
    "Licensecc.C79_number_end",
    "Licensecc.C79_number_end_utf8"
   ],
   "note": "`TextOf` uses what the conversions read as characters: UTF-8 and the two kinds of sequences of C73_misread. What mbstowcs and wcstombs do with a character is given from outside (no shift states). Not modelled: the converters of Windows and ICU, and the parser on wide characters (a template, modelled for bytes). C79_surrogate32/16, C79_mb_beyond and C79_number_end state where the code fails."
  },
  {
   "property": "C80",
   "status": "proved",
   "theorems": [
    "Licensecc.C80_arrays",
    "Licensecc.C80_complete",
    "Licensecc.C80_status"
   ],
   "note": "A location of MAX_PATH bytes or more leaves an array without a NUL (C80_arrays), and is read beyond its end in the same call, so there is no call that returns (C50). The theorem is about calls that return: every location is read, or comes again in an event that is read."
  },
  {
   "property": "C81",
   "status": "proved",
   "theorems": [
    "Licensecc.C81_day",
    "Licensecc.C81_text",
    "Licensecc.C81_span",
    "Licensecc.C81_order",
    "Licensecc.C81_expiry"
   ],
   "note": "`Normalises` is what the C standard says of mktime (7.27.2.3); proved of the mktime of Greenwich time (normalises_utc)."
  },
  {
   "property": "C82",
   "status": "proved",
   "theorems": [
    "Licensecc.Changing.C82_same",
    "Licensecc.Changing.C82_sound",
    "Licensecc.Changing.C82_complete",
    "Licensecc.Changing.C82_read_once"
   ],
   "note": "C82_same ties the second model of the call to the first. The system calls behind one hardware check see one moment."
  },
  {
   "property": "C83",
   "status": "proved",
   "theorems": [
    "Licensecc.LogText.C83_same",
    "Licensecc.LogText.C83_same_identify",
    "Licensecc.LogText.C83_acquire",
    "Licensecc.LogText.C83_identify",
    "Licensecc.LogText.C83_linux",
    "Licensecc.LogText.C83_signature",
    "Licensecc.LogText.C83_adapters",
    "Licensecc.LogText.C83_accepted",
    "Licensecc.LogText.C83_file",
    "Licensecc.LogText.C83_file_closed",
    "Licensecc.LogText.C83_lines",
    "Licensecc.LogText.C83_one_line",
    "Licensecc.LogText.C83_variable_lines",
    "Licensecc.Win.C83_windows",
    "Licensecc.Win.C83_windows_acquire",
    "Licensecc.Win.C83_windows_accepted",
    "Licensecc.Win.C83_windows_one_line",
    "Licensecc.Win.C83_windows_identify",
    "Licensecc.Win.C83_windows_file",
    "Licensecc.Win.C83_windows_file_closed"
   ],
   "note": "C83_same and C83_same_identify tie the second model, with the log, to the first. Builds with NDEBUG; the texts of exceptions thrown by the standard library are parameters. On Windows (C83_windows_*) the platform's functions log nothing; the file is in text mode."
  },
  {
   "property": "C84",
   "status": "proved",
   "theorems": [
    "Licensecc.Scarce.C84_enough",
    "Licensecc.Scarce.C84_sound",
    "Licensecc.Scarce.C84_no_more",
    "Licensecc.Scarce.C84_identify",
    "Licensecc.Scarce.C84_sample_accepted",
    "Licensecc.Scarce.C84_genuine_refused",
    "Licensecc.Scarce.C84_exception_or_crash",
    "Licensecc.Scarce.C84_split_crash",
    "Licensecc.Scarce.C84_prefix_accepted",
    "Licensecc.Scarce.C84_missed_for_good",
    "Licensecc.Scarce.C84_windows_enough",
    "Licensecc.Scarce.C84_windows_sound",
    "Licensecc.Scarce.C84_windows_no_more",
    "Licensecc.Scarce.C84_windows_identify",
    "Licensecc.Scarce.C84_windows_sample_accepted",
    "Licensecc.Scarce.C84_windows_genuine_refused",
    "Licensecc.Scarce.C84_windows_exception",
    "Licensecc.Scarce.C84_windows_crash",
    "Licensecc.Scarce.C84_windows_prefix_accepted",
    "Licensecc.Scarce.C84_windows_missed_for_good"
   ],
   "note": "C84_enough ties the second model, with requests for memory, to the first. One decision per step of the code (a step may be several requests; the first refused one ends it); how far a stream gets before its request is refused is left open. Linux and Windows (C84_windows_*; there overlooked drives are proved to bring no licence onto the computer), builds with NDEBUG. What is checked with the refused signature bytes or a beginning of the data is stated as it is (BeginningSigned), not excluded: C84_prefix_accepted shows that it happens in the model."
  },
  {
   "property": "C85",
   "status": "proved",
   "theorems": [
    "Licensecc.C85_shorter_name",
    "Licensecc.C85_forgery_accepted",
    "Licensecc.C85_prefix_free"
   ],
   "note": "The property is false of the code; proved: the forgery in general (C85_shorter_name) and on a concrete call, and that it holds for sold names none of which begins another (C85_prefix_free)."
  },
  {
   "property": "C86",
   "status": "proved",
   "theorems": [
    "Licensecc.Threads.C86_no_memory",
    "Licensecc.Threads.C86_clock_set_back",
    "Licensecc.Win.Threads.C86_windows"
   ],
   "note": "C86_no_memory is over the model of the shared static variables (Model/Threads, Model/WinThreads); the other threads have ended. The process-wide report on the execution environment is C52's. C86_clock_set_back is a concrete history."
  },
  {
   "property": "C87",
   "status": "proved",
   "theorems": [
    "Licensecc.LogDebug.C87_text",
    "Licensecc.LogDebug.C87_linux_same",
    "Licensecc.LogDebug.C87_linux_tmpdir",
    "Licensecc.LogDebug.C87_linux_identify_same",
    "Licensecc.LogDebug.C87_linux_identify",
    "Licensecc.LogDebug.C87_linux_disks",
    "Licensecc.LogDebug.C87_linux_interfaces",
    "Licensecc.LogDebug.C87_linux_fstab",
    "Licensecc.LogDebug.C87_linux_dmi",
    "Licensecc.LogDebug.C87_linux_report_same",
    "Licensecc.LogDebug.C87_linux_report",
    "Licensecc.LogDebug.C87_linux_report_tmpdir",
    "Licensecc.Win.C87_windows_report_same",
    "Licensecc.Win.C87_windows_report_drive",
    "Licensecc.LogDebug.C87_overruns",
    "Licensecc.Win.C87_windows",
    "Licensecc.Win.C87_windows_identify",
    "Licensecc.Win.C87_windows_refused",
    "Licensecc.Win.C87_windows_refused_crash",
    "Licensecc.Win.C87_windows_same",
    "Licensecc.Win.C87_windows_identify_same",
    "Licensecc.Win.C87_windows_drive",
    "Licensecc.Win.C87_windows_overruns"
   ],
   "note": "A negation in part: \"a debug build gives the same verdicts\" is false on Windows and for a long TMPDIR; proved: where it is the same, and what goes wrong where it is not. C87_windows_same and C87_linux_same tie the second models to the first. What `%h` and a missing argument do is up to the C library (undefined)."
  },
  {
   "property": "C88",
   "status": "proved",
   "theorems": [
    "Licensecc.C88_contents",
    "Licensecc.C88_returns",
    "Licensecc.C88_refused",
    "Licensecc.C88_lost",
    "Licensecc.C88_load",
    "Licensecc.C88_block",
    "Licensecc.C88_file"
   ],
   "note": "A negation in part: SetValue with a_bForceReplace and several values per key is not all-or-nothing (C88_lost); the stream and the blocks leak (C88_file, C88_block). Memory is the number of requests granted before the first refusal; requests as libstdc++ makes them."
  }
 ]
}