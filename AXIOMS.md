# Axioms each property theorem depends on

Written by `tools/axioms.py` from `#print axioms`.

## Classical.choice, Quot.sound, propext

* `Licensecc.C01_license_ok_sound`
* `Licensecc.C02_license_ok_complete`
* `Licensecc.C02_license_ok_iff`
* `Licensecc.C03_exact_second`
* `Licensecc.C03_expired_never_grants`
* `Licensecc.C03_all_expired`
* `Licensecc.C04_exact_second`
* `Licensecc.C04_early_never_grants`
* `Licensecc.C04_all_early`
* `Licensecc.C05_wrong_magic`
* `Licensecc.C05_no_caller`
* `Licensecc.C06_needs_hardware`
* `Licensecc.C06_other_machine`
* `Licensecc.C07_no_section_never_licensed`
* `Licensecc.C07_grants_isolated`
* `Licensecc.Ini.C07_isolation`
* `Licensecc.Ini.C07_foreign_sections`
* `Licensecc.Ini.C07_no_section`
* `Licensecc.C08_more_licences`
* `Licensecc.C09_merge`
* `Licensecc.C09_best_granting`
* `Licensecc.C09_best_refused`
* `Licensecc.C09_running_granting`
* `Licensecc.C09_running_refused`
* `Licensecc.C09_running_day`
* `Licensecc.C10_double`
* `Licensecc.C10_computed`
* `Licensecc.C10_monotone`
* `Licensecc.C10_later_expiry`
* `Licensecc.C11_failure_code`
* `Licensecc.C12_null_dereference`
* `Licensecc.C12_otherwise_returns`
* `Licensecc.C13_exception_causes`
* `Licensecc.C13_unknown_kind`
* `Licensecc.C13_unreadable_file`
* `Licensecc.C13_equals_data`
* `Licensecc.C13_bad_expiry`
* `Licensecc.C14_status`
* `Licensecc.C15_all_limits_removable`
* `Licensecc.C15_boundary_not_signed`
* `Licensecc.C15_expiry_removable`
* `Licensecc.C15_same_shape`
* `Licensecc.C16_layout`
* `Licensecc.C16_order`
* `Licensecc.Ini.C17_entries`
* `Licensecc.Ini.C17_round_trip`
* `Licensecc.Ini.C18_last_value`
* `Licensecc.Ini.C18_first_spelling`
* `Licensecc.Ini.C18_keys_distinct`
* `Licensecc.Ini.C18_section_size`
* `Licensecc.Ini.C18_names_ignore_case`
* `Licensecc.C21_base64_round_trip`
* `Licensecc.C21_base64_injective`
* `Licensecc.C21_base64_lines_are_rfc4648`
* `Licensecc.C23_unbase64_outcome`
* `Licensecc.C23_unbase64_safe_quadruples`
* `Licensecc.C23_unbase64_throws`
* `Licensecc.C23_unbase64_returns`
* `Licensecc.C23_foreign_counts_as_A`
* `Licensecc.HwId.C24_round_trip`
* `Licensecc.HwId.C24_print_injective`
* `Licensecc.HwId.C25_eq_iff`
* `Licensecc.HwId.C25_set_data`
* `Licensecc.HwId.C25_data_match_iff`
* `Licensecc.C26_generated_identifier_validates`
* `Licensecc.C26_same_machine`
* `Licensecc.C26_reordered`
* `Licensecc.C27_validate_iff`
* `Licensecc.C27_other_mac_refused`
* `Licensecc.C28_no_exception`
* `Licensecc.C28_wrong_size_refused`
* `Licensecc.C28_ub_iff`
* `Licensecc.C28_throw_iff`
* `Licensecc.C28_short_text_is_ub`
* `Licensecc.C29_large_buffer`
* `Licensecc.C29_no_exception`
* `Licensecc.C30_indices_valid`
* `Licensecc.C30_step_is_maximum`
* `Licensecc.C30_queries_defined`
* `Licensecc.C30_add_ub_iff`
* `Licensecc.C31_good_iff`
* `Licensecc.C31_failure_is_logged_error`
* `Licensecc.C31_errors_into_warnings`
* `Licensecc.C31_warnings_into_errors`
* `Licensecc.C31_raised_events`
* `Licensecc.C32_most_advanced_exact`
* `Licensecc.C32_reported_failure`
* `Licensecc.C32_acquire`
* `Licensecc.C32_signed_licence_reported`
* `Licensecc.C33_accepted_iff`
* `Licensecc.C33_rejected_iff`
* `Licensecc.C34_later_date_later_time`
* `Licensecc.C34_never_earlier`
* `Licensecc.C34_skipped_day`
* `Licensecc.C34_later_expiry_never_refused_earlier`
* `Licensecc.C34_extended_licence_grants`
* `Licensecc.C38_drops`
* `Licensecc.C38_keeps`
* `Licensecc.C38_special`
* `Licensecc.C38_prefix`
* `Licensecc.C39_read_in_order`
* `Licensecc.C40_location_is_read`
* `Licensecc.C41_plain_verbatim`
* `Licensecc.C41_encoded_never_returns`
* `Licensecc.C41_encoded_with_terminator`
* `Licensecc.C42_identify_format`
* `Licensecc.C43_parse`
* `Licensecc.C43_only_hex_digits`
* `Licensecc.C43_canonical`
* `Licensecc.C43_plain_hex_overruns`
* `Licensecc.C44_preferred_iff`
* `Licensecc.C44_undefined_iff`
* `Licensecc.C44_by_uuid`
* `Licensecc.C44_root_disk`
* `Licensecc.C44_marked_disk_identifies`
* `Licensecc.C45_container_type`
* `Licensecc.C45_undefined_iff`
* `Licensecc.C45_provider`
* `Licensecc.C45_bare_iff`
* `Licensecc.C45_detail_named`
* `Licensecc.C45_summary`
* `Licensecc.C45_docker_has_no_default_identifier`
* `Licensecc.C46_adapters`
* `Licensecc.C46_none`
* `Licensecc.C46_no_loopback`
* `Licensecc.C46_any_order`
* `Licensecc.C47_never_produced`
* `Licensecc.C47_garbage`
* `Licensecc.C48_checks_recorded`
* `Licensecc.C48_incomplete_never_checked`
* `Licensecc.C49_code_is_justified`
* `Licensecc.C50_undefined_behaviour_causes`
* `Licensecc.C50_returns`
* `Licensecc.C50_long_module_path`
* `Licensecc.C51_identifier`
* `Licensecc.C51_identifier_unique`
* `Licensecc.C51_identify_pc`
* `Licensecc.C51_variable_three_fails`
* `Licensecc.C51_docker_and_cloud_fail`
* `Licensecc.C52_first_call_decides`
* `Licensecc.C53_disks`
* `Licensecc.C53_undefined_iff`
* `Licensecc.C53_ntfs_overruns`
* `Licensecc.C53_identify_pc_overruns`
* `Licensecc.C54_cache`
* `Licensecc.C54_when_used`
* `Licensecc.C55_network_identifier`
* `Licensecc.C55_disk_identifier`
* `Licensecc.C55_any_strategy`
* `Licensecc.C56_issued_accepted`
* `Licensecc.C56_near_module`
* `Licensecc.C56_passed_text`
* `Licensecc.C57_only_three_limits`
* `Licensecc.C57_same_verdict`
* `Licensecc.C57_same_result`
* `Licensecc.C58_accepts_iff`
* `Licensecc.C58_overrun_iff`
* `Licensecc.C58_short_signature_safe`
* `Licensecc.C58_rsa4096`
* `Licensecc.C58_long_signature_never_returns`
* `Licensecc.C58_long_signature_overruns`
* `Licensecc.C59_bad_signature_never_returns`
* `Licensecc.Win.C60_longer_key_unread`
* `Licensecc.Win.C60_longer_key_ignored`
* `Licensecc.Win.C60_throws_iff`
* `Licensecc.Win.C60_crash_iff`
* `Licensecc.Win.C60_never_returns`
* `Licensecc.Win.C61_address_overrun_iff`
* `Licensecc.Win.C61_adapters`
* `Licensecc.Win.C61_order`
* `Licensecc.Win.C63_disk_accepted_iff`
* `Licensecc.Win.C63_ntfs_everywhere`
* `Licensecc.Win.C63_drive_c_identifies`
* `Licensecc.Win.C63_default_identifier`
* `Licensecc.Win.C63_default_virtual`
* `Licensecc.Win.C63_identifier_kept`
* `Licensecc.Inspector.C64_every_code_described`
* `Licensecc.Inspector.C64_first_line`
* `Licensecc.Inspector.C64_file`
* `Licensecc.Inspector.C64_magic_never_ok`
* `Licensecc.Inspector.C64_section_lines`
* `Licensecc.Inspector.C64_section_verdict`
* `Licensecc.Inspector.C64_overread_iff`
* `Licensecc.Inspector.C64_this_computer`
* `Licensecc.Inspector.C64_windows`
* `Licensecc.IniMem.C65_load_safe`
* `Licensecc.IniMem.C65_values`
* `Licensecc.IniMem.C65_keys`
* `Licensecc.IniMem.C65_size`
* `Licensecc.IniMem.C65_text`
* `Licensecc.IniMem.C65_order_same`
* `Licensecc.IniParse.C65_parse`
* `Licensecc.C66_long_executable_path`
* `Licensecc.C66_licence_survives`
* `Licensecc.C66_identifies_iff`
* `Licensecc.C66_sound`
* `Licensecc.C66_copied_licence_refused`
* `Licensecc.Win.C67_long_executable_path`
* `Licensecc.Win.C67_no_network`
* `Licensecc.Win.C67_licence_survives`
* `Licensecc.Win.C67_identifies_iff`
* `Licensecc.Win.C67_sound`
* `Licensecc.Win.C67_copied_licence_refused`
* `Licensecc.Win.C67_ntfs_licence`
* `Licensecc.C68_vendor_linux`
* `Licensecc.C68_brand_windows`
* `Licensecc.C68_brand_linux`
* `Licensecc.C68_short_brand_lost`
* `Licensecc.C68_long_brand_kept`
* `Licensecc.C68_no_brand`
* `Licensecc.C68_hypervisor`
* `Licensecc.C68_model`
* `Licensecc.C68_same_model`
* `Licensecc.C68_bare_linux`
* `Licensecc.C68_bare_windows`
* `Licensecc.Threads.C69_race_iff`
* `Licensecc.Threads.C69_results`
* `Licensecc.Threads.C69_warm_up`
* `Licensecc.Win.Threads.C69_windows_race_iff`
* `Licensecc.Win.Threads.C69_windows_results`
* `Licensecc.Inspector.C70_number`
* `Licensecc.Inspector.C70_adapter`
* `Licensecc.Inspector.C70_network`
* `Licensecc.Inspector.C70_no_network`
* `Licensecc.Inspector.C70_argument`
* `Licensecc.Inspector.C70_environment`
* `Licensecc.Inspector.C70_environment_unset`
* `Licensecc.Inspector.C70_main`
* `Licensecc.Inspector.C70_windows`
* `Licensecc.Output.C71_acquire`
* `Licensecc.Output.C71_silent`
* `Licensecc.Output.C71_windows`
* `Licensecc.Output.C71_windows_longer`
* `Licensecc.Output.C71_debug`
* `Licensecc.Output.C71_wrong_identifier`
* `Licensecc.Output.C71_windows_call`
* `Licensecc.Output.C71_short_text`
* `Licensecc.Resources.C72_same_linux`
* `Licensecc.Resources.C72_same_windows`
* `Licensecc.Resources.C72_linux`
* `Licensecc.Resources.C72_windows`
* `Licensecc.Resources.C72_peak_linux`
* `Licensecc.Resources.C72_peak_windows`
* `Licensecc.Resources.C72_windows_leak`
* `Licensecc.Utf.C73_utf8_to_utf16`
* `Licensecc.Utf.C73_utf8_to_utf32`
* `Licensecc.Utf.C73_utf16_to_utf32`
* `Licensecc.Utf.C73_utf16_to_utf8`
* `Licensecc.Utf.C73_utf16_to_utf32_lenient`
* `Licensecc.Utf.C73_utf16_to_utf8_lenient`
* `Licensecc.Utf.C73_utf32_to_utf16`
* `Licensecc.Utf.C73_utf32_to_utf8`
* `Licensecc.Utf.C73_text_8_16`
* `Licensecc.Utf.C73_text_8_32`
* `Licensecc.Utf.C73_text_16_8`
* `Licensecc.Utf.C73_text_16_32`
* `Licensecc.Utf.C73_text_32_16`
* `Licensecc.Utf.C73_text_32_8`
* `Licensecc.Utf.C73_legal_sequence`
* `Licensecc.Utf.C73_misread`
* `Licensecc.Utf.C73_lenient_surrogates`
* `Licensecc.C74_contents`
* `Licensecc.C74_values`
* `Licensecc.C74_value`
* `Licensecc.C74_settings`
* `Licensecc.C74_set_get`
* `Licensecc.C74_set_other`
* `Licensecc.C74_delete_get`
* `Licensecc.C74_sorted`
* `Licensecc.C74_size`
* `Licensecc.C74_set_result`
* `Licensecc.C74_delete_result`
* `Licensecc.C74_long`
* `Licensecc.C74_bool`
* `Licensecc.C75_round_trip`
* `Licensecc.C75_layout`
* `Licensecc.C75_save_again`
* `Licensecc.C75_values`
* `Licensecc.C75_loaded`
* `Licensecc.C75_stable`
* `Licensecc.C75_reader`
* `Licensecc.C75_issuer`
* `Licensecc.C75_line_break`
* `Licensecc.C76_get_double`
* `Licensecc.C76_double_back`
* `Licensecc.C76_long`
* `Licensecc.C76_unique`
* `Licensecc.C76_version`
* `Licensecc.C76_bool`
* `Licensecc.C76_long_text`
* `Licensecc.C76_long_fits`
* `Licensecc.C76_double_overrun`
* `Licensecc.C76_double_text`
* `Licensecc.C77_no_fault`
* `Licensecc.C77_separate`
* `Licensecc.C77_result`
* `Licensecc.C77_reset`
* `Licensecc.C77_value`
* `Licensecc.C77_pointer_stable`
* `Licensecc.C77_pointer_released`
* `Licensecc.C77_growth`
* `Licensecc.C77_replace_bounded`
* `Licensecc.C77_no_leak`
* `Licensecc.C77_own_arguments`
* `Licensecc.C77_alias_set`
* `Licensecc.C77_alias_delete`
* `Licensecc.C78_torn`
* `Licensecc.C78_values`
* `Licensecc.C78_licence`
* `Licensecc.C78_crash`
* `Licensecc.C78_stream_torn`
* `Licensecc.C79_load32`
* `Licensecc.C79_load16`
* `Licensecc.C79_save32`
* `Licensecc.C79_save16`
* `Licensecc.C79_round_trip`
* `Licensecc.C79_surrogate32`
* `Licensecc.C79_surrogate16`
* `Licensecc.C79_mb_beyond`
* `Licensecc.C79_number_end`
* `Licensecc.C79_number_end_utf8`
* `Licensecc.C80_complete`
* `Licensecc.C80_status`
* `Licensecc.C81_day`
* `Licensecc.C81_text`
* `Licensecc.C81_span`
* `Licensecc.C81_order`
* `Licensecc.C81_expiry`
* `Licensecc.Changing.C82_sound`
* `Licensecc.Changing.C82_complete`
* `Licensecc.LogText.C83_acquire`
* `Licensecc.LogText.C83_identify`
* `Licensecc.LogText.C83_accepted`
* `Licensecc.LogText.C83_file`
* `Licensecc.LogText.C83_one_line`
* `Licensecc.LogText.C83_variable_lines`
* `Licensecc.Win.C83_windows_acquire`
* `Licensecc.Win.C83_windows_accepted`
* `Licensecc.Win.C83_windows_one_line`
* `Licensecc.Win.C83_windows_identify`
* `Licensecc.Win.C83_windows_file`
* `Licensecc.Scarce.C84_sound`
* `Licensecc.Scarce.C84_no_more`
* `Licensecc.Scarce.C84_identify`
* `Licensecc.Scarce.C84_windows_sound`
* `Licensecc.Scarce.C84_windows_no_more`
* `Licensecc.Scarce.C84_windows_identify`
* `Licensecc.C85_shorter_name`
* `Licensecc.C85_prefix_free`
* `Licensecc.Win.Threads.C86_windows`
* `Licensecc.LogDebug.C87_text`
* `Licensecc.LogDebug.C87_linux_same`
* `Licensecc.LogDebug.C87_linux_identify_same`
* `Licensecc.LogDebug.C87_linux_interfaces`
* `Licensecc.LogDebug.C87_linux_report_same`
* `Licensecc.Win.C87_windows_report_same`
* `Licensecc.Win.C87_windows_report_drive`
* `Licensecc.Win.C87_windows_refused`
* `Licensecc.Win.C87_windows_refused_crash`
* `Licensecc.Win.C87_windows_same`
* `Licensecc.Win.C87_windows_identify_same`
* `Licensecc.Win.C87_windows_drive`
* `Licensecc.C88_contents`
* `Licensecc.C88_refused`
* `Licensecc.C88_lost`
* `Licensecc.C88_load`

## Quot.sound, propext

* `Licensecc.C10_nearest`
* `Licensecc.C14_export_tail`
* `Licensecc.C15_forgery_accepted`
* `Licensecc.Ini.C19_only_entries_matter`
* `Licensecc.Ini.C19_insert_line`
* `Licensecc.Ini.C19_layout`
* `Licensecc.Ini.C20_progress`
* `Licensecc.Ini.C20_bound_irrelevant`
* `Licensecc.Ini.C20_at_most_one_item_per_byte`
* `Licensecc.Ini.C20_stops_at_nul`
* `Licensecc.C21_base64_is_rfc4648`
* `Licensecc.C22_base64_safe_iff`
* `Licensecc.HwId.C24_print_format`
* `Licensecc.HwId.C25_set_strategy`
* `Licensecc.HwId.C25_set_strategy_domain`
* `Licensecc.HwId.C25_set_env`
* `Licensecc.C27_disk_not_distinguished`
* `Licensecc.C28_two_answers`
* `Licensecc.C28_unknown_strategy_refused`
* `Licensecc.C29_small_buffer`
* `Licensecc.C33_date_notations`
* `Licensecc.C35_trim_spec`
* `Licensecc.C35_trim_idempotent`
* `Licensecc.C35_trim_ignores_surroundings`
* `Licensecc.C35_toupper`
* `Licensecc.C36_split_no_separator`
* `Licensecc.C37_mstrlcpy`
* `Licensecc.C38_total`
* `Licensecc.C39_filter_existing`
* `Licensecc.C40_content_never_read`
* `Licensecc.C40_data_alone_never_returns`
* `Licensecc.C41_files_cut`
* `Licensecc.C44_device_names_ignored`
* `Licensecc.C51_text_selects_ethernet`
* `Licensecc.C54_attribute`
* `Licensecc.C54_missing_attribute`
* `Licensecc.C54_missing_label_is_markup`
* `Licensecc.C54_device`
* `Licensecc.C54_borrowed_label`
* `Licensecc.Logger.C59_log_path`
* `Licensecc.Logger.C59_log_path_windows`
* `Licensecc.Logger.C59_entry_fits`
* `Licensecc.Logger.C59_history`
* `Licensecc.Logger.C59_entry_fits_windows`
* `Licensecc.Logger.C59_history_windows`
* `Licensecc.Win.C60_key_read`
* `Licensecc.Win.C60_key_1024`
* `Licensecc.Win.C60_accepts_iff`
* `Licensecc.Win.C60_empty_signature`
* `Licensecc.Win.C61_address_read`
* `Licensecc.Win.C61_real_scores_higher`
* `Licensecc.Win.C61_real_first`
* `Licensecc.Win.C62_table_read`
* `Licensecc.Win.C62_short_answer`
* `Licensecc.Win.C62_dangling_number`
* `Licensecc.Win.C62_truncated_table`
* `Licensecc.Win.C62_never_container`
* `Licensecc.Win.C62_bare_metal`
* `Licensecc.IniMem.C65_order_trans`
* `Licensecc.C66_module_name`
* `Licensecc.C66_no_network`
* `Licensecc.C66_no_executable`
* `Licensecc.Win.C67_no_executable`
* `Licensecc.C68_vendor_windows`
* `Licensecc.C68_hidden_kvm`
* `Licensecc.Threads.C69_alone`
* `Licensecc.Threads.C69_wrong_identifier`
* `Licensecc.Threads.C69_log_crash`
* `Licensecc.Threads.C69_licence_refused`
* `Licensecc.Win.Threads.C69_windows_log_crash`
* `Licensecc.Inspector.C70_main_long`
* `Licensecc.Inspector.C70_main_overruns`
* `Licensecc.Inspector.C70_windows_no_adapter`
* `Licensecc.Inspector.C70_windows_no_table`
* `Licensecc.Output.C71_same`
* `Licensecc.Output.C71_windows_same`
* `Licensecc.Output.C71_identify_same`
* `Licensecc.Output.C71_identify`
* `Licensecc.Output.C71_inspector`
* `Licensecc.Utf.C73_large_passed_over`
* `Licensecc.C75_every`
* `Licensecc.C78_load`
* `Licensecc.C78_save`
* `Licensecc.C78_silent`
* `Licensecc.C78_stream_load`
* `Licensecc.C79_mb`
* `Licensecc.C79_load_mb`
* `Licensecc.C79_save_mb`
* `Licensecc.C80_arrays`
* `Licensecc.Changing.C82_same`
* `Licensecc.Changing.C82_read_once`
* `Licensecc.LogText.C83_same`
* `Licensecc.LogText.C83_same_identify`
* `Licensecc.LogText.C83_linux`
* `Licensecc.LogText.C83_adapters`
* `Licensecc.LogText.C83_file_closed`
* `Licensecc.LogText.C83_lines`
* `Licensecc.Win.C83_windows`
* `Licensecc.Win.C83_windows_file_closed`
* `Licensecc.Scarce.C84_enough`
* `Licensecc.Scarce.C84_sample_accepted`
* `Licensecc.Scarce.C84_genuine_refused`
* `Licensecc.Scarce.C84_exception_or_crash`
* `Licensecc.Scarce.C84_split_crash`
* `Licensecc.Scarce.C84_prefix_accepted`
* `Licensecc.Scarce.C84_missed_for_good`
* `Licensecc.Scarce.C84_windows_enough`
* `Licensecc.Scarce.C84_windows_sample_accepted`
* `Licensecc.Scarce.C84_windows_genuine_refused`
* `Licensecc.Scarce.C84_windows_exception`
* `Licensecc.Scarce.C84_windows_crash`
* `Licensecc.Scarce.C84_windows_prefix_accepted`
* `Licensecc.Scarce.C84_windows_missed_for_good`
* `Licensecc.C85_forgery_accepted`
* `Licensecc.Threads.C86_no_memory`
* `Licensecc.Threads.C86_clock_set_back`
* `Licensecc.LogDebug.C87_linux_tmpdir`
* `Licensecc.LogDebug.C87_linux_identify`
* `Licensecc.LogDebug.C87_linux_disks`
* `Licensecc.LogDebug.C87_linux_fstab`
* `Licensecc.LogDebug.C87_linux_report`
* `Licensecc.LogDebug.C87_linux_report_tmpdir`
* `Licensecc.LogDebug.C87_overruns`
* `Licensecc.Win.C87_windows`
* `Licensecc.Win.C87_windows_identify`
* `Licensecc.Win.C87_windows_overruns`
* `Licensecc.C88_returns`
* `Licensecc.C88_block`
* `Licensecc.C88_file`

## none

* `Licensecc.C33_malformed_date_accepted'`
* `Licensecc.C37_mstrnlen_overread`
* `Licensecc.C37_mstrlcpy_zero`
* `Licensecc.IniMem.C65_order_irrefl`
* `Licensecc.C74_settings_fixed`

## propext

* `Licensecc.C22_base64_short_is_ub`
* `Licensecc.C23_unbase64_short_is_ub`
* `Licensecc.C23_unbase64_13_is_ub`
* `Licensecc.C23_texts_are_malleable`
* `Licensecc.C33_date_wrong_length`
* `Licensecc.C33_malformed_date_accepted`
* `Licensecc.C36_split_join`
* `Licensecc.C36_split_of_join`
* `Licensecc.C37_mstrnlen_terminated`
* `Licensecc.C37_mstrnlen_unterminated`
* `Licensecc.C37_mstrlcpy_in_bounds`
* `Licensecc.C45_no_exception`
* `Licensecc.C45_cloud_iff`
* `Licensecc.C51_no_disk_fails`
* `Licensecc.C58_no_exception`
* `Licensecc.Win.C61_failure_codes`
* `Licensecc.Win.C61_no_adapter_ub`
* `Licensecc.Win.C62_no_table`
* `Licensecc.Inspector.C64_texts_distinct`
* `Licensecc.IniMem.C65_unclosed_header`
* `Licensecc.Inspector.C70_texts_tell`
* `Licensecc.Utf.C73_legal_sequence_empty`
* `Licensecc.C78_stream_unopened`
* `Licensecc.LogText.C83_signature`
* `Licensecc.LogDebug.C87_linux_dmi`
