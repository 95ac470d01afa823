# Axioms

Axioms on which each theorem listed in `MANIFEST.json` depends, as printed by `#print axioms`.

## none

`C27_faithful`, `C27_map`, `C27_status_fails`

## propext

`C04_append`, `C27_status_iff`, `C27_status_partial`, `C38_raw_error_fails`, `C38_raw_error_silent_fails`, `C53_nodup`, `C80_meets_iff`

## Quot.sound, propext

`C04_unreserved`, `C22_data`, `C22_order`, `C27_decode`, `C27_untyped`, `C51_base`, `C51_partition`, `C51_trait_methods`, `C53_last_mention`, `C54_order_iff`, `C54_order_partial`, `C54_split`, `C57_first_gap`, `C57_only_newlines`, `C57_same_text`, `C57_spaced`, `C68_report`, `C68_reported`, `C76_path`, `C79_enum`, `C89_trait`

## Classical.choice, Quot.sound, propext

`C01_accepts_iff`, `C01_only_wellformed_fails`, `C01_only_wellformed_partial`, `C01_wellformed_accepted`, `C02_injective`, `C02_names`, `C02_printed`, `C02_reparse`, `C03_panics_iff`, `C03_stray_brace_never_compiles`, `C03_url_fails`, `C03_url_iff`, `C03_url_partial`, `C04_alphabet`, `C04_decode`, `C04_injective`, `C05_backslash_fails`, `C05_confined_iff`, `C05_confined_partial`, `C05_dot_fails`, `C05_dotdot_fails`, `C05_no_query_or_fragment`, `C06_needs_separators`, `C06_shared_fails`, `C06_url_injective`, `C07_scalar`, `C08_fixed_size_arrays_fail`, `C08_refused_iff`, `C08_seq`, `C08_seq_all`, `C08_seq_iff`, `C09_map`, `C09_map_iff`, `C09_nested_rejected`, `C09_newtype_variant`, `C09_struct`, `C09_struct_iff`, `C100_display_fails`, `C100_form_partial`, `C100_parameters_partial`, `C101_builder`, `C101_outcome`, `C101_sent_iff`, `C102_document_iff`, `C102_document_panic_iff`, `C102_error_iff`, `C102_panic_iff`, `C103_body_partial`, `C103_flags_partial`, `C103_form_partial`, `C104_body_partial`, `C104_form_partial`, `C104_setters_partial`, `C105_builder_partial`, `C105_command_partial`, `C105_pages_partial`, `C105_positional_partial`, `C10_no_query`, `C10_none_invisible`, `C11_exact`, `C11_newtype_element`, `C11_newtype_fails`, `C11_newtype_fails_scalar`, `C11_newtype_partial`, `C11_nothing_else`, `C11_request_partial`, `C11_sent_iff`, `C11_sent_meaning`, `C12_alphabet`, `C12_decode`, `C12_error_iff`, `C12_injective`, `C13_override_fails`, `C13_override_iff`, `C13_override_partial`, `C14_exactly`, `C14_order`, `C14_order_independent`, `C15_antisymmetric_iff`, `C15_antisymmetric_partial`, `C15_antisymmetry_fails`, `C15_any_stable_sort`, `C15_incomparability_fails`, `C15_incomparable_iff`, `C15_no_panic`, `C15_transitive_partial`, `C16_hygiene_fails`, `C16_hygiene_partial`, `C16_locals_distinct`, `C16_search`, `C17_absent`, `C17_added`, `C17_api_version`, `C17_exact`, `C17_given`, `C18_invalid_value`, `C18_version`, `C19_body`, `C19_declared`, `C19_declared_iff`, `C19_form_decodes`, `C19_form_iff`, `C19_form_meaning`, `C19_label_fails`, `C19_label_iff`, `C19_label_partial`, `C19_media_parameters`, `C19_media_types`, `C19_no_body`, `C19_operation`, `C19_print`, `C20_queries_partial`, `C20_roundtrip_fails`, `C20_roundtrip_partial`, `C20_segments_iff`, `C21_at_most_one`, `C21_bad_query`, `C21_local_failure`, `C21_sent_iff`, `C22_call`, `C23_classified`, `C23_order`, `C23_total`, `C24_documented_success`, `C24_kind`, `C24_ok_only_success`, `C25_documented_errors`, `C25_never_ok`, `C25_unexpected`, `C26_generation_fails`, `C26_generation_partial`, `C26_ok_only_upgrade`, `C26_other_statuses`, `C28_bound`, `C28_content_length`, `C29_commute`, `C29_outcomes`, `C29_overwrite`, `C30_invalid`, `C30_message`, `C30_total`, `C30_unset_body`, `C31_agree`, `C31_values`, `C32_complete`, `C32_prefix`, `C32_progress`, `C33_builder_args`, `C33_calls`, `C33_positional_args`, `C33_query`, `C34_error_last`, `C34_no_more_calls`, `C35_no_page_beyond`, `C35_nothing_at_start`, `C35_on_demand`, `C36_agree`, `C37_paginated`, `C38_calls`, `C38_limit`, `C38_limit_fails`, `C38_list`, `C38_progress`, `C39_body`, `C39_body_other`, `C39_document_partial`, `C39_flag_fails`, `C39_flags`, `C39_generates_iff`, `C39_generates_partial`, `C39_names_iff`, `C39_no_body`, `C39_properties`, `C39_property_fails`, `C39_raw_body_fails`, `C39_values`, `C40_body`, `C40_execute`, `C40_outcomes`, `C41_valid`, `C42_ascii_partial`, `C42_idempotent_fails`, `C42_idempotent_partial`, `C43_collision_iff`, `C43_distinct_fails`, `C43_snake_partial`, `C44_validate_iff`, `C44_validate_total`, `C45_combination_iff`, `C45_combined_fails`, `C45_components_exact`, `C45_components_partial`, `C45_converts_iff`, `C45_enum_fails`, `C45_exact`, `C45_not_iff`, `C45_panics_iff`, `C45_untyped_exact`, `C45_untyped_fails`, `C45_valid_partial`, `C46_combined_fails`, `C46_combined_iff`, `C46_combined_partial`, `C46_typed`, `C46_typed_allOf_fails`, `C46_typed_iff`, `C46_untyped_fails`, `C47_array_counts`, `C47_integer_fails`, `C47_integer_partial`, `C47_integer_rounded`, `C47_maxLength_fails`, `C47_maxLength_iff`, `C47_maximum_iff`, `C47_minLength_iff`, `C47_minimum_iff`, `C47_number`, `C47_object_counts`, `C47_string_counts`, `C48_dot_fails`, `C48_dots_fails`, `C48_dots_partial`, `C48_exact_iff_partial`, `C48_exact_partial`, `C48_paren_fails`, `C48_plus_fails`, `C48_request_partial`, `C48_space_fails`, `C49_compiles`, `C49_encoded_fails`, `C49_exact_partial`, `C49_form_fails`, `C49_header_fails`, `C49_overlap_fails`, `C49_panic_fails`, `C49_regex_fails`, `C49_renamed_fails`, `C49_renamed_optional_fails`, `C49_request_partial`, `C49_tells_partial`, `C50_class`, `C50_classified`, `C50_code`, `C50_content`, `C50_never_ok`, `C50_value`, `C52_complete`, `C52_sorted`, `C54_order_fails`, `C55_bound`, `C55_denotes`, `C55_deterministic`, `C55_no_components`, `C55_panics_iff`, `C55_terminates_fails`, `C55_terminates_iff_partial`, `C56_no_panic_fails`, `C56_no_panic_partial`, `C58_media_only`, `C58_media_roundtrip`, `C58_method_only`, `C58_method_roundtrip`, `C59_in_template_fails`, `C59_in_template_iff`, `C59_in_template_partial`, `C60_compiles_fails`, `C60_compiles_partial`, `C61_accept`, `C61_explicit`, `C62_clash_fails`, `C62_generates`, `C62_generation_fails`, `C62_generation_partial`, `C62_struct`, `C63_captured_fails`, `C63_positional_partial`, `C63_token_fails`, `C64_builder_merged_partial`, `C64_builder_separate_partial`, `C64_hidden_fails`, `C64_own_fails`, `C64_positional_partial`, `C64_struct_fails`, `C64_tags_fails`, `C65_clone_fails`, `C65_into_fails`, `C65_merged_iff`, `C65_own_fails`, `C65_reaches_iff`, `C65_two_tags_fails`, `C66_code`, `C66_methods`, `C66_unsupported`, `C67_generates_iff`, `C67_new_fails`, `C67_reason_fails`, `C67_statuses`, `C67_then`, `C67_when_iff`, `C67_wrappers_fails`, `C67_wrappers_iff`, `C67_wrappers_partial`, `C68_execute_partial`, `C68_kinds`, `C68_raw_fails`, `C69_dispatch_fails`, `C69_dispatch_partial`, `C69_document_partial`, `C69_function_fails`, `C69_items_iff`, `C69_variant_fails`, `C70_backslash_fails`, `C70_body_partial`, `C70_document_partial`, `C70_headers_fails`, `C70_keys_fails`, `C70_received_fails`, `C70_received_partial`, `C71_determined_fails`, `C71_determined_partial`, `C72_document_partial`, `C72_every_reply`, `C72_every_status`, `C72_one_treatment`, `C72_redirect_fails`, `C72_remote_partial`, `C72_treated`, `C73_causes`, `C73_class`, `C73_content`, `C73_conversions`, `C73_debug`, `C73_untyped`, `C74_files`, `C74_frame`, `C74_manifest_fails`, `C74_manifest_iff`, `C75_mocked_partial`, `C75_renamed_fails`, `C76_accepted_iff`, `C76_calls`, `C76_errors`, `C76_expansion`, `C76_literal`, `C76_macro`, `C76_order`, `C76_struct_builder_fails`, `C76_unique_partial`, `C77_accessors`, `C77_hook`, `C77_hooks`, `C77_new`, `C77_own`, `C77_query_fails`, `C77_received_partial`, `C77_requests`, `C77_slash_fails`, `C78_frame`, `C78_lazy`, `C78_once`, `C78_over`, `C78_own_reply`, `C78_prefix`, `C78_progress`, `C78_sequential`, `C79_argument`, `C79_default`, `C79_enum_fails`, `C79_help_fails`, `C79_hyphen_fails`, `C79_names_iff`, `C79_order`, `C79_override`, `C79_remote_partial`, `C79_safe`, `C79_silent`, `C79_template`, `C79_words_iff`, `C80_argument_fails`, `C80_only_partial`, `C80_preferred_iff_partial`, `C80_served_partial`, `C80_taken_iff_partial`, `C80_twin_fails`, `C81_body_fails`, `C81_ends`, `C81_limit_fails`, `C81_list_partial`, `C81_no_stream_fails`, `C81_override`, `C81_raw_fails`, `C81_rejected`, `C81_requests_partial`, `C82_collision_iff`, `C82_distinct_iff`, `C82_letters`, `C82_pascal`, `C82_plus_fails`, `C82_snake`, `C82_words`, `C83_accepted_iff_partial`, `C83_escaped_fails`, `C83_foreign_fails`, `C83_inlined_partial`, `C83_one_meaning`, `C83_received_partial`, `C83_section_fails`, `C84_builder_partial`, `C84_command_partial`, `C84_followed_partial`, `C84_positional_partial`, `C85_builder_iff`, `C85_generates_iff`, `C85_operation_iff`, `C85_responses_iff`, `C86_builder_client_iff`, `C86_builder_iff`, `C86_builder_stream_iff`, `C86_method_iff`, `C86_paged_iff`, `C86_positional_iff`, `C86_stream_iff`, `C87_client_iff`, `C87_compiles_iff`, `C87_generates_iff`, `C87_lists`, `C87_strings`, `C87_unnamed_status`, `C87_websocket`, `C88_arguments_iff`, `C88_ascii`, `C88_client_iff`, `C88_compiles_iff`, `C88_generates_iff`, `C88_help`, `C88_lists`, `C88_two_tags`, `C89_builder_doc_partial`, `C89_builder_methods`, `C89_client`, `C89_comment_fails`, `C89_comment_partial`, `C89_descriptions`, `C89_example`, `C89_links`, `C89_request_partial`, `C89_stream_partial`, `C89_summary`, `C89_texts`, `C90_bare_fails`, `C90_builder`, `C90_clean`, `C90_names_fails`, `C90_operations`, `C90_part_builder`, `C90_part_positional`, `C90_positional`, `C90_responses`, `C90_undocumented`, `C90_undocumented_fails`, `C91_builder`, `C91_command`, `C91_first_fails`, `C91_flags_fails`, `C91_list`, `C91_positional`, `C91_words`, `C92_body`, `C92_header_one`, `C92_headers`, `C92_others`, `C92_query_any`, `C92_query_fails`, `C92_query_one_partial`, `C92_query_partial`, `C92_segments_fails`, `C92_segments_partial`, `C92_url`, `C93_cli_fails`, `C93_covers`, `C93_exact`, `C93_failed_fails`, `C93_futures_iff`, `C93_results`, `C93_single`, `C93_websockets_iff`, `C94_builder_partial`, `C94_call_partial`, `C94_followed_partial`, `C94_list_partial`, `C94_positional_partial`, `C94_stream_partial`, `C94_token_fails`, `C94_words_partial`, `C95_kept`, `C95_only`, `C95_place`, `C95_rest`, `C95_values`, `C96_argument`, `C96_body`, `C96_document`, `C96_generate`, `C96_iff`, `C96_names_fails`, `C96_response`, `C96_values`, `C96_values_partial`, `C97_body`, `C97_body_partial`, `C97_reply`, `C97_reply_fails`, `C97_reply_partial`, `C98_conforming_iff`, `C98_conforming_partial`, `C99_command`, `C99_files`, `C99_flags_iff`, `C99_names`
