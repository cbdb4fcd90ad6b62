# Axioms of the property theorems

Printed by `#print axioms` (tools/axioms.py).

| theorem | axioms |
|---|---|
| Props.C01.C01_roundtrip_base | propext, Quot.sound |
| Props.C01.C01_roundtrip_nobase | propext, Quot.sound |
| Props.C01.C01_wire_format | propext |
| Props.C01.C01_reading | propext, Quot.sound |
| Props.C01.C01_forms | propext |
| Props.C01.C01_injective | propext, Quot.sound |
| Props.C02.C02_resolves | propext, Quot.sound |
| Props.C02.C02_pointer | propext, Quot.sound |
| Props.C03.C03_visited | propext, Quot.sound |
| Props.C03.C03_order | propext, Quot.sound |
| Props.C03.C03_root | propext, Quot.sound |
| Props.C03.C03_calls | propext, Quot.sound |
| Props.C03.C03_sees | propext, Quot.sound |
| Props.C03.C03_twice_false | propext, Quot.sound |
| Props.C04.C04_roundtrip_iff | propext, Quot.sound |
| Props.C04.C04_roundtrip | propext, Quot.sound |
| Props.C04.C04_neutral | propext |
| Props.C04.C04_form | propext |
| Props.C04.C04_split | propext, Quot.sound |
| Props.C04.C04_separator_free_false | propext, Classical.choice, Quot.sound |
| Props.C05.C05_exact | propext |
| Props.C05.C05_absent | propext, Classical.choice, Quot.sound |
| Props.C05.C05_unique_suffix | propext, Quot.sound |
| Props.C05.C05_last_component | propext, Classical.choice, Quot.sound |
| Props.C05.C05_ambiguous | propext, Classical.choice, Quot.sound |
| Props.C05.C05_tuple | propext |
| Props.C05.C05_tuple_none | propext |
| Props.C05.C05_order_independent | propext, Classical.choice, Quot.sound |
| Props.C05.C05_short_name_partial | propext, Classical.choice, Quot.sound |
| Props.C05.C05_short_name_false | propext, Classical.choice, Quot.sound |
| Props.C06.C06_index | propext, Classical.choice, Quot.sound |
| Props.C06.C06_access_partial | propext, Classical.choice, Quot.sound |
| Props.C06.C06_every_tag_false | propext |
| Props.C07.C07_walk | propext, Classical.choice, Quot.sound |
| Props.C07.C07_deterministic | propext, Classical.choice, Quot.sound |
| Props.C07.C07_default | propext |
| Props.C08.C08_edges | propext, Quot.sound |
| Props.C08.C08_strict_cycle_check | propext, Classical.choice, Quot.sound |
| Props.C09.C09_terminates | propext, Classical.choice, Quot.sound |
| Props.C09.C09_result_iff | propext, Classical.choice, Quot.sound |
| Props.C09.C09_error | propext, Quot.sound |
| Props.C09.C09_guard | propext, Quot.sound |
| Props.C09.C09_final | propext |
| Props.C10.C10_none | propext |
| Props.C10.C10_local | propext, Classical.choice, Quot.sound |
| Props.C10.C10_absolute | propext, Classical.choice, Quot.sound |
| Props.C10.C10_relative | propext, Classical.choice, Quot.sound |
| Props.C10.C10_idempotent | propext, Classical.choice, Quot.sound |
| Props.C10.C10_total | propext, Classical.choice, Quot.sound |
| Props.C10.C10_split | propext, Classical.choice, Quot.sound |
| Props.C10.C10_normalize_url | propext |
| Props.C10.C10_drive | propext |
| Props.C10.C10_root_document_false | propext, Classical.choice, Quot.sound |
| Props.C11.C11_spec_functional | propext, Classical.choice, Quot.sound |
| Props.C11.C11_components | propext, Classical.choice, Quot.sound |
| Props.C11.C11_no_dots | propext, Classical.choice, Quot.sound |
| Props.C11.C11_identity | propext, Classical.choice, Quot.sound |
| Props.C11.C11_idempotent | propext, Classical.choice, Quot.sound |
| Props.C11.C11_text | propext, Classical.choice, Quot.sound |
| Props.C11.C11_params_false | propext |
| Props.C12.C12_join | propext |
| Props.C12.C12_join_text | propext, Classical.choice, Quot.sound |
| Props.C12.C12_join_components | propext, Classical.choice, Quot.sound |
| Props.C12.C12_dirname_other | propext, Quot.sound |
| Props.C12.C12_dirname_file | propext, Classical.choice, Quot.sound |
| Props.C12.C12_dirname_root_file | propext, Classical.choice, Quot.sound |
| Props.C13.C13_spec | propext, Classical.choice, Quot.sound |
| Props.C13.C13_ends | propext, Classical.choice, Quot.sound |
| Props.C13.C13_idempotent | propext, Classical.choice, Quot.sound |
| Props.C14.C14_datetime | propext, Classical.choice, Quot.sound |
| Props.C14.C14_date | propext, Classical.choice, Quot.sound |
| Props.C14.C14_primitives | propext, Classical.choice, Quot.sound |
| Props.C14.C14_arguments | propext, Classical.choice, Quot.sound |
| Props.C14.C14_z_and_fraction | propext, Classical.choice, Quot.sound |
| Props.C15.C15_decision | propext, Classical.choice, Quot.sound |
| Props.C15.C15_reject | propext, Classical.choice, Quot.sound |
| Props.C15.C15_whole | propext, Classical.choice, Quot.sound |
| Props.C15.C15_whole_string_false | propext, Quot.sound |
| Props.C16.C16_read | propext, Classical.choice, Quot.sound |
| Props.C16.C16_contains | propext, Classical.choice, Quot.sound |
| Props.C16.C16_delete | propext, Classical.choice, Quot.sound |
| Props.C16.C16_iterate | propext, Classical.choice, Quot.sound |
| Props.C16.C16_size | propext, Classical.choice, Quot.sound |
| Props.C16.C16_order | propext, Classical.choice, Quot.sound |
| Props.C17.C17_result | propext, Quot.sound |
| Props.C17.C17_others | propext, Quot.sound |
| Props.C17.C17_effect | propext, Quot.sound |
| Props.C17.C17_count | propext, Classical.choice, Quot.sound |
| Props.C17.C17_idempotent | propext, Quot.sound |
| Props.C18.C18_register | propext |
| Props.C18.C18_credential | propext, Quot.sound |
| Props.C18.C18_header | propext, Quot.sound |
| Props.C18.C18_query | propext, Quot.sound |
| Props.C18.C18_unchanged | propext, Quot.sound |
| Props.C18.C18_idempotent | propext, Quot.sound |
| Props.C18.C18_all_alternatives | propext, Quot.sound |
| Props.C18.C18_no_bearer | propext, Quot.sound |
| Props.C19.C19_list | propext |
| Props.C19.C19_opt_out | propext |
| Props.C19.C19_inherit | propext |
| Props.C19.C19_override | propext, Quot.sound |
| Props.C19.C19_open | propext |
| Props.C20.C20_fixed | propext, Quot.sound |
| Props.C20.C20_resend | propext, Quot.sound |
| Props.C20.C20_never_fails | propext, Quot.sound |
| Props.C20.C20_named_files | propext, Quot.sound |
| Props.C20.C20_same_dict | propext, Quot.sound |
| Props.C20.C20_shared_options_false | propext |
| Props.C20.C20_streams_false | propext |
| Props.C21.C21_filled | propext, Quot.sound |
| Props.C21.C21_missing | propext, Quot.sound |
| Props.C21.C21_inserted | propext, Classical.choice, Quot.sound |
| Props.C21.C21_structure | propext, Classical.choice, Quot.sound |
| Props.C21.C21_injective | propext, Classical.choice, Quot.sound |
| Props.C21.C21_path_decoding_false | propext |
| Props.C22.C22_roundtrip | propext, Classical.choice, Quot.sound |
| Props.C22.C22_prepared | propext, Classical.choice, Quot.sound |
| Props.C22.C22_injective | propext, Classical.choice, Quot.sound |
| Props.C23.C23_roundtrip | propext, Classical.choice, Quot.sound |
| Props.C23.C23_success | propext, Quot.sound |
| Props.C23.C23_quotes_false | propext, Classical.choice, Quot.sound |
| Props.C23.C23_linebreak_false | propext, Classical.choice, Quot.sound |
| Props.C23.C23_headers_false | propext, Classical.choice, Quot.sound |
| Props.C24.C24_content_type | propext |
| Props.C24.C24_rejected | propext, Quot.sound |
| Props.C24.C24_accept | propext |
| Props.C24.C24_headers | propext, Quot.sound |
| Props.C24.C24_form_choice_false | propext |
| Props.C24.C24_files_unchecked | propext |
| Props.C25.C25_candidates | propext, Classical.choice, Quot.sound |
| Props.C25.C25_choice | propext, Classical.choice, Quot.sound |
| Props.C25.C25_failure | propext, Classical.choice, Quot.sound |
| Props.C25.C25_url | propext |
| Props.C26.C26_options | propext, Quot.sound |
| Props.C26.C26_result | propext, Quot.sound |
| Props.C26.C26_unchanged | propext, Quot.sound |
| Props.C26.C26_components | propext, Classical.choice, Quot.sound |
| Props.C26.C26_params_scheme_false | propext |
| Props.C27.C27_list | propext |
| Props.C27.C27_joined | propext, Quot.sound |
| Props.C27.C27_dict | propext, Quot.sound |
| Props.C27.C27_none | propext |
| Props.C27.C27_errors | propext, Quot.sound |
| Props.C27.C27_containers | propext, Quot.sound |
| Props.C27.C27_containers_false | propext |
| Props.C27.C27_spelling_false | propext |
| Props.C28.C28_status | propext, Classical.choice, Quot.sound |
| Props.C28.C28_headers | propext, Classical.choice, Quot.sound |
| Props.C28.C28_raw | propext, Classical.choice, Quot.sound |
| Props.C28.C28_raw_last | propext, Classical.choice, Quot.sound |
| Props.C28.C28_status_first | propext, Classical.choice, Quot.sound |
| Props.C28.C28_reset | propext, Classical.choice, Quot.sound |
| Props.C28.C28_declared_spelling_false | propext, Classical.choice, Quot.sound |
| Props.C29.C29_entry | propext, Classical.choice, Quot.sound |
| Props.C29.C29_body | propext, Classical.choice, Quot.sound |
| Props.C29.C29_once | propext, Classical.choice, Quot.sound |
| Props.C29.C29_raw_only | propext, Classical.choice, Quot.sound |
| Props.C29.C29_stale_data_false | propext, Classical.choice, Quot.sound |
| Props.C29.C29_late_headers_false | propext, Classical.choice, Quot.sound |
| Props.C30.C30_lookup | propext, Quot.sound |
| Props.C30.C30_every_text | propext, Quot.sound |
| Props.C30.C30_unregister | propext, Quot.sound |
| Props.C30.C30_registered_parameters_false | propext |
| Props.C30.C30_unreachable | propext, Quot.sound |
| Props.C31.C31_succeeds | propext, Classical.choice, Quot.sound |
| Props.C31.C31_value_error | propext, Classical.choice, Quot.sound |
| Props.C31.C31_raises | propext, Classical.choice, Quot.sound |
| Props.C31.C31_empty | propext, Classical.choice, Quot.sound |
| Props.C31.C31_first_error_false | propext, Classical.choice, Quot.sound |
| Props.C32.C32_request | propext, Classical.choice, Quot.sound |
| Props.C32.C32_only_there | propext, Classical.choice, Quot.sound |
| Props.C32.C32_absent | propext, Classical.choice, Quot.sound |
| Props.C32.C32_array_texts | propext |
| Props.C32.C32_converted_by | propext, Classical.choice, Quot.sound |
| Props.C32.C32_none_sent | propext, Classical.choice, Quot.sound |
| Props.C33.C33_integer | propext, Classical.choice, Quot.sound |
| Props.C33.C33_number | propext, Classical.choice, Quot.sound |
| Props.C33.C33_allOf | propext, Classical.choice, Quot.sound |
| Props.C33.C33_allOf_number | propext, Classical.choice, Quot.sound |
| Props.C33.C33_integer_multiple_false | propext, Classical.choice, Quot.sound |
| Props.C33.C33_nan_false | propext, Classical.choice, Quot.sound |
| Props.C33.C33_allOf_zero_false | propext, Classical.choice, Quot.sound |
| Props.C34.C34_string | propext, Classical.choice, Quot.sound |
| Props.C34.C34_email | propext, Classical.choice, Quot.sound |
| Props.C34.C34_allOf | propext, Classical.choice, Quot.sound |
| Props.C34.C34_allOf_email | propext, Classical.choice, Quot.sound |
| Props.C34.C34_maxLength_zero_false | propext, Classical.choice, Quot.sound |
| Props.C34.C34_enum_other_types_false | propext, Classical.choice, Quot.sound |
| Props.C34.C34_email_allOf_false | propext, Classical.choice, Quot.sound |
| Props.C34.C34_untyped_allOf | propext, Classical.choice, Quot.sound |
| Props.C35.C35_array | propext, Classical.choice, Quot.sound |
| Props.C35.C35_firsts | propext, Quot.sound |
| Props.C35.C35_text | propext, Quot.sound |
| Props.C35.C35_url | propext |
| Props.C35.C35_separators | propext |
| Props.C35.C35_empty_elements_false | propext |
| Props.C35.C35_unique_after_conversion_false | propext, Classical.choice, Quot.sound |
| Props.C35.C35_no_items_false | propext, Classical.choice, Quot.sound |
| Props.C36.C36_content | propext, Classical.choice, Quot.sound |
| Props.C36.C36_rejects | propext, Classical.choice, Quot.sound |
| Props.C36.C36_not_object | propext, Classical.choice, Quot.sound |
| Props.C36.C36_allOf | propext, Classical.choice, Quot.sound |
| Props.C36.C36_required | propext, Classical.choice, Quot.sound |
| Props.C36.C36_allOf_only_false | propext, Classical.choice, Quot.sound |
| Props.C36.C36_required_undeclared_false | propext, Classical.choice, Quot.sound |
| Props.C36.C36_typeless_false | propext, Classical.choice, Quot.sound |
| Props.C36.C36_wrapper | propext, Classical.choice, Quot.sound |
| Props.C37.C37_write | propext, Classical.choice, Quot.sound |
| Props.C37.C37_write_allOf | propext, Classical.choice, Quot.sound |
| Props.C37.C37_read | propext, Classical.choice, Quot.sound |
| Props.C37.C37_nested_false | propext, Classical.choice, Quot.sound |
| Props.C37.C37_array_false | propext, Classical.choice, Quot.sound |
| Props.C38.C38_meaning | propext, Classical.choice, Quot.sound |
| Props.C38.C38_reflexive | propext, Classical.choice, Quot.sound |
| Props.C38.C38_symmetric | propext, Classical.choice, Quot.sound |
| Props.C38.C38_transitive | propext, Classical.choice, Quot.sound |
| Props.C38.C38_ne | propext, Quot.sound |
| Props.C38.C38_none | propext |
| Props.C38.C38_nonmapping_false | propext |
| Props.C38.C38_plain_dicts_false | propext |
| Props.C38.C38_nan_false | propext |
| Props.C39.C39_stack | propext, Classical.choice, Quot.sound |
| Props.C39.C39_ends | propext, Classical.choice, Quot.sound |
| Props.C39.C39_schemas | propext, Classical.choice, Quot.sound |
| Props.C39.C39_lists | propext, Classical.choice, Quot.sound |
| Props.C39.C39_composed | propext, Classical.choice, Quot.sound |
| Props.C39.C39_default_false | propext, Classical.choice, Quot.sound |
| Props.C39.C39_text_false | propext, Classical.choice, Quot.sound |
| Props.C40.C40_is_primitive | propext, Classical.choice, Quot.sound |
| Props.C40.C40_get | propext, Quot.sound |
| Props.C40.C40_none | propext, Classical.choice, Quot.sound |
| Props.C40.C40_total | propext, Quot.sound |
| Props.C40.C40_value_error | propext, Classical.choice, Quot.sound |
| Props.C40.C40_no_default_false | propext, Classical.choice, Quot.sound |
| Props.C40.C40_shipped | propext, Classical.choice, Quot.sound |
| Props.C40.C40_frame | propext, Classical.choice, Quot.sound |
| Props.C41.C41_bytes | propext, Quot.sound |
| Props.C41.C41_text | propext, Classical.choice, Quot.sound |
| Props.C41.C41_urlsafe | propext, Quot.sound |
| Props.C41.C41_length | propext, Quot.sound |
| Props.C41.C41_injective | propext, Quot.sound |
| Props.C41.C41_rejects | propext |
| Props.C41.C41_str | propext, Classical.choice, Quot.sound |
| Props.C41.C41_read_back_false | propext, Classical.choice, Quot.sound |
| Props.C42.C42_grammar | propext, Classical.choice, Quot.sound |
| Props.C42.C42_dump | propext, Classical.choice, Quot.sound |
| Props.C42.C42_reload | propext, Classical.choice, Quot.sound |
| Props.C42.C42_kept | propext, Classical.choice, Quot.sound |
| Props.C42.C42_fields | propext, Classical.choice, Quot.sound |
| Props.C42.C42_nothing | propext, Classical.choice, Quot.sound |
| Props.C42.C42_null_entry | propext, Classical.choice, Quot.sound |
| Props.C42.C42_security_false | propext, Classical.choice, Quot.sound |
| Props.C42.C42_scopes_false | propext, Classical.choice, Quot.sound |
| Props.C42.C42_anything_false | propext, Classical.choice, Quot.sound |
| Props.C42.C42_schema_false | propext, Classical.choice, Quot.sound |
| Props.C42.C42_extension_false | propext, Classical.choice, Quot.sound |
| Props.C43.C43_fields | propext, Classical.choice, Quot.sound |
| Props.C43.C43_untouched | propext, Classical.choice, Quot.sound |
| Props.C43.C43_present | propext, Classical.choice, Quot.sound |
| Props.C43.C43_scalar | propext, Classical.choice, Quot.sound |
| Props.C43.C43_objects_kept | propext, Classical.choice, Quot.sound |
| Props.C43.C43_objects_copied | propext, Classical.choice, Quot.sound |
| Props.C43.C43_lists | propext, Classical.choice, Quot.sound |
| Props.C43.C43_dicts | propext, Classical.choice, Quot.sound |
| Props.C43.C43_total | propext, Classical.choice, Quot.sound |
| Props.C43.C43_order_false | propext, Classical.choice, Quot.sound |
| Props.C43.C43_equal_false | propext, Classical.choice, Quot.sound |
| Props.C44.C44_true | propext, Classical.choice, Quot.sound |
| Props.C44.C44_equal | propext, Classical.choice, Quot.sound |
| Props.C44.C44_both | propext, Classical.choice, Quot.sound |
| Props.C44.C44_names | propext, Classical.choice, Quot.sound |
| Props.C44.C44_error | propext, Classical.choice, Quot.sound |
| Props.C44.C44_class | propext, Quot.sound |
| Props.C44.C44_decides | propext, Classical.choice, Quot.sound |
| Props.C44.C44_lists_false | propext, Classical.choice, Quot.sound |
| Props.C45.C45_entries | propext, Classical.choice, Quot.sound |
| Props.C45.C45_once | propext, Classical.choice, Quot.sound |
| Props.C45.C45_raises | propext, Classical.choice, Quot.sound |
| Props.C45.C45_empty | propext, Classical.choice, Quot.sound |
| Props.C45.C45_decides | propext, Classical.choice, Quot.sound |
| Props.C45.C45_equal_false | propext, Quot.sound |
| Props.C45.C45_numbers_false | propext, Quot.sound |
| Props.C46.C46_once | propext, Quot.sound |
| Props.C46.C46_loaded | propext, Quot.sound |
| Props.C46.C46_fetch | propext, Quot.sound |
| Props.C46.C46_bad | propext, Quot.sound |
| Props.C46.C46_rfc | propext, Quot.sound |
| Props.C46.C46_source | propext |
| Props.C46.C46_hook | propext, Quot.sound |
| Props.C46.C46_pointer_false | propext, Classical.choice, Quot.sound |
| Props.C46.C46_empty_false | propext, Quot.sound |
| Props.C47.C47_right | propext, Classical.choice, Quot.sound |
| Props.C47.C47_again | propext, Classical.choice, Quot.sound |
| Props.C47.C47_below | propext, Classical.choice, Quot.sound |
| Props.C47.C47_local | propext, Quot.sound |
| Props.C47.C47_closed | propext, Classical.choice, Quot.sound |
| Props.C47.C47_refused | propext, Classical.choice, Quot.sound |
| Props.C47.C47_prefix_false | propext, Classical.choice, Quot.sound |
| Props.C47.C47_retry_false | propext, Classical.choice, Quot.sound |
| Props.C48.C48_known | propext, Quot.sound |
| Props.C48.C48_other | propext, Quot.sound |
| Props.C48.C48_fragment | propext, Quot.sound |
| Props.C48.C48_loaded | propext, Classical.choice, Quot.sound |
| Props.C48.C48_cases | propext, Quot.sound |
| Props.C48.C48_exception_false | propext, Classical.choice, Quot.sound |
| Props.C49.C49_errors | propext, Classical.choice, Quot.sound |
| Props.C49.C49_strict | propext, Quot.sound |
| Props.C49.C49_valid | propext, Classical.choice, Quot.sound |
| Props.C50.C50_exact | propext, Quot.sound |
| Props.C50.C50_alone | propext, Quot.sound |
| Props.C50.C50_override | propext, Quot.sound |
| Props.C50.C50_names | propext, Quot.sound |
| Props.C50.C50_again | propext, Quot.sound |
| Props.C50.C50_location_false | propext |
| Props.C50.C50_unrelated_false | propext |
| Props.C51.C51_order | propext |
| Props.C51.C51_media | propext, Quot.sound |
| Props.C51.C51_schemes | propext, Classical.choice, Quot.sound |
| Props.C51.C51_place | propext, Classical.choice, Quot.sound |
| Props.C51.C51_reads | propext, Classical.choice, Quot.sound |
| Props.C51.C51_item | propext, Quot.sound |
| Props.C51.C51_detached | propext, Quot.sound |
| Props.C51.C51_refused | propext, Classical.choice, Quot.sound |
| Props.C51.C51_file | propext, Classical.choice, Quot.sound |
| Props.C51.C51_unsent | propext, Classical.choice, Quot.sound |
| Props.C52.C52_terminates | propext, Classical.choice, Quot.sound |
| Props.C52.C52_raises | propext, Classical.choice, Quot.sound |
| Props.C52.C52_chain | propext, Classical.choice, Quot.sound |
| Props.C52.C52_scalars | propext, Classical.choice, Quot.sound |
| Props.C52.C52_objects | propext, Classical.choice, Quot.sound |
| Props.C52.C52_lists | propext, Classical.choice, Quot.sound |
| Props.C52.C52_pathItem | propext, Classical.choice, Quot.sound |
| Props.C52.C52_first_false | propext, Classical.choice, Quot.sound |
| Props.C53.C53_terminates | propext, Classical.choice, Quot.sound |
| Props.C53.C53_composed | propext, Classical.choice, Quot.sound |
| Props.C53.C53_document | propext, Classical.choice, Quot.sound |
| Props.C53.C53_union | propext, Classical.choice, Quot.sound |
| Props.C53.C53_own | propext, Classical.choice, Quot.sound |
| Props.C53.C53_inherited | propext, Classical.choice, Quot.sound |
| Props.C53.C53_copies | propext, Classical.choice, Quot.sound |
| Props.C53.C53_values | propext, Classical.choice, Quot.sound |
| Props.C53.C53_alike | propext, Classical.choice, Quot.sound |
| Props.C53.C53_whole | propext, Classical.choice, Quot.sound |
| Props.C53.C53_scalars | propext, Classical.choice, Quot.sound |
| Props.C53.C53_lists | propext, Classical.choice, Quot.sound |
| Props.C53.C53_dicts | propext, Classical.choice, Quot.sound |
| Props.C53.C53_items | propext, Classical.choice, Quot.sound |
| Props.C53.C53_items_inherited | propext, Classical.choice, Quot.sound |
| Props.C53.C53_override_false | propext, Classical.choice, Quot.sound |
| Props.C53.C53_kinds_false | propext, Classical.choice, Quot.sound |
| Props.C54.C54_keys | propext, Classical.choice, Quot.sound |
| Props.C54.C54_lookup | propext, Quot.sound |
| Props.C54.C54_kept | propext, Quot.sound |
| Props.C54.C54_none | propext, Quot.sound |
| Props.C54.C54_again | propext, Classical.choice, Quot.sound |
| Props.C54.C54_both_false | propext, Quot.sound |
| Props.C55.C55_places | propext, Quot.sound |
| Props.C55.C55_site | propext, Classical.choice, Quot.sound |
| Props.C55.C55_relative | propext, Classical.choice, Quot.sound |
| Props.C55.C55_operation | propext, Classical.choice, Quot.sound |
| Props.C55.C55_load | propext, Classical.choice, Quot.sound |
| Props.C55.C55_url | propext, Classical.choice, Quot.sound |
| Props.C55.C55_url_relative | propext, Classical.choice, Quot.sound |
| Props.C55.C55_refused | propext, Classical.choice, Quot.sound |
| Props.C55.C55_hosts_false | propext, Quot.sound |
| Props.C55.C55_disjoint_false | propext, Quot.sound |
| Props.C55.C55_empty_false | propext, Quot.sound |
| Props.C55.C55_scheme_false | propext, Quot.sound |
| Props.C55.C55_twice_false | propext, Quot.sound |
| Props.C56.C56_operations | propext, Quot.sound |
| Props.C56.C56_parameters | propext, Quot.sound |
| Props.C56.C56_param | propext, Quot.sound |
| Props.C56.C56_schema | propext, Quot.sound |
| Props.C56.C56_definitions | propext, Classical.choice, Quot.sound |
| Props.C56.C56_models | propext, Classical.choice, Quot.sound |
| Props.C56.C56_references | propext, Classical.choice, Quot.sound |
| Props.C56.C56_schemes | propext, Quot.sound |
| Props.C56.C56_only_schemes | propext, Quot.sound |
| Props.C56.C56_tags | propext, Quot.sound |
| Props.C56.C56_info | propext, Quot.sound |
| Props.C56.C56_accepts | propext, Classical.choice, Quot.sound |
| Props.C56.C56_slash_false | propext, Quot.sound |
| Props.C56.C56_auth_false | propext, Quot.sound |
| Props.C56.C56_resource_scopes_false | propext, Quot.sound |
| Props.C56.C56_multiple_limits_false | propext, Quot.sound |
| Props.C56.C56_zero_limit_false | propext, Quot.sound |
| Props.C56.C56_fraction_false | propext, Classical.choice, Quot.sound |
| Props.C56.C56_flow_false | propext, Quot.sound |
| Props.C56.C56_no_info_false | propext, Quot.sound |
| Props.C57.C57_integer | propext, Classical.choice, Quot.sound |
| Props.C57.C57_string | propext, Classical.choice, Quot.sound |
| Props.C57.C57_array | propext, Classical.choice, Quot.sound |
| Props.C57.C57_email | propext, Classical.choice, Quot.sound |
| Props.C57.C57_enum | propext, Classical.choice, Quot.sound |
| Props.C57.C57_unknown | propext, Classical.choice, Quot.sound |
| Props.C57.C57_integer_limits | propext, Classical.choice, Quot.sound |
| Props.C57.C57_number | propext, Classical.choice, Quot.sound |
| Props.C57.C57_multiples | propext, Classical.choice, Quot.sound |
| Props.C57.C57_multiples_limits | propext, Classical.choice, Quot.sound |
| Props.C57.C57_accepted | propext, Classical.choice, Quot.sound |
| Props.C57.C57_minimum_false | propext, Classical.choice, Quot.sound |
| Props.C57.C57_maximum_false | propext, Classical.choice, Quot.sound |
| Props.C57.C57_multiple_false | propext, Classical.choice, Quot.sound |
| Props.C57.C57_enum_false | propext, Classical.choice, Quot.sound |
| Props.C57.C57_bool_enum_false | propext, Classical.choice, Quot.sound |
| Props.C57.C57_long_false | propext, Classical.choice, Quot.sound |
| Props.C57.C57_unique_false | propext, Classical.choice, Quot.sound |
| Props.C57.C57_items_false | propext, Classical.choice, Quot.sound |
| Props.C57.C57_number_false | propext, Classical.choice, Quot.sound |
| Props.C57.C57_format_false | propext, Classical.choice, Quot.sound |
| Props.C57.C57_fraction_false | propext, Classical.choice, Quot.sound |
| Props.C58.C58_object | propext, Classical.choice, Quot.sound |
| Props.C58.C58_raises | propext, Classical.choice, Quot.sound |
| Props.C58.C58_contents | propext, Classical.choice, Quot.sound |
| Props.C58.C58_any | propext, Classical.choice, Quot.sound |
| Props.C58.C58_succeeds | propext, Classical.choice, Quot.sound |
| Props.C58.C58_value | propext, Classical.choice, Quot.sound |
| Props.C58.C58_additional_false | propext, Classical.choice, Quot.sound |
| Props.C58.C58_undeclared_false | propext, Classical.choice, Quot.sound |
| Props.C58.C58_maxProperties_false | propext, Classical.choice, Quot.sound |
| Props.C58.C58_minProperties_false | propext, Classical.choice, Quot.sound |
| Props.C58.C58_recursive_false | propext, Classical.choice, Quot.sound |
| Props.C58.C58_template_false | propext, Classical.choice, Quot.sound |
| Props.C58.C58_minimal_false | propext, Classical.choice, Quot.sound |
| Props.C58.C58_names_false | propext, Classical.choice, Quot.sound |
| Props.C58.C58_readOnly_false | propext, Classical.choice, Quot.sound |
| Props.C59.C59_exact | propext, Classical.choice, Quot.sound |
| Props.C59.C59_raises | propext, Classical.choice, Quot.sound |
| Props.C59.C59_contents | propext, Classical.choice, Quot.sound |
| Props.C59.C59_succeeds | propext, Classical.choice, Quot.sound |
| Props.C59.C59_accepted | propext, Classical.choice, Quot.sound |
| Props.C59.C59_reference_false | propext, Classical.choice, Quot.sound |
| Props.C59.C59_reference_name_false | propext, Classical.choice, Quot.sound |
| Props.C59.C59_same_name_false | propext, Classical.choice, Quot.sound |
| Props.C59.C59_excluded_false | propext, Classical.choice, Quot.sound |
| Props.C59.C59_template_false | propext, Classical.choice, Quot.sound |
| Props.C60.C60_errors | propext, Classical.choice, Quot.sound |
| Props.C60.C60_raises | propext, Classical.choice, Quot.sound |
| Props.C60.C60_exception | propext, Classical.choice, Quot.sound |
| Props.C60.C60_strict | propext, Quot.sound |
| Props.C60.C60_unknown_false | propext, Classical.choice, Quot.sound |
| Props.C60.C60_file_false | propext, Classical.choice, Quot.sound |
| Props.C60.C60_shaped | propext, Classical.choice, Quot.sound |
| Props.C60.C60_read | propext, Classical.choice, Quot.sound |
| Props.C60.C60_unreported | propext, Classical.choice, Quot.sound |
| Props.C60.C60_missing_false | propext, Classical.choice, Quot.sound |
| Props.C61.C61_reads | propext, Classical.choice, Quot.sound |
| Props.C61.C61_order | propext, Classical.choice, Quot.sound |
| Props.C61.C61_local | propext, Quot.sound |
| Props.C61.C61_plain | propext, Quot.sound |
| Props.C61.C61_file_url | propext, Classical.choice, Quot.sound |
| Props.C61.C61_drive | propext, Quot.sound |
| Props.C61.C61_file | propext, Classical.choice, Quot.sound |
| Props.C61.C61_dir | propext, Classical.choice, Quot.sound |
| Props.C61.C61_bare | propext, Classical.choice, Quot.sound |
| Props.C61.C61_missing | propext, Classical.choice, Quot.sound |
| Props.C61.C61_file_false | propext |
| Props.C61.C61_simple | propext, Classical.choice, Quot.sound |
| Props.C61.C61_dict | propext, Classical.choice, Quot.sound |
| Props.C61.C61_dict_false | propext, Classical.choice, Quot.sound |
| Props.C62.C62_keep | propext, Classical.choice, Quot.sound |
| Props.C62.C62_off | propext, Classical.choice, Quot.sound |
| Props.C62.C62_failed_false | propext, Classical.choice, Quot.sound |
| Props.C62.C62_several_false | propext, Classical.choice, Quot.sound |
| Props.C63.C63_headers | propext, Quot.sound |
| Props.C63.C63_frame | propext |
| Props.C63.C63_payload | propext |
| Props.C63.C63_sent | propext, Quot.sound |
| Props.C64.C64_requests | propext, Classical.choice, Quot.sound |
| Props.C64.C64_tornado | propext, Classical.choice, Quot.sound |
| Props.C64.C64_flask | propext, Classical.choice, Quot.sound |
| Props.C64.C64_webapp2 | propext, Classical.choice, Quot.sound |
| Props.C64.C64_webapp2_false | propext, Classical.choice, Quot.sound |
| Props.C64.C64_flask_false | propext, Classical.choice, Quot.sound |
| Props.C65.C65_requests | propext, Classical.choice, Quot.sound |
| Props.C65.C65_flask | propext, Classical.choice, Quot.sound |
| Props.C65.C65_webapp2 | propext, Classical.choice, Quot.sound |
| Props.C65.C65_tornado | propext, Classical.choice, Quot.sound |
| Props.C65.C65_tornado_false | propext, Classical.choice, Quot.sound |
| Props.C66.C66_date | propext, Classical.choice, Quot.sound |
| Props.C66.C66_date_only | propext, Classical.choice, Quot.sound |
| Props.C66.C66_date_false | propext |
| Props.C66.C66_datetime | propext, Classical.choice, Quot.sound |
| Props.C66.C66_datetime_only | propext, Classical.choice, Quot.sound |
| Props.C66.C66_naive_false | propext, Classical.choice, Quot.sound |
| Props.C66.C66_offset | propext, Classical.choice, Quot.sound |
| Props.C67.C67_path | propext, Quot.sound |
| Props.C67.C67_no_paths | propext, Quot.sound |
| Props.C67.C67_distinct | propext, Quot.sound |
| Props.C67.C67_base | propext, Quot.sound |
| Props.C67.C67_operation_false | propext, Quot.sound |
| Props.C68.C68_named | propext, Quot.sound |
| Props.C68.C68_unnamed | propext, Quot.sound |
| Props.C68.C68_scan | propext, Quot.sound |
| Props.C68.C68_upgraded | propext, Quot.sound |
| Props.C68.C68_separator_false | propext |
| Props.C68.C68_nested_false | propext |
| Props.C69.C69_read | propext, Classical.choice, Quot.sound |
| Props.C69.C69_canonical_spelling | propext |
| Props.C69.C69_write | propext, Classical.choice, Quot.sound |
| Props.C69.C69_roundtrip | propext, Classical.choice, Quot.sound |
| Props.C69.C69_bytes | propext, Quot.sound |
| Props.C69.C69_refused | propext, Classical.choice, Quot.sound |
| Props.C69.C69_short | propext, Classical.choice, Quot.sound |
| Props.C69.C69_strange | propext, Quot.sound |
| Props.C69.C69_error_false | propext |
| Props.C69.C69_spellings_false | propext, Classical.choice, Quot.sound |
| Props.C70.C70_body | propext, Classical.choice, Quot.sound |
| Props.C70.C70_errors | propext, Quot.sound |
| Props.C70.C70_injective | propext, Classical.choice, Quot.sound |
| Props.C70.C70_unmarshal | propext, Classical.choice, Quot.sound |
| Props.C70.C70_roundtrip | propext, Classical.choice, Quot.sound |
| Props.C70.C70_not_utf8 | propext, Classical.choice, Quot.sound |
| Props.C70.C70_nan_false | propext, Classical.choice, Quot.sound |
| Props.C71.C71_url | propext, Classical.choice, Quot.sound |
| Props.C71.C71_load | propext, Classical.choice, Quot.sound |
| Props.C71.C71_complete | propext, Classical.choice, Quot.sound |
| Props.C71.C71_malformed | propext, Quot.sound |
| Props.C71.C71_relative_false | propext, Quot.sound |
| Props.C71.C71_getter_object_false | propext, Classical.choice, Quot.sound |
| Props.C72.C72_path | propext, Classical.choice, Quot.sound |
| Props.C72.C72_url | propext, Classical.choice, Quot.sound |
| Props.C72.C72_query | propext, Classical.choice, Quot.sound |
| Props.C72.C72_header | propext, Classical.choice, Quot.sound |
| Props.C72.C72_form | propext, Classical.choice, Quot.sound |
| Props.C72.C72_files | propext, Classical.choice, Quot.sound |
| Props.C72.C72_body | propext, Classical.choice, Quot.sound |
| Props.C72.C72_blank_false | propext, Classical.choice, Quot.sound |
| Props.C73.C73_integer | propext, Classical.choice, Quot.sound |
| Props.C73.C73_integer_float | propext, Classical.choice, Quot.sound |
| Props.C73.C73_fraction_false | propext, Classical.choice, Quot.sound |
| Props.C73.C73_number | propext, Classical.choice, Quot.sound |
| Props.C73.C73_string | propext, Classical.choice, Quot.sound |
| Props.C73.C73_uuid | propext, Classical.choice, Quot.sound |
| Props.C73.C73_date | propext, Classical.choice, Quot.sound |
| Props.C73.C73_datetime | propext, Classical.choice, Quot.sound |
| Props.C73.C73_array | propext, Classical.choice, Quot.sound |
| Props.C73.C73_integers | propext, Classical.choice, Quot.sound |
| Props.C73.C73_boolean_false | propext, Classical.choice, Quot.sound |
| Props.C73.C73_boolean_text_false | propext, Classical.choice, Quot.sound |
| Props.C73.C73_byte | propext, Classical.choice, Quot.sound |
| Props.C73.C73_byte_false | propext, Classical.choice, Quot.sound |
| Props.C74.C74_integer | propext, Classical.choice, Quot.sound |
| Props.C74.C74_number | propext, Classical.choice, Quot.sound |
| Props.C74.C74_string | propext, Classical.choice, Quot.sound |
| Props.C74.C74_email | propext, Classical.choice, Quot.sound |
| Props.C74.C74_uuid | propext, Classical.choice, Quot.sound |
| Props.C74.C74_byte | propext, Classical.choice, Quot.sound |
| Props.C74.C74_date | propext, Classical.choice, Quot.sound |
| Props.C74.C74_datetime | propext, Classical.choice, Quot.sound |
| Props.C74.C74_array | propext, Classical.choice, Quot.sound |
| Props.C74.C74_simple_array | propext, Classical.choice, Quot.sound |
| Props.C74.C74_header | propext, Classical.choice, Quot.sound |
| Props.C74.C74_boolean_false | propext, Classical.choice, Quot.sound |
| Props.C74.C74_date_false | propext, Classical.choice, Quot.sound |
| Props.C74.C74_empty_false | propext, Classical.choice, Quot.sound |
| Props.C74.C74_unique_false | propext, Classical.choice, Quot.sound |
| Props.C75.C75_accepted | propext, Classical.choice, Quot.sound |
| Props.C75.C75_upload | propext, Classical.choice, Quot.sound |
| Props.C75.C75_request | propext, Classical.choice, Quot.sound |
| Props.C75.C75_content | propext, Quot.sound |
| Props.C75.C75_twice_false | propext, Quot.sound |
| Props.C76.C76_parse_same | propext, Classical.choice, Quot.sound |
| Props.C76.C76_parse | propext, Classical.choice, Quot.sound |
| Props.C76.C76_merge_same | propext, Classical.choice, Quot.sound |
| Props.C76.C76_merge | propext, Classical.choice, Quot.sound |
| Props.C76.C76_scan | propext, Classical.choice, Quot.sound |
| Props.C76.C76_scan_missing | propext, Classical.choice, Quot.sound |
| Props.C76.C76_inherited | propext, Quot.sound |
| Props.C76.C76_inherited_false | propext, Quot.sound |
| Props.C77.C77_parameter | propext, Classical.choice, Quot.sound |
| Props.C77.C77_schema | propext, Classical.choice, Quot.sound |
| Props.C77.C77_parameters | propext, Classical.choice, Quot.sound |
| Props.C77.C77_prepared | propext, Classical.choice, Quot.sound |
| Props.C77.C77_integer | propext, Classical.choice, Quot.sound |
| Props.C77.C77_default_false | propext, Classical.choice, Quot.sound |
| Props.C78.C78_schema | propext, Classical.choice, Quot.sound |
| Props.C78.C78_references | propext, Classical.choice, Quot.sound |
| Props.C78.C78_body | propext, Classical.choice, Quot.sound |
| Props.C79.C79_conforms | propext, Classical.choice, Quot.sound |
| Props.C79.C79_accepted | propext, Classical.choice, Quot.sound |
| Props.C79.Parts.C79_nested_false | propext, Classical.choice, Quot.sound |
| Props.C79.Parts.C79_unnamed_false | propext, Classical.choice, Quot.sound |
| Props.C79.C79_formats | propext, Classical.choice, Quot.sound |
| Props.C79.C79_own | propext, Classical.choice, Quot.sound |
| Props.C79.C79_back | propext, Classical.choice, Quot.sound |
| Props.C79.C79_byte_false | propext, Classical.choice, Quot.sound |
| Props.C79.C79_received | propext, Classical.choice, Quot.sound |
| Props.C79.C79_null_false | propext, Classical.choice, Quot.sound |
| Props.C80.C80_entry | propext, Classical.choice, Quot.sound |
| Props.C80.C80_reply | propext, Classical.choice, Quot.sound |
| Props.C80.C80_data | propext, Classical.choice, Quot.sound |
| Props.C81.C81_conforms | propext, Classical.choice, Quot.sound |
| Props.C81.C81_text | propext, Classical.choice, Quot.sound |
| Props.C81.C81_texts | propext, Classical.choice, Quot.sound |
| Props.C81.C81_query | propext, Classical.choice, Quot.sound |
| Props.C81.C81_form | propext, Classical.choice, Quot.sound |
| Props.C81.C81_header | propext, Classical.choice, Quot.sound |
| Props.C81.C81_path | propext, Classical.choice, Quot.sound |
| Props.C81.C81_accepted | propext, Classical.choice, Quot.sound |
| Props.C81.C81_received | propext, Classical.choice, Quot.sound |
| Props.C81.C81_reply | propext, Classical.choice, Quot.sound |
| Props.C81.C81_formats | propext, Classical.choice, Quot.sound |
| Props.C81.C81_clear | propext, Classical.choice, Quot.sound |
| Props.C81.C81_boolean_false | propext, Classical.choice, Quot.sound |
| Props.C81.C81_flag_false | propext, Classical.choice, Quot.sound |
| Props.C81.C81_nan_false | propext, Classical.choice, Quot.sound |
| Props.C81.C81_separator_false | propext, Classical.choice, Quot.sound |
| Props.C82.C82_loads | propext, Classical.choice, Quot.sound |
| Props.C82.C82_resolve | propext, Quot.sound |
| Props.C82.C82_parameters | propext, Classical.choice, Quot.sound |
| Props.C82.C82_query | propext, Classical.choice, Quot.sound |
| Props.C82.C82_form | propext, Classical.choice, Quot.sound |
| Props.C82.C82_header | propext, Classical.choice, Quot.sound |
| Props.C82.C82_path | propext, Classical.choice, Quot.sound |
| Props.C82.C82_body | propext, Classical.choice, Quot.sound |
| Props.C82.C82_reply | propext, Classical.choice, Quot.sound |
| Props.C82.C82_data | propext, Classical.choice, Quot.sound |
| Props.C82.C82_received | propext, Classical.choice, Quot.sound |
| Props.C83.C83_deref | propext, Classical.choice, Quot.sound |
| Props.C83.C83_schemata | propext, Classical.choice, Quot.sound |
| Props.C83.C83_operation | propext, Classical.choice, Quot.sound |
| Props.C83.C83_responses | propext, Classical.choice, Quot.sound |
| Props.C83.C83_parameters | propext, Classical.choice, Quot.sound |
| Props.C83.C83_query | propext, Classical.choice, Quot.sound |
| Props.C83.C83_form | propext, Classical.choice, Quot.sound |
| Props.C83.C83_header | propext, Classical.choice, Quot.sound |
| Props.C83.C83_path | propext, Classical.choice, Quot.sound |
| Props.C83.C83_body | propext, Classical.choice, Quot.sound |
| Props.C83.C83_reply | propext, Classical.choice, Quot.sound |
| Props.C83.C83_data | propext, Classical.choice, Quot.sound |
| Props.C83.C83_received | propext, Classical.choice, Quot.sound |
| Props.C84.C84_fields | propext, Classical.choice, Quot.sound |
| Props.C84.C84_classes | propext, Classical.choice, Quot.sound |
| Props.C84.C84_reads | propext, Classical.choice, Quot.sound |
| Props.C84.C84_readable | propext, Classical.choice, Quot.sound |
| Props.C84.C84_operation_docs_false | propext, Classical.choice, Quot.sound |
| Props.C85.C85_fields | propext, Classical.choice, Quot.sound |
| Props.C85.C85_classes | none |
| Props.C85.C85_reads | propext, Classical.choice, Quot.sound |
| Props.C85.C85_operations | propext, Classical.choice, Quot.sound |
| Props.C85.C85_readable | propext, Classical.choice, Quot.sound |
| Props.C85.C85_readable_declaration | propext, Classical.choice, Quot.sound |
| Props.C85.C85_listing | propext, Classical.choice, Quot.sound |
| Props.C85.C85_null | propext, Classical.choice, Quot.sound |
| Props.C85.C85_declaration_false | propext, Classical.choice, Quot.sound |
| Props.C85.C85_items_false | propext, Classical.choice, Quot.sound |
| Props.C86.C86_operation | propext, Classical.choice, Quot.sound |
| Props.C86.C86_transfer | propext |
| Props.C86.C86_address | propext, Classical.choice, Quot.sound |
| Props.C86.C86_accept | propext, Quot.sound |
| Props.C86.C86_content | propext, Quot.sound |
| Props.C86.C86_open | propext, Quot.sound |
| Props.C86.C86_registered | propext, Classical.choice, Quot.sound |
| Props.C86.C86_query_credential | propext, Quot.sound |
| Props.C86.C86_header_credential | propext, Classical.choice, Quot.sound |
| Props.C86.C86_private | propext, Quot.sound |
| Props.C86.C86_query | propext, Classical.choice, Quot.sound |
| Props.C86.C86_body | propext, Classical.choice, Quot.sound |
| Props.C87.C87_reads | propext, Classical.choice, Quot.sound |
| Props.C87.C87_document | propext, Classical.choice, Quot.sound |
| Props.C87.C87_operation | propext, Classical.choice, Quot.sound |
| Props.C87.C87_only | propext, Classical.choice, Quot.sound |
| Props.C87.C87_operation_relative | propext, Classical.choice, Quot.sound |
| Props.C87.C87_request | propext, Classical.choice, Quot.sound |
| Props.C87.C87_credentials | propext, Quot.sound |
| Props.C87.C87_models | propext, Classical.choice, Quot.sound |
| Props.C87.C87_unknown_model_false | propext, Classical.choice, Quot.sound |
| Props.C88.C88_index | propext, Classical.choice, Quot.sound |
| Props.C88.C88_tagged | propext, Classical.choice, Quot.sound |
| Props.C88.C88_id_partial | propext, Classical.choice, Quot.sound |
| Props.C88.C88_only | propext, Classical.choice, Quot.sound |
| Props.C88.C88_models | propext, Classical.choice, Quot.sound |
| Props.C88.C88_operation | propext, Classical.choice, Quot.sound |
| Props.C88.C88_path | propext, Classical.choice, Quot.sound |
| Props.C88.C88_id_false | propext, Classical.choice, Quot.sound |
| Props.C89.C89_named | propext, Classical.choice, Quot.sound |
| Props.C89.C89_only | propext, Classical.choice, Quot.sound |
| Props.C89.C89_clash | propext, Classical.choice, Quot.sound |
| Props.C89.C89_distinct | propext, Classical.choice, Quot.sound |
| Props.C89.C89_operation | propext, Classical.choice, Quot.sound |
| Props.C89.C89_clear | propext, Classical.choice, Quot.sound |
| Props.C89.C89_query | propext, Classical.choice, Quot.sound |
| Props.C89.C89_form | propext, Classical.choice, Quot.sound |
| Props.C89.C89_header | propext, Classical.choice, Quot.sound |
| Props.C89.C89_path | propext, Classical.choice, Quot.sound |
| Props.C89.C89_limits_false | propext, Classical.choice, Quot.sound |
| Props.C90.C90_tagged | propext, Classical.choice, Quot.sound |
| Props.C90.C90_body | propext, Classical.choice, Quot.sound |
| Props.C90.Zoo.C90_received_false | propext, Classical.choice, Quot.sound |
| Props.C91.C91_body | propext, Classical.choice, Quot.sound |
| Props.C91.C91_data | propext, Classical.choice, Quot.sound |
| Props.C91.C91_limits_false | propext, Classical.choice, Quot.sound |
| Props.C91.C91_names_false | propext, Classical.choice, Quot.sound |
| Props.C92.C92_version | propext, Classical.choice, Quot.sound |
| Props.C92.C92_create | propext, Classical.choice, Quot.sound |
| Props.C93.C93_apart | propext, Classical.choice, Quot.sound |
| Props.C93.C93_upgrade | propext, Classical.choice, Quot.sound |
| Props.C93.C93_create | propext, Classical.choice, Quot.sound |
| Props.C93.C93_lenient_false | propext, Classical.choice, Quot.sound |
| Props.C94.C94_terminates | propext, Classical.choice, Quot.sound |
| Props.C94.C94_composed | propext, Classical.choice, Quot.sound |
| Props.C94.C94_properties | propext, Classical.choice, Quot.sound |
| Props.C94.C94_definition | propext, Classical.choice, Quot.sound |
| Props.C94.C94_items | propext, Classical.choice, Quot.sound |
| Props.C94.C94_fields | propext, Classical.choice, Quot.sound |
| Props.C94.C94_scalars | propext, Classical.choice, Quot.sound |
| Props.C94.C94_lists | propext, Classical.choice, Quot.sound |
| Props.C94.C94_whole | propext, Classical.choice, Quot.sound |
| Props.C94.Notes.C94_kinds_false | propext, Classical.choice, Quot.sound |
| Props.C94.Notes.C94_mixed_false | propext, Classical.choice, Quot.sound |
| Props.C95.C95_values | propext, Classical.choice, Quot.sound |
| Props.C95.C95_raises | propext, Classical.choice, Quot.sound |
| Props.C95.C95_nested_false | propext, Classical.choice, Quot.sound |
| Props.C96.C96_date | propext, Classical.choice, Quot.sound |
| Props.C96.C96_date_sent | propext, Classical.choice, Quot.sound |
| Props.C96.C96_date_allowed | propext, Classical.choice, Quot.sound |
| Props.C96.C96_datetime | propext, Classical.choice, Quot.sound |
| Props.C96.C96_datetime_allowed | propext, Classical.choice, Quot.sound |
| Props.C96.C96_datetime_false | propext, Classical.choice, Quot.sound |
| Props.C96.C96_uuid | propext, Classical.choice, Quot.sound |
| Props.C96.C96_uuid_sent | propext, Classical.choice, Quot.sound |
| Props.C96.C96_uuid_allowed | propext, Classical.choice, Quot.sound |
| Props.C96.C96_byte | propext, Classical.choice, Quot.sound |
| Props.C96.C96_byte_all | propext, Classical.choice, Quot.sound |
| Props.C96.C96_byte_sent | propext, Classical.choice, Quot.sound |
| Props.C96.C96_byte_allowed | propext |
| Props.C96.C96_byte_false | propext, Classical.choice, Quot.sound |
| Props.C96.C96_file_given | propext, Quot.sound |
| Props.C96.C96_file | propext, Classical.choice, Quot.sound |
| Props.C96.C96_file_sent | propext, Classical.choice, Quot.sound |
| Props.C97.C97_handlers | propext, Classical.choice, Quot.sound |
| Props.C97.C97_refused | propext, Quot.sound |
| Props.C97.C97_result | propext, Classical.choice, Quot.sound |
| Props.C97.C97_scan | propext, Classical.choice, Quot.sound |
| Props.C97.C97_no_root | propext, Quot.sound |
| Props.C97.C97_inherited_false | propext, Quot.sound |
| Props.C98.C98_refused | propext, Classical.choice, Quot.sound |
| Props.C98.C98_schema | propext, Classical.choice, Quot.sound |
| Props.C98.C98_index_false | propext, Classical.choice, Quot.sound |
| Props.C99.C99_index | propext, Classical.choice, Quot.sound |
| Props.C99.C99_refused | propext, Classical.choice, Quot.sound |
| Props.C99.C99_tags_false | propext, Classical.choice, Quot.sound |
| Props.C100.C100_opened | propext, Classical.choice, Quot.sound |
| Props.C100.C100_right | propext, Classical.choice, Quot.sound |
| Props.C100.C100_url | propext, Classical.choice, Quot.sound |
| Props.C100.C100_distinct | propext, Classical.choice, Quot.sound |
| Props.C100.C100_folder | propext, Classical.choice, Quot.sound |
| Props.C100.C100_bare | propext, Classical.choice, Quot.sound |
| Props.C100.C100_blank_false | propext, Quot.sound |
| Props.C100.C100_escape_false | propext |
| Props.C100.C100_folder_false | propext |
| Props.C100.C100_colon_false | propext |
| Props.C100.C100_reference | propext, Classical.choice, Quot.sound |
| Props.C100.C100_dots_false | propext |
| Props.C100.C100_root_false | propext |
| Props.C100.C100_references | propext, Classical.choice, Quot.sound |
| Props.C101.C101_attempt | propext |
| Props.C101.C101_no_trace | propext, Quot.sound |
| Props.C101.C101_refresh | propext, Quot.sound |
| Props.C101.C101_exchange | propext, Classical.choice, Quot.sound |
| Props.C101.C101_clients | propext, Classical.choice, Quot.sound |
| Props.C101.C101_read | propext |
| Props.C101.C101_unread | propext, Quot.sound |
| Props.C101.C101_credentials_false | propext |
| Props.C101.C101_stream_false | propext |
