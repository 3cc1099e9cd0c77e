# Axioms of the property theorems

Written by `tools/axioms.py` from `#print axioms`.

| property | theorem | axioms |
|---|---|---|
| C01 | Sink.C01_lex_total | Classical.choice, Quot.sound, propext |
| C02 | Sink.C02_quoted_at | Classical.choice, Quot.sound, propext |
| C02 | Sink.C02_quoted | Classical.choice, Quot.sound, propext |
| C02 | Sink.C02_quoted_list_aux | Classical.choice, Quot.sound, propext |
| C02 | Sink.C02_quoted_list | Classical.choice, Quot.sound, propext |
| C03 | Sink.C03_tiled | Classical.choice, Quot.sound, propext |
| C03 | Sink.C03_positions | Classical.choice, Quot.sound, propext |
| C03 | Sink.C03_text | Classical.choice, Quot.sound, propext |
| C03 | Sink.C03_lineInfo | Classical.choice, Quot.sound, propext |
| C04 | Sink.C04_neutral_first | Classical.choice, Quot.sound, propext |
| C04 | Sink.C04_neutral | Classical.choice, Quot.sound, propext |
| C04 | Sink.C04_continuation | Classical.choice, Quot.sound, propext |
| C04 | Sink.C04_continuation_closed | Classical.choice, Quot.sound, propext |
| C05 | Sink.C05_parse_total | Classical.choice, Quot.sound, propext |
| C05 | Sink.C05_load_total | Classical.choice, Quot.sound, propext |
| C06 | Sink.C06_expr_iff | Classical.choice, Quot.sound, propext |
| C06 | Sink.C06_expr_unambiguous | Quot.sound, propext |
| C06 | Sink.C06_file_iff | Classical.choice, Quot.sound, propext |
| C06 | Sink.C06_tokens_determine_rules | Classical.choice, Quot.sound, propext |
| C07 | Sink.C07_requires | Classical.choice, Quot.sound, propext |
| C07 | Sink.C07_too_early_fails | Classical.choice, Quot.sound, propext |
| C08 | Sink.C08_rules_well_formed | Classical.choice, Quot.sound, propext |
| C09 | Sink.C09_round_trip | Classical.choice, Quot.sound, propext |
| C09 | Sink.C09_file_round_trip | Classical.choice, Quot.sound, propext |
| C09 | Sink.C09_not_all | Quot.sound, propext |
| C10 | Sink.C10_load_iff | Classical.choice, Quot.sound, propext |
| C10 | Sink.C10_splice | Classical.choice, Quot.sound, propext |
| C10 | Sink.C10_bad_include_fails | Classical.choice, Quot.sound, propext |
| C10 | Sink.C10_trailing_fails | Classical.choice, Quot.sound, propext |
| C10 | Sink.C10_more_descriptors | Classical.choice, Quot.sound, propext |
| C10 | Sink.C10_cycle_fails | Classical.choice, Quot.sound, propext |
| C11 | Sink.C11_base_rules | Classical.choice, Quot.sound, propext |
| C11 | Sink.C11_any_names | Classical.choice, Quot.sound, propext |
| C11 | Sink.C11_stall_rules | Classical.choice, Quot.sound, propext |
| C12 | Sink.C12_address_patterns | Classical.choice, Quot.sound, propext |
| C12 | Sink.C12_null_address | Classical.choice, Quot.sound, propext |
| C12 | Sink.C12_bare_name | Classical.choice, Quot.sound, propext |
| C12 | Sink.C12_full_address | Classical.choice, Quot.sound, propext |
| C12 | Sink.C12_from_host | Classical.choice, Quot.sound, propext |
| C13 | Sink.C13_host_patterns | Classical.choice, Quot.sound, propext |
| C13 | Sink.C13_undotted_host | Classical.choice, Quot.sound, propext |
| C13 | Sink.C13_trailing_dot | Classical.choice, Quot.sound, propext |
| C14 | Sink.C14_ip_patterns | Classical.choice, Quot.sound, propext |
| C14 | Sink.C14_families | Classical.choice, Quot.sound, propext |
| C14 | Sink.C14_families6 | Classical.choice, Quot.sound, propext |
| C14 | Sink.C14_garbage | Classical.choice, Quot.sound, propext |
| C14 | Sink.C14_invalid_client_matches_everything | Quot.sound, propext |
| C15 | Sink.C15_subject_case | Quot.sound, propext |
| C15 | Sink.C15_literal_case | Quot.sound, propext |
| C15 | Sink.C15_file_case | Quot.sound, propext |
| C16 | Sink.C16_unique | Quot.sound, propext |
| C16 | Sink.C16_entries_partial | Quot.sound, propext |
| C16 | Sink.C16_lines_exist | Quot.sound, propext |
| C16 | Sink.C16_no_empty_entry | Quot.sound, propext |
| C16 | Sink.C16_last_line_lost | Quot.sound, propext |
| C16 | Sink.C16_load | propext |
| C17 | Sink.C17_semantics | Classical.choice, Quot.sound, propext |
| C17 | Sink.C17_contexts | Classical.choice, Quot.sound, propext |
| C17 | Sink.C17_boolean | Classical.choice, Quot.sound, propext |
| C17 | Sink.C17_parts | Classical.choice, Quot.sound, propext |
| C18 | Sink.C18_mark | Quot.sound, propext |
| C18 | Sink.C18_rule_skipped | Quot.sound, propext |
| C18 | Sink.C18_static | Classical.choice, Quot.sound, propext |
| C19 | Sink.C19_once | Classical.choice, Quot.sound, propext |
| C19 | Sink.C19_snapshot | Classical.choice, Quot.sound, propext |
| C20 | Sink.C20_sticky | Quot.sound, propext |
| C20 | Sink.C20_known | Classical.choice, Quot.sound, propext |
| C20 | Sink.C20_hits | Classical.choice, Quot.sound, propext |
| C21 | Sink.C21_only_known_data | Classical.choice, Quot.sound, propext |
| C22 | Sink.C22_first_match | Classical.choice, Quot.sound, propext |
| C23 | Sink.C23_withs | Classical.choice, Quot.sound, propext |
| C23 | Sink.C23_determined | Quot.sound, propext |
| C24 | Sink.C24_explicit_phase | Quot.sound, propext |
| C25 | Sink.C25_null_sender | Quot.sound, propext |
| C25 | Sink.C25_reply | Quot.sound, propext |
| C25 | Sink.C25_reset | Quot.sound, propext |
| C26 | Sink.C26_sticks | Quot.sound, propext |
| C26 | Sink.C26_rules | Classical.choice, Quot.sound, propext |
| C26 | Sink.C26_cleared | Quot.sound, propext |
| C27 | Sink.C27_each_recipient | Classical.choice, Quot.sound, propext |
| C27 | Sink.C27_alone | Classical.choice, Quot.sound, propext |
| C27 | Sink.C27_leftover | Classical.choice, Quot.sound, propext |
| C28 | Sink.C28_consistent | Classical.choice, Quot.sound, propext |
| C28 | Sink.C28_meaning | Classical.choice, Quot.sound, propext |
| C28 | Sink.C28_bad_partial | Classical.choice, Quot.sound, propext |
| C28 | Sink.C28_bad_differs | Quot.sound, propext |
| C29 | Sink.C29_consistent | Classical.choice, Quot.sound, propext |
| C29 | Sink.C29_meaning | Classical.choice, Quot.sound, propext |
| C29 | Sink.C29_unknown_client | Classical.choice, Quot.sound, propext |
| C30 | Sink.C30_consistent | Classical.choice, Quot.sound, propext |
| C31 | Sink.C31_source | Classical.choice, Quot.sound, propext |
| C31 | Sink.C31_domain_like_host | propext |
| C32 | Sink.C32_dbl | Classical.choice, Quot.sound, propext |
| C32 | Sink.C32_order | Classical.choice, Quot.sound, propext |
| C32 | Sink.C32_only_named_sources | Classical.choice, Quot.sound, propext |
| C33 | Sink.C33_envelope | Quot.sound, propext |
| C33 | Sink.C33_rules_see | Quot.sound, propext |
| C34 | Sink.C34_savedir | Quot.sound, propext |
| C34 | Sink.C34_last | Quot.sound, propext |
| C35 | Sink.C35_M | Classical.choice, Quot.sound, propext |
| C36 | Sink.C36_toaccept | Classical.choice, Quot.sound, propext |
| C36 | Sink.C36_fromreject | Classical.choice, Quot.sound, propext |
| C37 | Sink.C37_broken_rules | Classical.choice, Quot.sound, propext |
| C37 | Sink.C37_start | Quot.sound, propext |
| C38 | Sink.C38_stalled_iff | Quot.sound, propext |
| C38 | Sink.C38_stalled_effect | Classical.choice, Quot.sound, propext |
| C38 | Sink.C38_session | propext |
| C38 | Sink.C38_useless | Quot.sound, propext |
| C39 | Sink.C39_not_always | Quot.sound, propext |
| C39 | Sink.C39_last_decision_partial | Quot.sound, propext |
| C39 | Sink.C39_exactly_partial | Quot.sound, propext |
| C40 | Sink.C40_reports_partial | Quot.sound, propext |
| C40 | Sink.C40_once_partial | Quot.sound, propext |
| C40 | Sink.C40_not_always | Quot.sound, propext |
| C41 | Sink.C41_offered | Classical.choice, Quot.sound, propext |
| C41 | Sink.C41_rules | Quot.sound, propext |
| C42 | Sink.C42_msg_partial | Classical.choice, Quot.sound, propext |
| C42 | Sink.C42_full_partial | Classical.choice, Quot.sound, propext |
| C42 | Sink.C42_shared | Quot.sound, propext |
| C42 | Sink.C42_early | Quot.sound, propext |
| C42 | Sink.C42_stored_partial | Classical.choice, Quot.sound, propext |
| C42 | Sink.C42_failure | Classical.choice, Quot.sound, propext |
| C42 | Sink.C42_all_partial | Classical.choice, Quot.sound, propext |
| C42 | Sink.C42_not_always | Quot.sound, propext |
| C42 | Sink.C42_retry | Quot.sound, propext |
| C43 | Sink.C43_message | Classical.choice, Quot.sound, propext |
| C43 | Sink.C43_initial | Classical.choice, Quot.sound, propext |
| C43 | Sink.C43_closed | Classical.choice, Quot.sound, propext |
| C44 | Sink.C44_msg | Quot.sound, propext |
| C44 | Sink.C44_full | Quot.sound, propext |
| C44 | Sink.C44_all | Quot.sound, propext |
| C44 | Sink.C44_full_hash | Quot.sound, propext |
| C44 | Sink.C44_distinct | Quot.sound, propext |
| C45 | Sink.C45_read_back | Quot.sound, propext |
| C45 | Sink.C45_certificate | Quot.sound, propext |
| C46 | Sink.C46_log_line | Quot.sound, propext |
| C46 | Sink.C46_count | Classical.choice, Quot.sound, propext |
| C47 | Sink.C47_partial | Classical.choice, Quot.sound, propext |
| C47 | Sink.C47_server_partial | Classical.choice, Quot.sound, propext |
| C47 | Sink.C47_empty_helo | Quot.sound, propext |
| C47 | Sink.C47_empty_pattern | Quot.sound, propext |
| C47 | Sink.C47_note_without_log | Quot.sound, propext |
| C47 | Sink.C47_sbl_ipv6 | Quot.sound, propext |
| C47 | Sink.C47_empty_name | Quot.sound, propext |
| C47 | Sink.C47_empty_client_name | Quot.sound, propext |
| C48 | Sink.C48_first_partial | Classical.choice, Quot.sound, propext |
| C48 | Sink.C48_unparsable | Quot.sound, propext |
| C48 | Sink.C48_settings_partial | Classical.choice, Quot.sound, propext |
| C48 | Sink.C48_life_partial | Classical.choice, Quot.sound, propext |
| C48 | Sink.C48_no_certificates | Quot.sound, propext |
| C49 | Sink.C49_strict_partial | Classical.choice, Quot.sound, propext |
| C49 | Sink.C49_unreadable | propext |
| C49 | Sink.C49_entries | Classical.choice, Quot.sound, propext |
| C49 | Sink.C49_last_line_lost | propext |
| C49 | Sink.C49_not_all | none |
| C50 | Sink.C50_classification | Classical.choice, Quot.sound, propext |
| C50 | Sink.C50_no_names | propext |
| C50 | Sink.C50_invalid_client | Classical.choice, Quot.sound, propext |
| C51 | Sink.C51_valid_iff | Classical.choice, Quot.sound, propext |
| C51 | Sink.C51_unknown_iff | Classical.choice, Quot.sound, propext |
| C51 | Sink.C51_bad_iff | Classical.choice, Quot.sound, propext |
| C51 | Sink.C51_bogus_mx | Classical.choice, Quot.sound, propext |
| C51 | Sink.C51_order_irrelevant | Classical.choice, Quot.sound, propext |
| C52 | Sink.C52_deliverable_iff | Classical.choice, Quot.sound, propext |
| C52 | Sink.C52_public_v4 | Classical.choice, Quot.sound, propext |
| C52 | Sink.C52_public_v6 | Classical.choice, Quot.sound, propext |
| C53 | Sink.C53_partial | Classical.choice, Quot.sound, propext |
| C53 | Sink.C53_no_spare | Classical.choice, Quot.sound, propext |
| C53 | Sink.C53_not_all | propext |
| C54 | Sink.C54_atomic | Quot.sound, propext |
| C54 | Sink.C54_exclusive | Quot.sound, propext |
| C54 | Sink.C54_count | Quot.sound, propext |
| C54 | Sink.C54_adds | propext |
| C54 | Sink.C54_steps | Quot.sound, propext |
| C55 | Sink.C55_finished | Classical.choice, Quot.sound, propext |
| C55 | Sink.C55_no_deadlock | Classical.choice, Quot.sound, propext |
| C55 | Sink.C55_ends | Classical.choice, Quot.sound, propext |
| C55 | Sink.C55_stream | Classical.choice, Quot.sound, propext |
| C56 | Sink.C56_printed | Quot.sound, propext |
| C56 | Sink.C56_flush | Quot.sound, propext |
| C56 | Sink.C56_order | propext |
| C56 | Sink.C56_progress | Quot.sound, propext |
| C57 | Sink.C57_exact | Classical.choice, Quot.sound, propext |
| C57 | Sink.C57_total | Classical.choice, Quot.sound, propext |
| C57 | Sink.C57_exclusive | Classical.choice, Quot.sound, propext |
| C58 | Sink.C58_once | Quot.sound, propext |
| C58 | Sink.C58_file | Quot.sound, propext |
| C58 | Sink.C58_parts | Quot.sound, propext |
| C59 | Sink.C59_starts | Classical.choice, Quot.sound, propext |
| C59 | Sink.C59_refused | Classical.choice, Quot.sound, propext |
| C59 | Sink.C59_settings | Classical.choice, Quot.sound, propext |
| C59 | Sink.C59_safe | Classical.choice, Quot.sound, propext |
| C60 | Sink.C60_minphase | Quot.sound, propext |
| C61 | Sink.C61_proto | Quot.sound, propext |
| C62 | Sink.C62_comma | Classical.choice, Quot.sound, propext |
| C63 | Sink.C63_step | Classical.choice, Quot.sound, propext |
| C63 | Sink.C63_total | Quot.sound, propext |
| C63 | Sink.C63_in_turn | propext |
| C63 | Sink.C63_soon | Classical.choice, Quot.sound, propext |
| C63 | Sink.C63_end | Quot.sound, propext |
| C64 | Sink.C64_decision | Quot.sound, propext |
| C64 | Sink.C64_connect | Quot.sound, propext |
| C64 | Sink.C64_lost | Quot.sound, propext |
| C64 | Sink.C64_id | Classical.choice, Quot.sound, propext |
| C65 | Sink.C65_step | Classical.choice, Quot.sound, propext |
| C65 | Sink.C65_start | Quot.sound, propext |
| C65 | Sink.C65_server | Classical.choice, Quot.sound, propext |
| C65 | Sink.C65_laws | Classical.choice, Quot.sound, propext |
| C66 | Sink.C66_step | Quot.sound, propext |
| C66 | Sink.C66_dnlog | Quot.sound, propext |
| C66 | Sink.C66_off | Quot.sound, propext |
| C66 | Sink.C66_counts | Quot.sound, propext |
| C66 | Sink.C66_hits | Quot.sound, propext |
| C66 | Sink.C66_start | Quot.sound, propext |
| C67 | Sink.C67_heloreject | Classical.choice, Quot.sound, propext |
| C68 | Sink.C68_std | Classical.choice, Quot.sound, propext |
| C69 | Sink.C69_numbers | Quot.sound, propext |
| C69 | Sink.C69_all | Quot.sound, propext |
| C69 | Sink.C69_counter | Quot.sound, propext |
| C69 | Sink.C69_served | Classical.choice, Quot.sound, propext |
| C70 | Sink.C70_shown | Classical.choice, Quot.sound, propext |
| C70 | Sink.C70_present | Classical.choice, Quot.sound, propext |
| C70 | Sink.C70_connection | Classical.choice, Quot.sound, propext |
| C70 | Sink.C70_off | Quot.sound, propext |
| C70 | Sink.C70_not_latest | Classical.choice, Quot.sound, propext |
| C71 | Sink.C71_isolated | Classical.choice, Quot.sound, propext |
| C71 | Sink.C71_all | Classical.choice, Quot.sound, propext |
| C72 | Sink.C72_rules | Classical.choice, Quot.sound, propext |
| C72 | Sink.C72_priority | Quot.sound, propext |
| C72 | Sink.C72_otherwise | Quot.sound, propext |
| C73 | Sink.C73_read_meta | Classical.choice, Quot.sound, propext |
| C74 | Sink.C74_setup_once | Quot.sound, propext |
| C74 | Sink.C74_lasting | Quot.sound, propext |
| C75 | Sink.C75_decision | Classical.choice, Quot.sound, propext |
| C75 | Sink.C75_step | Classical.choice, Quot.sound, propext |
| C75 | Sink.C75_life | Classical.choice, Quot.sound, propext |
| C76 | Sink.C76_answers | Classical.choice, Quot.sound, propext |
| C76 | Sink.C76_connect | Classical.choice, Quot.sound, propext |
| C76 | Sink.C76_determined | Classical.choice, Quot.sound, propext |
| C77 | Sink.C77_constant | Classical.choice, Quot.sound, propext |
| C77 | Sink.C77_trim | Classical.choice, Quot.sound, propext |
| C77 | Sink.C77_answers | Classical.choice, Quot.sound, propext |
| C77 | Sink.C77_welcome | Classical.choice, Quot.sound, propext |
| C77 | Sink.C77_unwelcome | Classical.choice, Quot.sound, propext |
| C78 | Sink.C78_read_log | Classical.choice, Quot.sound, propext |
| C78 | Sink.C78_ambiguous | Quot.sound, propext |
| C79 | Sink.C79_error_place | Classical.choice, Quot.sound, propext |
| C79 | Sink.C79_include_error | Classical.choice, Quot.sound, propext |
| C79 | Sink.C79_file_error | Quot.sound, propext |
| C80 | Sink.C80_rules | Quot.sound, propext |
| C80 | Sink.C80_conn_error | Classical.choice, Quot.sound, propext |
| C80 | Sink.C80_conn | Classical.choice, Quot.sound, propext |
| C80 | Sink.C80_steps | Quot.sound, propext |
| C81 | Sink.C81_never_stalled | Quot.sound, propext |
| C81 | Sink.C81_record | Quot.sound, propext |
| C81 | Sink.C81_never_reported | Classical.choice, Quot.sound, propext |
| C82 | Sink.C82_consistent | Classical.choice, Quot.sound, propext |
| C82 | Sink.C82_total | Classical.choice, Quot.sound, propext |
| C82 | Sink.C82_server | Classical.choice, Quot.sound, propext |
| C83 | Sink.C83_page | Classical.choice, Quot.sound, propext |
| C83 | Sink.C83_all | Quot.sound, propext |
| C83 | Sink.C83_once | Quot.sound, propext |
| C84 | Sink.C84_pattern_file | Quot.sound, propext |
| C84 | Sink.C84_connection_file | Quot.sound, propext |
| C84 | Sink.C84_crlf | Quot.sound, propext |
| C84 | Sink.C84_rules_differ | Quot.sound, propext |
| C85 | Sink.C85_exchange | Classical.choice, Quot.sound, propext |
| C85 | Sink.C85_exchange_connect | Classical.choice, Quot.sound, propext |
| C85 | Sink.C85_in_not | Quot.sound, propext |
| C85 | Sink.C85_in_or | Quot.sound, propext |
| C85 | Sink.C85_in_and | Quot.sound, propext |
| C85 | Sink.C85_not_not | Classical.choice, Quot.sound, propext |
| C85 | Sink.C85_not_or | Classical.choice, Quot.sound, propext |
| C85 | Sink.C85_not_and | Classical.choice, Quot.sound, propext |
| C85 | Sink.C85_or_assoc | Classical.choice, Quot.sound, propext |
| C85 | Sink.C85_and_parens | Classical.choice, Quot.sound, propext |
| C85 | Sink.C85_or_twice | Classical.choice, Quot.sound, propext |
| C85 | Sink.C85_and_twice | Classical.choice, Quot.sound, propext |
| C85 | Sink.C85_distribute | Classical.choice, Quot.sound, propext |
| C85 | Sink.C85_source | Quot.sound, propext |
| C85 | Sink.C85_attributes | Classical.choice, Quot.sound, propext |
| C85 | Sink.C85_dns_exists | Quot.sound, propext |
| C85 | Sink.C85_dns_good | Quot.sound, propext |
| C85 | Sink.C85_or_comm | Quot.sound, propext |
| C85 | Sink.C85_and_order | Quot.sound, propext |
| C85 | Sink.C85_in_rule | Quot.sound, propext |
| C85 | Sink.C85_clauses_or | Classical.choice, Quot.sound, propext |
| C85 | Sink.C85_or_rules | Classical.choice, Quot.sound, propext |
| C85 | Sink.C85_clauses_rules | Classical.choice, Quot.sound, propext |
| C85 | Sink.C85_covered | Classical.choice, Quot.sound, propext |
| C85 | Sink.C85_twice | Classical.choice, Quot.sound, propext |
| C85 | Sink.C85_narrower | Classical.choice, Quot.sound, propext |
| C85 | Sink.C85_never | Classical.choice, Quot.sound, propext |
| C85 | Sink.C85_two_addresses | Classical.choice, Quot.sound, propext |
| C85 | Sink.C85_order | Classical.choice, Quot.sound, propext |
| C85 | Sink.C85_answers | Classical.choice, Quot.sound, propext |
| C85 | Sink.C85_file_order | Quot.sound, propext |
| C85 | Sink.C85_phases_differ | Classical.choice, Quot.sound, propext |
| C85 | Sink.C85_set_with_differs | Quot.sound, propext |
| C86 | Sink.C86_answers | Classical.choice, Quot.sound, propext |
| C86 | Sink.C86_addresses_needed | Classical.choice, Quot.sound, propext |
| C87 | Sink.C87_ruling | Classical.choice, Quot.sound, propext |
| C87 | Sink.C87_accept | Classical.choice, Quot.sound, propext |
| C87 | Sink.C87_refuse | Classical.choice, Quot.sound, propext |
| C87 | Sink.C87_refused | Classical.choice, Quot.sound, propext |
| C87 | Sink.C87_set | Classical.choice, Quot.sound, propext |
| C87 | Sink.C87_connect | Quot.sound, propext |
| C88 | Sink.C88_ruling | Classical.choice, Quot.sound, propext |
| C88 | Sink.C88_answers | Classical.choice, Quot.sound, propext |
| C88 | Sink.C88_order | Classical.choice, Quot.sound, propext |
| C89 | Sink.C89_rule | Classical.choice, Quot.sound, propext |
| C89 | Sink.C89_addresses | Classical.choice, Quot.sound, propext |
| C89 | Sink.C89_blocks | Classical.choice, Quot.sound, propext |
| C89 | Sink.C89_means | Classical.choice, Quot.sound, propext |
| C89 | Sink.C89_client | Classical.choice, Quot.sound, propext |
| C89 | Sink.C89_whole_numbers | Classical.choice, Quot.sound, propext |
| C89 | Sink.C89_allowed | Classical.choice, Quot.sound, propext |
| C89 | Sink.C89_zeros | Classical.choice, Quot.sound, propext |
| C89 | Sink.C89_private | Quot.sound, propext |
| C90 | Sink.C90_split | Classical.choice, Quot.sound, propext |
| C90 | Sink.C90_tcp | Classical.choice, Quot.sound, propext |
| C90 | Sink.C90_ipv4 | Classical.choice, Quot.sound, propext |
| C90 | Sink.C90_block | Classical.choice, Quot.sound, propext |
| C91 | Sink.C91_counted | Classical.choice, Quot.sound, propext |
| C91 | Sink.C91_partial | Classical.choice, Quot.sound, propext |
| C91 | Sink.C91_not_always | Quot.sound, propext |
| C92 | Sink.C92_complete | Quot.sound, propext |
| C92 | Sink.C92_kept | Classical.choice, Quot.sound, propext |
| C92 | Sink.C92_passed | Classical.choice, Quot.sound, propext |
| C92 | Sink.C92_refused | Classical.choice, Quot.sound, propext |
| C92 | Sink.C92_putoff | Classical.choice, Quot.sound, propext |
| C92 | Sink.C92_stalled | Classical.choice, Quot.sound, propext |
| C92 | Sink.C92_broken | Classical.choice, Quot.sound, propext |
| C92 | Sink.C92_closed | Classical.choice, Quot.sound, propext |
| C92 | Sink.C92_options | Classical.choice, Quot.sound, propext |
| C92 | Sink.C92_std | Classical.choice, Quot.sound, propext |
| C92 | Sink.C92_other_name | Quot.sound, propext |
| C93 | Sink.C93_origin | Classical.choice, Quot.sound, propext |
| C93 | Sink.C93_passed | Classical.choice, Quot.sound, propext |
| C93 | Sink.C93_welcome | Classical.choice, Quot.sound, propext |
| C93 | Sink.C93_unchanged | Classical.choice, Quot.sound, propext |
| C93 | Sink.C93_read | Classical.choice, Quot.sound, propext |
| C94 | Sink.C94_slow | Classical.choice, Quot.sound, propext |
| C94 | Sink.C94_logged | Classical.choice, Quot.sound, propext |
| C94 | Sink.C94_name | Classical.choice, Quot.sound, propext |
| C94 | Sink.C94_tls | Classical.choice, Quot.sound, propext |
| C95 | Sink.C95_messages | Quot.sound, propext |
| C95 | Sink.C95_reached | Quot.sound, propext |
| C95 | Sink.C95_reached_once | Quot.sound, propext |
| C95 | Sink.C95_start | Quot.sound, propext |
| C96 | Sink.C96_reads | Classical.choice, Quot.sound, propext |
| C96 | Sink.C96_settings | Classical.choice, Quot.sound, propext |
| C96 | Sink.C96_M | Classical.choice, Quot.sound, propext |
| C96 | Sink.C96_no_directory | Classical.choice, Quot.sound, propext |
| C96 | Sink.C96_S | Classical.choice, Quot.sound, propext |
| C96 | Sink.C96_stat | Classical.choice, Quot.sound, propext |
| C96 | Sink.C96_same | Classical.choice, Quot.sound, propext |
| C97 | Sink.C97_answers | Classical.choice, Quot.sound, propext |
| C97 | Sink.C97_addresses | propext |
| C98 | Sink.C98_message | Classical.choice, Quot.sound, propext |
| C98 | Sink.C98_recipient | Classical.choice, Quot.sound, propext |
| C98 | Sink.C98_sender | Classical.choice, Quot.sound, propext |
| C98 | Sink.C98_greeting | Classical.choice, Quot.sound, propext |
| C99 | Sink.C99_distinct | Quot.sound, propext |
| C99 | Sink.C99_apart | Quot.sound, propext |
| C99 | Sink.C99_numbers | Classical.choice, Quot.sound, propext |
| C99 | Sink.C99_own | Quot.sound, propext |
| C100 | Sink.C100_last | Classical.choice, Quot.sound, propext |
| C100 | Sink.C100_sessions | Classical.choice, Quot.sound, propext |
| C100 | Sink.C100_connections | Classical.choice, Quot.sound, propext |
| C100 | Sink.C100_launch | Classical.choice, Quot.sound, propext |
| C101 | Sink.C101_accept | Classical.choice, Quot.sound, propext |
| C101 | Sink.C101_accept_helo | Classical.choice, Quot.sound, propext |
| C101 | Sink.C101_liar | Classical.choice, Quot.sound, propext |
| C101 | Sink.C101_dnsbl | Classical.choice, Quot.sound, propext |
| C101 | Sink.C101_data | Classical.choice, Quot.sound, propext |
| C101 | Sink.C101_not | Classical.choice, Quot.sound, propext |
| C101 | Sink.C101_message | Classical.choice, Quot.sound, propext |
| C101 | Sink.C101_set | Classical.choice, Quot.sound, propext |
| C101 | Sink.C101_set_compact | Classical.choice, Quot.sound, propext |
| C102 | Sink.C102_start | Classical.choice, Quot.sound, propext |
| C102 | Sink.C102_rules | Classical.choice, Quot.sound, propext |
| C102 | Sink.C102_plain | Classical.choice, Quot.sound, propext |
| C102 | Sink.C102_ends | Classical.choice, Quot.sound, propext |
| C102 | Sink.C102_careless | Quot.sound, propext |
| C103 | Sink.C103_refused | Classical.choice, Quot.sound, propext |
| C103 | Sink.C103_shut | Classical.choice, Quot.sound, propext |
| C103 | Sink.C103_escape | Quot.sound, propext |
| C104 | Sink.C104_result | Quot.sound, propext |
| C104 | Sink.C104_kept | Classical.choice, Quot.sound, propext |
| C104 | Sink.C104_started | Classical.choice, Quot.sound, propext |
| C104 | Sink.C104_refused | Classical.choice, Quot.sound, propext |
| C104 | Sink.C104_testfile_lost | Quot.sound, propext |
| C105 | Sink.C105_one_meaning | Classical.choice, Quot.sound, propext |
| C105 | Sink.C105_allowed | Classical.choice, Quot.sound, propext |
| C105 | Sink.C105_rule | Classical.choice, Quot.sound, propext |
| C105 | Sink.C105_block | Classical.choice, Quot.sound, propext |
| C105 | Sink.C105_link_local | Classical.choice, Quot.sound, propext |
| C105 | Sink.C105_addresses | Classical.choice, Quot.sound, propext |
| C105 | Sink.C105_blocks | Classical.choice, Quot.sound, propext |
| C105 | Sink.C105_means | Classical.choice, Quot.sound, propext |
| C105 | Sink.C105_text | Classical.choice, Quot.sound, propext |
| C105 | Sink.C105_tcp | Classical.choice, Quot.sound, propext |
| C105 | Sink.C105_client | Classical.choice, Quot.sound, propext |
| C105 | Sink.C105_zone | Classical.choice, Quot.sound, propext |
| C106 | Sink.C106_forms | Classical.choice, Quot.sound, propext |
| C106 | Sink.C106_whose | Classical.choice, Quot.sound, propext |
| C106 | Sink.C106_other_spelling | Classical.choice, Quot.sound, propext |
| C106 | Sink.C106_rfc | Classical.choice, Quot.sound, propext |
| C106 | Sink.C106_zone | Classical.choice, Quot.sound, propext |
| C106 | Sink.C106_zone_names | Classical.choice, Quot.sound, propext |
| C106 | Sink.C106_dotted | Classical.choice, Quot.sound, propext |
| C106 | Sink.C106_private | Quot.sound, propext |
| C106 | Sink.C106_written | Classical.choice, Quot.sound, propext |
| C107 | Sink.C107_complaint | Classical.choice, Quot.sound, propext |
| C107 | Sink.C107_or | Classical.choice, Quot.sound, propext |
| C108 | Sink.C108_local | Classical.choice, Quot.sound, propext |
| C108 | Sink.C108_port | Classical.choice, Quot.sound, propext |
| C108 | Sink.C108_spelling | Classical.choice, Quot.sound, propext |
| C108 | Sink.C108_nonsense | Classical.choice, Quot.sound, propext |
| C108 | Sink.C108_settings | Classical.choice, Quot.sound, propext |
| C108 | Sink.C108_zone | Classical.choice, Quot.sound, propext |
| C108 | Sink.C108_determined | Classical.choice, Quot.sound, propext |
| C108 | Sink.C108_other_spelling | Classical.choice, Quot.sound, propext |
| C109 | Sink.C109_answers | Classical.choice, Quot.sound, propext |
| C109 | Sink.C109_connect | Classical.choice, Quot.sound, propext |
| C109 | Sink.C109_recipient | Classical.choice, Quot.sound, propext |
| C109 | Sink.C109_message | Classical.choice, Quot.sound, propext |
| C109 | Sink.C109_open | Classical.choice, Quot.sound, propext |
| C109 | Sink.C109_changing | Classical.choice, Quot.sound, propext |
| C109 | Sink.C109_program | Classical.choice, Quot.sound, propext |
| C110 | Sink.C110_count | Classical.choice, Quot.sound, propext |
| C110 | Sink.C110_duration | Classical.choice, Quot.sound, propext |
| C110 | Sink.C110_allows | Classical.choice, Quot.sound, propext |
| C110 | Sink.C110_server | Classical.choice, Quot.sound, propext |
| C110 | Sink.C110_unit | Quot.sound, propext |
| C110 | Sink.C110_usual | Classical.choice, Quot.sound, propext |
| C111 | Sink.C111_listed | Classical.choice, Quot.sound, propext |
| C111 | Sink.C111_unlisted | Classical.choice, Quot.sound, propext |
| C111 | Sink.C111_name | propext |
| C111 | Sink.C111_ipv4 | Quot.sound, propext |
| C111 | Sink.C111_v6 | Quot.sound, propext |
| C111 | Sink.C111_log | Classical.choice, Quot.sound, propext |
| C112 | Sink.C112_connect | Classical.choice, Quot.sound, propext |
| C112 | Sink.C112_answers | Classical.choice, Quot.sound, propext |
| C113 | Sink.C113_joined | Classical.choice, Quot.sound, propext |
| C113 | Sink.C113_files | Classical.choice, Quot.sound, propext |
| C113 | Sink.C113_conditions_needed | Quot.sound, propext |
| C114 | Sink.C114_connect | Classical.choice, Quot.sound, propext |
| C114 | Sink.C114_answers | Classical.choice, Quot.sound, propext |
| C115 | Sink.C115_still | Classical.choice, Quot.sound, propext |
| C115 | Sink.C115_transfer | Classical.choice, Quot.sound, propext |
| C115 | Sink.C115_message | Classical.choice, Quot.sound, propext |
| C115 | Sink.C115_options | Classical.choice, Quot.sound, propext |
| C115 | Sink.C115_passed | Classical.choice, Quot.sound, propext |
| C116 | Sink.C116_form | Quot.sound, propext |
| C116 | Sink.C116_unique | Quot.sound, propext |
| C116 | Sink.C116_number | Quot.sound, propext |
| C116 | Sink.C116_any_order | Quot.sound, propext |
| C117 | Sink.C117_inlined | Classical.choice, Quot.sound, propext |
| C117 | Sink.C117_included | Classical.choice, Quot.sound, propext |
| C117 | Sink.C117_files | Classical.choice, Quot.sound, propext |
| C117 | Sink.C117_conditions_needed | Quot.sound, propext |
| C118 | Sink.C118_files | Classical.choice, Quot.sound, propext |
| C118 | Sink.C118_mx | Classical.choice, Quot.sound, propext |
| C118 | Sink.C118_names | Classical.choice, Quot.sound, propext |
| C118 | Sink.C118_again | Quot.sound, propext |
| C119 | Sink.C119_made_once | Classical.choice, Quot.sound, propext |
| C119 | Sink.C119_made_for | Classical.choice, Quot.sound, propext |
| C119 | Sink.C119_full | Classical.choice, Quot.sound, propext |
| C119 | Sink.C119_msg | Classical.choice, Quot.sound, propext |
| C120 | Sink.C120_records | Classical.choice, Quot.sound, propext |
| C120 | Sink.C120_files | Classical.choice, Quot.sound, propext |
| C120 | Sink.C120_only | Classical.choice, Quot.sound, propext |
| C120 | Sink.C120_copies | Classical.choice, Quot.sound, propext |
| C120 | Sink.C120_kept | Classical.choice, Quot.sound, propext |
| C120 | Sink.C120_same_second | Quot.sound, propext |
| C121 | Sink.C121_log | Classical.choice, Quot.sound, propext |
| C121 | Sink.C121_recover | Classical.choice, Quot.sound, propext |
| C122 | Sink.C122_data | Classical.choice, Quot.sound, propext |
| C122 | Sink.C122_or | Classical.choice, Quot.sound, propext |
| C122 | Sink.C122_two | Classical.choice, Quot.sound, propext |
| C122 | Sink.C122_difference | Classical.choice, Quot.sound, propext |
| C123 | Sink.C123_options | Classical.choice, Quot.sound, propext |
| C123 | Sink.C123_printed | Classical.choice, Quot.sound, propext |
| C124 | Sink.C124_section | Classical.choice, Quot.sound, propext |
| C124 | Sink.C124_same_sections | Classical.choice, Quot.sound, propext |
| C124 | Sink.C124_sorted | Classical.choice, Quot.sound, propext |
| C124 | Sink.C124_sorted_connect | Classical.choice, Quot.sound, propext |
| C124 | Sink.C124_server | Classical.choice, Quot.sound, propext |
