{
"Verif.C32_counterexample_quote": [
"Classical.choice",
"Quot.sound",
"propext"
],
"Verif.C32_counterexample_underscore": [
"Classical.choice",
"Quot.sound",
"propext"
],
"Verif.C32_injective": [
"Classical.choice",
"Quot.sound",
"propext"
],
"Verif.C32_plain_roundtrip": [
"Classical.choice",
"Quot.sound",
"propext"
],
"Verif.C32_roundtrip": [
"Classical.choice",
"Quot.sound",
"propext"
],
"Verif.C33_accepts_exactly_documented": [
"Classical.choice",
"Quot.sound",
"propext"
],
"Verif.Props.C01_found_is_true": [
"Classical.choice",
"Quot.sound",
"propext"
],
"Verif.Props.C01_found_subtree_is_true": [
"Classical.choice",
"Quot.sound",
"propext"
],
"Verif.Props.C02_absent_path_is_true": [
"Classical.choice",
"Quot.sound",
"propext"
],
"Verif.Props.C02_absent_subtree_is_true": [
"Classical.choice",
"Quot.sound",
"propext"
],
"Verif.Props.C02_needs_wellformed": [
"Classical.choice",
"Quot.sound",
"propext"
],
"Verif.Props.C02_no_contradiction": [
"Classical.choice",
"Quot.sound",
"propext"
],
"Verif.Props.C03_digest_binds": [
"Classical.choice",
"Quot.sound",
"propext"
],
"Verif.Props.C03_digest_injective": [
"Classical.choice",
"Quot.sound",
"propext"
],
"Verif.Props.C03_prune_keeps_digest": [
"Classical.choice",
"Quot.sound",
"propext"
],
"Verif.Props.C04_exact_on_full": [
"Classical.choice",
"Quot.sound",
"propext"
],
"Verif.Props.C04_found_iff": [
"propext"
],
"Verif.Props.C04_other_verdicts": [
"Quot.sound",
"propext"
],
"Verif.Props.C05_list_paths": [
"Quot.sound",
"propext"
],
"Verif.Props.C05_list_paths_wf": [
"Classical.choice",
"Quot.sound",
"propext"
],
"Verif.Props.C06_map": [
"Classical.choice",
"Quot.sound",
"propext"
],
"Verif.Props.C07_no_panic_balanced": [
"Classical.choice",
"Quot.sound",
"propext"
],
"Verif.Props.C08_full_tree_content": [
"Classical.choice",
"Quot.sound",
"propext"
],
"Verif.Props.C08_root_hash": [
"Classical.choice",
"Quot.sound",
"propext"
],
"Verif.Props.C09_any_range_digest": [
"Classical.choice",
"Quot.sound",
"propext"
],
"Verif.Props.C09_nested_witness": [
"Classical.choice",
"Quot.sound",
"propext"
],
"Verif.Props.C09_witness_digest": [
"Classical.choice",
"Quot.sound",
"propext"
],
"Verif.Props.C10_witness_decides": [
"Classical.choice",
"Quot.sound",
"propext"
],
"Verif.Props.C11_ranges_decide": [
"Classical.choice",
"Quot.sound",
"propext"
],
"Verif.Props.C12_eq_iff_same_content": [
"Classical.choice",
"Quot.sound",
"propext"
],
"Verif.Props.C12_iteration": [
"Classical.choice",
"Quot.sound",
"propext"
],
"Verif.Props.C13_delete": [
"Classical.choice",
"Quot.sound",
"propext"
],
"Verif.Props.C13_insert": [
"Classical.choice",
"Quot.sound",
"propext"
],
"Verif.Props.C13_path_map": [
"Classical.choice",
"Quot.sound",
"propext"
],
"Verif.Props.C14_empty_again": [
"Classical.choice",
"Quot.sound",
"propext"
],
"Verif.Props.C14_no_husk": [
"Classical.choice",
"Quot.sound",
"propext"
],
"Verif.Props.C15_full_tree_content": [
"Classical.choice",
"Quot.sound",
"propext"
],
"Verif.Props.C15_hashes": [
"Classical.choice",
"Quot.sound",
"propext"
],
"Verif.Props.C16_witness_decides": [
"Classical.choice",
"Quot.sound",
"propext"
],
"Verif.Props.C17_merge": [
"Classical.choice",
"Quot.sound",
"propext"
],
"Verif.Props.C17_merge_many": [
"Classical.choice",
"Quot.sound",
"propext"
],
"Verif.Props.C18_exact_inj": [
"Classical.choice",
"Quot.sound",
"propext"
],
"Verif.Props.C18_exact_ne_wildcard": [
"Classical.choice",
"Quot.sound",
"propext"
],
"Verif.Props.C18_expr_path": [
"Classical.choice",
"Quot.sound",
"propext"
],
"Verif.Props.C18_segments": [
"Quot.sound",
"propext"
],
"Verif.Props.C18_wildcard_inj": [
"Classical.choice",
"Quot.sound",
"propext"
],
"Verif.Props.C19_all_inputs": [
"Classical.choice",
"Quot.sound",
"propext"
],
"Verif.Props.C19_counterexample_prefix": [
"Classical.choice",
"Quot.sound",
"propext"
],
"Verif.Props.C19_counterexample_suffix": [
"Classical.choice",
"Quot.sound",
"propext"
],
"Verif.Props.C19_exact_tree_partial": [
"Classical.choice",
"Quot.sound",
"propext"
],
"Verif.Props.C19_exact_verifier_partial": [
"Classical.choice",
"Quot.sound",
"propext"
],
"Verif.Props.C19_no_match_lists_all": [
"Classical.choice",
"Quot.sound",
"propext"
],
"Verif.Props.C19_terminates": [
"Classical.choice",
"Quot.sound",
"propext"
],
"Verif.Props.C20_api_no_clash": [
"Classical.choice",
"Quot.sound",
"propext"
],
"Verif.Props.C20_clash": [
"Classical.choice",
"Quot.sound",
"propext"
],
"Verif.Props.C20_entries": [
"Classical.choice",
"Quot.sound",
"propext"
],
"Verif.Props.C20_entries_api": [
"Classical.choice",
"Quot.sound",
"propext"
],
"Verif.Props.C20_imitation": [
"Classical.choice",
"Quot.sound",
"propext"
],
"Verif.Props.C21_all_inputs": [
"Classical.choice",
"Quot.sound",
"propext"
],
"Verif.Props.C21_exact_witness": [
"Classical.choice",
"Quot.sound",
"propext"
],
"Verif.Props.C21_wildcard_error": [
"Classical.choice",
"Quot.sound",
"propext"
],
"Verif.Props.C21_wildcard_settles_url_partial": [
"Classical.choice",
"Quot.sound",
"propext"
],
"Verif.Props.C21_wildcard_witness": [
"Classical.choice",
"Quot.sound",
"propext"
],
"Verif.Props.C22_complete_partial": [
"Classical.choice",
"Quot.sound",
"propext"
],
"Verif.Props.C22_counterexample_between": [
"Classical.choice",
"Quot.sound",
"propext"
],
"Verif.Props.C22_counterexample_first": [
"Classical.choice",
"Quot.sound",
"propext"
],
"Verif.Props.C22_counterexample_last": [
"Classical.choice",
"Quot.sound",
"propext"
],
"Verif.Props.C22_exact": [
"Classical.choice",
"Quot.sound",
"propext"
],
"Verif.Props.C23_end_to_end": [
"Classical.choice",
"Quot.sound",
"propext"
],
"Verif.Props.C23_sound": [
"Classical.choice",
"Quot.sound",
"propext"
],
"Verif.Props.C24_all_inputs": [
"Classical.choice",
"Quot.sound",
"propext"
],
"Verif.Props.C24_api_tree": [
"Classical.choice",
"Quot.sound",
"propext"
],
"Verif.Props.C24_best_path_partial": [
"Classical.choice",
"Quot.sound",
"propext"
],
"Verif.Props.C24_counterexample": [
"Classical.choice",
"Quot.sound",
"propext"
],
"Verif.Props.C25_returned": [
"Classical.choice",
"Quot.sound",
"propext"
],
"Verif.Props.C26_missing": [
"Classical.choice",
"Quot.sound",
"propext"
],
"Verif.Props.C26_rejects": [
"Classical.choice",
"Quot.sound",
"propext"
],
"Verif.Props.C26_text": [
"Classical.choice",
"Quot.sound",
"propext"
],
"Verif.Props.C26_version": [
"Classical.choice",
"Quot.sound",
"propext"
],
"Verif.Props.C27_counterexample_hidden": [
"Classical.choice",
"Quot.sound",
"propext"
],
"Verif.Props.C27_end_to_end": [
"Classical.choice",
"Quot.sound",
"propext"
],
"Verif.Props.C27_only_skip": [
"Classical.choice",
"Quot.sound",
"propext"
],
"Verif.Props.C27_skip": [
"Classical.choice",
"Quot.sound",
"propext"
],
"Verif.Props.C28_accepts": [
"Classical.choice",
"Quot.sound",
"propext"
],
"Verif.Props.C28_counterexample_index": [
"Classical.choice",
"Quot.sound",
"propext"
],
"Verif.Props.C28_decompress": [
"propext"
],
"Verif.Props.C28_decompress_error": [
"propext"
],
"Verif.Props.C28_sound": [
"Classical.choice",
"Quot.sound",
"propext"
],
"Verif.Props.C29_binding": [
"Classical.choice",
"Quot.sound",
"propext"
],
"Verif.Props.C29_error": [
"Classical.choice",
"Quot.sound",
"propext"
],
"Verif.Props.C29_header_order": [
"Classical.choice",
"Quot.sound",
"propext"
],
"Verif.Props.C29_ignores_uncertified": [
"Classical.choice",
"Quot.sound",
"propext"
],
"Verif.Props.C29_pseudo_clash": [
"Classical.choice",
"Quot.sound",
"propext"
],
"Verif.Props.C29_query_binding": [
"Quot.sound",
"propext"
],
"Verif.Props.C30_binding": [
"Classical.choice",
"Quot.sound",
"propext"
],
"Verif.Props.C30_body_hash_override": [
"Classical.choice",
"Quot.sound",
"propext"
],
"Verif.Props.C30_drop_uncertified": [
"Classical.choice",
"Quot.sound",
"propext"
],
"Verif.Props.C30_ignores_uncertified": [
"Classical.choice",
"Quot.sound",
"propext"
],
"Verif.Props.C31_binding": [
"Classical.choice",
"Quot.sound",
"propext"
],
"Verif.Props.C31_numbers": [
"Classical.choice",
"Quot.sound",
"propext"
],
"Verif.Props.C31_perm": [
"Classical.choice",
"Quot.sound",
"propext"
],
"Verif.Props.C31_same": [
"Quot.sound",
"propext"
],
"Verif.Props.C31_strings": [
"propext"
],
"Verif.Props.C34_added": [
"Classical.choice",
"Quot.sound",
"propext"
],
"Verif.Props.C34_first_field_wins": [
"Classical.choice",
"Quot.sound",
"propext"
],
"Verif.Props.C34_last_wins": [
"Classical.choice",
"Quot.sound",
"propext"
],
"Verif.Props.C34_roundtrip": [
"Classical.choice",
"Quot.sound",
"propext"
],
"Verif.Props.C34_version_decimal": [],
"Verif.Props.C34_version_iff": [
"Quot.sound",
"propext"
],
"Verif.Props.C35_alphabet": [
"Classical.choice",
"Quot.sound",
"propext"
],
"Verif.Props.C35_decodes": [
"Classical.choice",
"Quot.sound",
"propext"
],
"Verif.Props.C35_encodes": [
"Classical.choice",
"Quot.sound",
"propext"
],
"Verif.Props.C35_injective": [
"Classical.choice",
"Quot.sound",
"propext"
],
"Verif.Props.C35_roundtrip": [
"Classical.choice",
"Quot.sound",
"propext"
],
"Verif.Props.C35_unambiguous": [
"Classical.choice",
"Quot.sound",
"propext"
],
"Verif.Props.C36_tree_injective": [
"Classical.choice",
"Quot.sound",
"propext"
],
"Verif.Props.C36_tree_roundtrip": [
"Classical.choice",
"Quot.sound",
"propext"
],
"Verif.Props.C37_certificate_roundtrip": [
"Classical.choice",
"Quot.sound",
"propext"
],
"Verif.Props.C37_ranges_roundtrip": [
"Classical.choice",
"Quot.sound",
"propext"
],
"Verif.Props.C37_strings_roundtrip": [
"Classical.choice",
"Quot.sound",
"propext"
],
"Verif.Props.C38_consumes": [
"Classical.choice",
"Quot.sound",
"propext"
],
"Verif.Props.C38_counterexample_map": [
"Classical.choice",
"Quot.sound",
"propext"
],
"Verif.Props.C38_counterexample_principal": [
"Classical.choice",
"Quot.sound",
"propext"
],
"Verif.Props.C38_counterexample_stack": [
"Classical.choice",
"Quot.sound",
"propext"
],
"Verif.Props.C38_counterexample_truncated": [
"Classical.choice",
"Quot.sound",
"propext"
],
"Verif.Props.C38_documents_partial": [
"Classical.choice",
"Quot.sound",
"propext"
],
"Verif.Props.C38_ranges_exact": [
"Classical.choice",
"Quot.sound",
"propext"
],
"Verif.Props.C38_total_partial": [
"Classical.choice",
"Quot.sound",
"propext"
],
"Verif.Props.C38_trailing_rejected": [
"Classical.choice",
"Quot.sound",
"propext"
],
"Verif.Props.C38_trees_trailing": [
"Classical.choice",
"Quot.sound",
"propext"
],
"Verif.Props.C39_accepted_in_window": [
"Classical.choice",
"Quot.sound",
"propext"
],
"Verif.Props.C39_all_inputs": [
"Classical.choice",
"Quot.sound",
"propext"
],
"Verif.Props.C39_counterexample_underflow": [
"Classical.choice",
"Quot.sound",
"propext"
],
"Verif.Props.C39_outcomes": [
"Classical.choice",
"Quot.sound",
"propext"
],
"Verif.Props.C39_time_roundtrip": [
"Classical.choice",
"Quot.sound",
"propext"
],
"Verif.Props.C39_window_exact_partial": [
"Classical.choice",
"Quot.sound",
"propext"
],
"Verif.Props.C40_accepts": [
"Classical.choice",
"Quot.sound",
"propext"
],
"Verif.Props.C40_chain": [
"Classical.choice",
"Quot.sound",
"propext"
],
"Verif.Props.C41_delegation": [
"Classical.choice",
"Quot.sound",
"propext"
],
"Verif.Props.C41_order": [
"Classical.choice",
"Quot.sound",
"propext"
],
"Verif.Props.C41_ranges": [
"Classical.choice",
"Quot.sound",
"propext"
],
"Verif.Props.C42_cache_transparent": [
"Classical.choice",
"Quot.sound",
"propext"
],
"Verif.Props.C42_request_lengths": [
"Classical.choice",
"Quot.sound",
"propext"
],
"Verif.Props.C43_der": [
"Classical.choice",
"Quot.sound",
"propext"
],
"Verif.Props.C43_errors": [
"Classical.choice",
"Quot.sound",
"propext"
],
"Verif.Props.C43_extract_der": [
"Classical.choice",
"Quot.sound",
"propext"
],
"Verif.Props.C44_errors": [
"Classical.choice",
"Quot.sound",
"propext"
],
"Verif.Props.C44_full": [
"Classical.choice",
"Quot.sound",
"propext"
],
"Verif.Props.C44_response_only": [
"Classical.choice",
"Quot.sound",
"propext"
],
"Verif.Props.C45_certify": [
"Classical.choice",
"Quot.sound",
"propext"
],
"Verif.Props.C45_certify_succeeds": [
"Classical.choice",
"Quot.sound",
"propext"
],
"Verif.Props.C45_certify_tree": [
"Classical.choice",
"Quot.sound",
"propext"
],
"Verif.Props.C45_files": [
"Classical.choice",
"Quot.sound",
"propext"
],
"Verif.Props.C45_frame": [
"Classical.choice",
"Quot.sound",
"propext"
],
"Verif.Props.C45_held": [
"Classical.choice",
"Quot.sound",
"propext"
],
"Verif.Props.C45_place": [
"Classical.choice",
"Quot.sound",
"propext"
],
"Verif.Props.C45_place_fallback": [
"Classical.choice",
"Quot.sound",
"propext"
],
"Verif.Props.C45_serve": [
"Classical.choice",
"Quot.sound",
"propext"
],
"Verif.Props.C45_serve_errors": [
"Classical.choice",
"Quot.sound",
"propext"
],
"Verif.Props.C45_stays": [
"Classical.choice",
"Quot.sound",
"propext"
],
"Verif.Props.C45_total": [
"Classical.choice",
"Quot.sound",
"propext"
],
"Verif.Props.C46_ask": [
"Classical.choice",
"Quot.sound",
"propext"
],
"Verif.Props.C46_bounded": [
"Classical.choice",
"Quot.sound",
"propext"
],
"Verif.Props.C46_chunk": [
"Classical.choice",
"Quot.sound",
"propext"
],
"Verif.Props.C46_decimal": [
"Classical.choice",
"Quot.sound",
"propext"
],
"Verif.Props.C46_misaligned": [
"Classical.choice",
"Quot.sound",
"propext"
],
"Verif.Props.C46_partition": [
"Classical.choice",
"Quot.sound",
"propext"
],
"Verif.Props.C46_reassemble": [
"Classical.choice",
"Quot.sound",
"propext"
],
"Verif.Props.C46_serve": [
"Classical.choice",
"Quot.sound",
"propext"
],
"Verif.Props.C47_counterexample_chunks": [
"Classical.choice",
"Quot.sound",
"propext"
],
"Verif.Props.C47_delete": [
"Classical.choice",
"Quot.sound",
"propext"
],
"Verif.Props.C47_delete_all": [
"Classical.choice",
"Quot.sound",
"propext"
],
"Verif.Props.C47_delete_tree_partial": [
"Classical.choice",
"Quot.sound",
"propext"
],
"Verif.Props.C47_not_served": [
"Classical.choice",
"Quot.sound",
"propext"
],
"Verif.Props.C47_undo": [
"Classical.choice",
"Quot.sound",
"propext"
],
"Verif.Props.C48_default": [
"Classical.choice",
"Quot.sound",
"propext"
],
"Verif.Props.C48_negotiate": [
"Classical.choice",
"Quot.sound",
"propext"
],
"Verif.Props.C48_refused": [
"Classical.choice",
"Quot.sound",
"propext"
],
"Verif.Props.C48_sort": [
"Classical.choice",
"Quot.sound",
"propext"
],
"Verif.Props.C48_unlisted": [
"Classical.choice",
"Quot.sound",
"propext"
],
"Verif.Props.C49_certify": [
"Classical.choice",
"Quot.sound",
"propext"
],
"Verif.Props.C49_counterexample_first": [
"Classical.choice",
"Quot.sound",
"propext"
],
"Verif.Props.C49_counterexample_last": [
"Classical.choice",
"Quot.sound",
"propext"
],
"Verif.Props.C49_counterexample_query": [
"Classical.choice",
"Quot.sound",
"propext"
],
"Verif.Props.C49_counterexample_scope": [
"Classical.choice",
"Quot.sound",
"propext"
],
"Verif.Props.C49_counterexample_slashes": [
"Classical.choice",
"Quot.sound",
"propext"
],
"Verif.Props.C49_delete": [
"Classical.choice",
"Quot.sound",
"propext"
],
"Verif.Props.C49_delete_all": [
"Classical.choice",
"Quot.sound",
"propext"
],
"Verif.Props.C49_found": [
"Classical.choice",
"Quot.sound",
"propext"
],
"Verif.Props.C49_in_step": [
"Classical.choice",
"Quot.sound",
"propext"
],
"Verif.Props.C49_start": [
"Classical.choice",
"Quot.sound",
"propext"
],
"Verif.Props.C49_verifies_partial": [
"Classical.choice",
"Quot.sound",
"propext"
],
"Verif.Props.C50_only_announced": [
"Classical.choice",
"Quot.sound",
"propext"
],
"Verif.Props.C51_accepts": [
"Classical.choice",
"Quot.sound",
"propext"
],
"Verif.Props.C51_data": [
"Classical.choice",
"Quot.sound",
"propext"
],
"Verif.Props.C51_only_skip": [
"Classical.choice",
"Quot.sound",
"propext"
],
"Verif.Props.C52_old_content": [
"Classical.choice",
"Quot.sound",
"propext"
],
"Verif.Props.C52_only_delete": [
"Classical.choice",
"Quot.sound",
"propext"
],
"Verif.Props.C52_persists": [
"Classical.choice",
"Quot.sound",
"propext"
],
"Verif.Props.C52_replay": [
"Classical.choice",
"Quot.sound",
"propext"
],
"Verif.Props.C53_certify_again": [
"Classical.choice",
"Quot.sound",
"propext"
],
"Verif.Props.C53_counterexample_order": [
"Classical.choice",
"Quot.sound",
"propext"
],
"Verif.Props.C53_http_root_binds": [
"Classical.choice",
"Quot.sound",
"propext"
],
"Verif.Props.C53_http_unchanged": [
"Classical.choice",
"Quot.sound",
"propext"
],
"Verif.Props.C53_nested_root_binds": [
"Classical.choice",
"Quot.sound",
"propext"
],
"Verif.Props.C53_nested_unchanged": [
"Classical.choice",
"Quot.sound",
"propext"
],
"Verif.Props.C53_root_binds": [
"Classical.choice",
"Quot.sound",
"propext"
],
"Verif.Props.C53_unchanged": [
"Classical.choice",
"Quot.sound",
"propext"
],
"Verif.Props.C54_cbor": [
"Classical.choice",
"Quot.sound",
"propext"
],
"Verif.Props.C54_certificate": [
"Classical.choice",
"Quot.sound",
"propext"
],
"Verif.Props.C54_counterexample_extra": [
"propext"
],
"Verif.Props.C54_counterexample_label": [
"Quot.sound",
"propext"
],
"Verif.Props.C54_counterexample_pruned": [
"propext"
],
"Verif.Props.C54_delegation": [
"Classical.choice",
"Quot.sound",
"propext"
],
"Verif.Props.C54_ic_cbor_follows": [
"Classical.choice",
"Quot.sound",
"propext"
],
"Verif.Props.C54_owned_without_pruned": [
"Quot.sound",
"propext"
],
"Verif.Props.C54_readers_agree": [
"Classical.choice",
"Quot.sound",
"propext"
],
"Verif.Props.C54_roundtrip": [
"Classical.choice",
"Quot.sound",
"propext"
],
"Verif.Props.C54_tree": [
"Quot.sound",
"propext"
],
"Verif.Props.C55_absent": [
"Classical.choice",
"Quot.sound",
"propext"
],
"Verif.Props.C55_http": [
"Classical.choice",
"Quot.sound",
"propext"
],
"Verif.Props.C55_nested": [
"Classical.choice",
"Quot.sound",
"propext"
],
"Verif.Props.C55_nested_values": [
"Classical.choice",
"Quot.sound",
"propext"
],
"Verif.Props.C55_present": [
"Classical.choice",
"Quot.sound",
"propext"
],
"Verif.Props.C55_ranges": [
"Classical.choice",
"Quot.sound",
"propext"
],
"Verif.Props.C55_small": [
"Classical.choice",
"Quot.sound",
"propext"
],
"Verif.Props.C56_builds": [
"Classical.choice",
"Quot.sound",
"propext"
],
"Verif.Props.C56_custom": [
"Classical.choice",
"Quot.sound",
"propext"
],
"Verif.Props.C56_js": [
"Classical.choice",
"Quot.sound",
"propext"
],
"Verif.Props.C56_js_clock": [
"Classical.choice",
"Quot.sound",
"propext"
],
"Verif.Props.C56_nested": [
"Classical.choice",
"Quot.sound",
"propext"
],
"Verif.Props.C56_numbers": [
"Classical.choice",
"Quot.sound",
"propext"
],
"Verif.Props.C56_verifies": [
"Classical.choice",
"Quot.sound",
"propext"
],
"Verif.Props.C57_cel": [
"Quot.sound",
"propext"
],
"Verif.Props.C57_eq": [
"Classical.choice",
"Quot.sound",
"propext"
],
"Verif.Props.C57_eq_certification": [
"Classical.choice",
"Quot.sound",
"propext"
],
"Verif.Props.C57_eq_equiv": [
"Classical.choice",
"Quot.sound",
"propext"
],
"Verif.Props.C57_rebuild": [
"Quot.sound",
"propext"
],
"Verif.Props.C57_request": [
"Classical.choice",
"Quot.sound",
"propext"
],
"Verif.Props.C57_response": [
"Quot.sound",
"propext"
],
"Verif.Props.C57_status": [
"propext"
],
"Verif.Props.C57_update": [
"Classical.choice",
"Quot.sound",
"propext"
],
"Verif.Props.C58_accepts_iff": [
"Classical.choice",
"Quot.sound",
"propext"
],
"Verif.Props.C58_data": [
"Classical.choice",
"Quot.sound",
"propext"
],
"Verif.Props.C58_lookups_agree": [
"Classical.choice",
"Quot.sound",
"propext"
],
"Verif.Props.C58_time": [
"Quot.sound",
"propext"
],
"Verif.Props.C59_only": [
"Classical.choice",
"Quot.sound",
"propext"
],
"Verif.Props.C59_shows": [
"Classical.choice",
"Quot.sound",
"propext"
],
"Verif.Props.C60_answered": [
"Classical.choice",
"Quot.sound",
"propext"
],
"Verif.Props.C60_changes_announced": [
"Classical.choice",
"Quot.sound",
"propext"
],
"Verif.Props.C60_errors": [
"Classical.choice",
"Quot.sound",
"propext"
],
"Verif.Props.C60_ids": [
"Classical.choice",
"Quot.sound",
"propext"
],
"Verif.Props.C60_list": [
"Classical.choice",
"Quot.sound",
"propext"
],
"Verif.Props.C60_not_allowed": [
"Classical.choice",
"Quot.sound",
"propext"
],
"Verif.Props.C60_not_found": [
"Classical.choice",
"Quot.sound",
"propext"
],
"Verif.Props.C60_only": [
"Classical.choice",
"Quot.sound",
"propext"
],
"Verif.Props.C60_security": [
"Classical.choice",
"Quot.sound",
"propext"
],
"Verif.Props.C60_served": [
"Classical.choice",
"Quot.sound",
"propext"
],
"Verif.Props.C60_upgrade": [
"Classical.choice",
"Quot.sound",
"propext"
],
"Verif.Props.C61_agrees": [
"Classical.choice",
"Quot.sound",
"propext"
],
"Verif.Props.C61_any_objects": [
"Classical.choice",
"Quot.sound",
"propext"
],
"Verif.Props.C61_any_text": [
"Classical.choice",
"Quot.sound",
"propext"
],
"Verif.Props.C61_body_numbers": [
"Classical.choice",
"Quot.sound",
"propext"
],
"Verif.Props.C61_codes": [
"propext"
],
"Verif.Props.C61_reads_one": [
"Classical.choice",
"Quot.sound",
"propext"
],
"Verif.Props.C61_result_unique": [
"Classical.choice",
"Quot.sound",
"propext"
],
"Verif.Props.C61_status": [
"Classical.choice",
"Quot.sound",
"propext"
],
"Verif.Props.C61_text": [
"Classical.choice",
"Quot.sound",
"propext"
],
"Verif.Props.C62_certify": [
"Classical.choice",
"Quot.sound",
"propext"
],
"Verif.Props.C62_delete": [
"Classical.choice",
"Quot.sound",
"propext"
],
"Verif.Props.C62_delete_all": [
"Classical.choice",
"Quot.sound",
"propext"
],
"Verif.Props.C62_in_step": [
"Classical.choice",
"Quot.sound",
"propext"
],
"Verif.Props.C62_insert": [
"Classical.choice",
"Quot.sound",
"propext"
],
"Verif.Props.C62_kept": [
"Classical.choice",
"Quot.sound",
"propext"
],
"Verif.Props.C62_only": [
"Classical.choice",
"Quot.sound",
"propext"
],
"Verif.Props.C62_start": [
"Classical.choice",
"Quot.sound",
"propext"
],
"Verif.Props.C62_verifies": [
"Classical.choice",
"Quot.sound",
"propext"
],
"Verif.Props.C62_wiped": [
"Classical.choice",
"Quot.sound",
"propext"
],
"Verif.Props.C63_installs": [
"Classical.choice",
"Quot.sound",
"propext"
],
"Verif.Props.C63_metrics": [
"Classical.choice",
"Quot.sound",
"propext"
],
"Verif.Props.C63_only": [
"Classical.choice",
"Quot.sound",
"propext"
],
"Verif.Props.C63_run": [
"Classical.choice",
"Quot.sound",
"propext"
],
"Verif.Props.C63_security": [
"Classical.choice",
"Quot.sound",
"propext"
],
"Verif.Props.C63_shows": [
"Classical.choice",
"Quot.sound",
"propext"
],
"Verif.Props.C63_verifies": [
"Classical.choice",
"Quot.sound",
"propext"
],
"Verif.Props.C64_fixture": [
"Classical.choice",
"Quot.sound",
"propext"
],
"Verif.Props.C64_header": [
"Classical.choice",
"Quot.sound",
"propext"
],
"Verif.Props.C64_index": [
"Classical.choice",
"Quot.sound",
"propext"
],
"Verif.Props.C64_only": [
"Classical.choice",
"Quot.sound",
"propext"
],
"Verif.Props.C64_verifies": [
"Classical.choice",
"Quot.sound",
"propext"
],
"Verif.Props.C65_certificate_accepted": [
"Classical.choice",
"Quot.sound",
"propext"
],
"Verif.Props.C65_certificate_exact": [
"Classical.choice",
"Quot.sound",
"propext"
],
"Verif.Props.C65_certificate_read": [
"Classical.choice",
"Quot.sound",
"propext"
],
"Verif.Props.C65_describes": [
"Classical.choice",
"Quot.sound",
"propext"
],
"Verif.Props.C65_ranges_accepted": [
"Classical.choice",
"Quot.sound",
"propext"
],
"Verif.Props.C65_ranges_read": [
"Classical.choice",
"Quot.sound",
"propext"
],
"Verif.Props.C65_reads": [
"Classical.choice",
"Quot.sound",
"propext"
],
"Verif.Props.C65_strings": [
"Classical.choice",
"Quot.sound",
"propext"
],
"Verif.Props.C65_tree_accepted": [
"Classical.choice",
"Quot.sound",
"propext"
],
"Verif.Props.C65_tree_read": [
"Classical.choice",
"Quot.sound",
"propext"
],
"Verif.Props.C65_unambiguous": [
"Classical.choice",
"Quot.sound",
"propext"
],
"Verif.Props.C66_exact": [
"Classical.choice",
"Quot.sound",
"propext"
],
"Verif.Props.C66_get": [
"Classical.choice",
"Quot.sound",
"propext"
],
"Verif.Props.C66_iter": [
"Classical.choice",
"Quot.sound",
"propext"
],
"Verif.Props.C66_lookup": [
"Classical.choice",
"Quot.sound",
"propext"
],
"Verif.Props.C66_stale": [
"Classical.choice",
"Quot.sound",
"propext"
],
"Verif.Props.C67_installs": [
"Classical.choice",
"Quot.sound",
"propext"
],
"Verif.Props.C67_only": [
"Classical.choice",
"Quot.sound",
"propext"
],
"Verif.Props.C67_security": [
"Classical.choice",
"Quot.sound",
"propext"
],
"Verif.Props.C67_serves": [
"Classical.choice",
"Quot.sound",
"propext"
],
"Verif.Props.C67_uncertified": [
"Classical.choice",
"Quot.sound",
"propext"
],
"Verif.Props.C67_uncertified_headers": [
"Classical.choice",
"Quot.sound",
"propext"
],
"Verif.Props.C68_cmp": [
"Classical.choice",
"Quot.sound",
"propext"
],
"Verif.Props.C68_order": [
"Classical.choice",
"Quot.sound",
"propext"
],
"Verif.Props.C68_partial_cmp": [
"Classical.choice",
"Quot.sound",
"propext"
],
"Verif.Props.C69_decode_request": [
"Classical.choice",
"Quot.sound",
"propext"
],
"Verif.Props.C69_decode_response": [
"Classical.choice",
"Quot.sound",
"propext"
],
"Verif.Props.C69_decode_update": [
"Classical.choice",
"Quot.sound",
"propext"
],
"Verif.Props.C69_field_numbers": [
"Quot.sound",
"propext"
],
"Verif.Props.C69_method": [
"Classical.choice",
"Quot.sound",
"propext"
],
"Verif.Props.C69_request": [
"Classical.choice",
"Quot.sound",
"propext"
],
"Verif.Props.C69_response": [
"Classical.choice",
"Quot.sound",
"propext"
],
"Verif.Props.C70_motoko": [
"Classical.choice",
"Quot.sound",
"propext"
],
"Verif.Props.C70_skip": [
"Classical.choice",
"Quot.sound",
"propext"
],
"Verif.Props.C70_skip_only": [
"Classical.choice",
"Quot.sound",
"propext"
],
"Verif.Props.C70_upgrade": [
"Classical.choice",
"Quot.sound",
"propext"
],
"Verif.Props.C71_certificate": [
"Classical.choice",
"Quot.sound",
"propext"
],
"Verif.Props.C71_errors": [
"Classical.choice",
"Quot.sound",
"propext"
],
"Verif.Props.C72_aborts": [
"Classical.choice",
"Quot.sound",
"propext"
],
"Verif.Props.C72_certificate": [
"Classical.choice",
"Quot.sound",
"propext"
],
"Verif.Props.C72_expression": [
"Classical.choice",
"Quot.sound",
"propext"
],
"Verif.Props.C73_lifetime": [
"Classical.choice",
"Quot.sound",
"propext"
],
"Verif.Props.C73_minimum": [
"Classical.choice",
"Quot.sound",
"propext"
],
"Verif.Props.C73_nothing_else": [
"Classical.choice",
"Quot.sound",
"propext"
],
"Verif.Props.C73_time": [
"Classical.choice",
"Quot.sound",
"propext"
],
"Verif.Props.C74_bytes": [
"Classical.choice",
"Quot.sound",
"propext"
],
"Verif.Props.C74_exact": [
"Classical.choice",
"Quot.sound",
"propext"
],
"Verif.Props.C74_header": [
"Classical.choice",
"Quot.sound",
"propext"
],
"Verif.Props.C74_key_range": [
"Classical.choice",
"Quot.sound",
"propext"
],
"Verif.Props.C74_nested": [
"Classical.choice",
"Quot.sound",
"propext"
],
"Verif.Props.C74_prefix": [
"Classical.choice",
"Quot.sound",
"propext"
],
"Verif.Props.C74_value_range": [
"Classical.choice",
"Quot.sound",
"propext"
],
"Verif.Props.C74_wildcard": [
"Classical.choice",
"Quot.sound",
"propext"
],
"Verif.Props.C75_debug_ambiguous": [
"Classical.choice",
"Quot.sound",
"propext"
],
"Verif.Props.C75_debug_faithful": [
"Classical.choice",
"Quot.sound",
"propext"
],
"Verif.Props.C75_debug_text": [
"Classical.choice",
"Quot.sound",
"propext"
],
"Verif.Props.C75_hex_errors": [
"Classical.choice",
"Quot.sound",
"propext"
],
"Verif.Props.C75_hex_roundtrip": [
"Classical.choice",
"Quot.sound",
"propext"
],
"Verif.Props.C75_label_display": [
"Classical.choice",
"Quot.sound",
"propext"
],
"Verif.Props.C75_label_unambiguous": [
"Classical.choice",
"Quot.sound",
"propext"
],
"Verif.Props.C75_pruned_from_hex": [
"Classical.choice",
"Quot.sound",
"propext"
],
"Verif.Props.C76_bad_pattern": [
"Classical.choice",
"Quot.sound",
"propext"
],
"Verif.Props.C76_certified": [
"Classical.choice",
"Quot.sound",
"propext"
],
"Verif.Props.C76_certify": [
"Classical.choice",
"Quot.sound",
"propext"
],
"Verif.Props.C76_certify_in_step": [
"Classical.choice",
"Quot.sound",
"propext"
],
"Verif.Props.C76_counterexample_encodings": [
"Classical.choice",
"Quot.sound",
"propext"
],
"Verif.Props.C76_delete": [
"Classical.choice",
"Quot.sound",
"propext"
],
"Verif.Props.C76_delete_succeeds": [
"Classical.choice",
"Quot.sound",
"propext"
],
"Verif.Props.C76_in_step": [
"Classical.choice",
"Quot.sound",
"propext"
],
"Verif.Props.C77_certificate_cbor": [
"Classical.choice",
"Quot.sound",
"propext"
],
"Verif.Props.C77_digest": [
"Classical.choice",
"Quot.sound",
"propext"
],
"Verif.Props.C77_header": [
"Classical.choice",
"Quot.sound",
"propext"
],
"Verif.Props.C77_path": [
"Classical.choice",
"Quot.sound",
"propext"
],
"Verif.Props.C77_request_hash": [
"Classical.choice",
"Quot.sound",
"propext"
],
"Verif.Props.C77_response_hash": [
"Classical.choice",
"Quot.sound",
"propext"
],
"Verif.Props.C77_rih": [
"Classical.choice",
"Quot.sound",
"propext"
],
"Verif.Props.C77_signed": [
"Classical.choice",
"Quot.sound",
"propext"
],
"Verif.Props.C77_texts_cbor": [
"Classical.choice",
"Quot.sound",
"propext"
],
"Verif.Props.C77_time": [
"Classical.choice",
"Quot.sound",
"propext"
],
"Verif.Props.C77_tree_cbor": [
"Classical.choice",
"Quot.sound",
"propext"
],
"Verif.Props.C77_white_space": [
"Classical.choice",
"Quot.sound",
"propext"
],
"Verif.Props.C78_accepts": [
"Classical.choice",
"Quot.sound",
"propext"
],
"Verif.Props.C78_brackets": [
"Classical.choice",
"Quot.sound",
"propext"
],
"Verif.Props.C78_counterexample_stack": [
"Classical.choice",
"Quot.sound",
"propext"
],
"Verif.Props.C78_parse": [
"Classical.choice",
"Quot.sound",
"propext"
],
"Verif.Props.C78_rest": [
"Classical.choice",
"Quot.sound",
"propext"
],
"Verif.Props.C78_stack": [
"Classical.choice",
"Quot.sound",
"propext"
],
"Verif.Props.C78_syntax": [
"Classical.choice",
"Quot.sound",
"propext"
],
"Verif.Props.C78_unambiguous": [
"Classical.choice",
"Quot.sound",
"propext"
],
"Verif.Props.C78_written": [
"Classical.choice",
"Quot.sound",
"propext"
],
"Verif.Props.C79_certificate": [
"Classical.choice",
"Quot.sound",
"propext"
],
"Verif.Props.C79_counter": [
"Classical.choice",
"Quot.sound",
"propext"
],
"Verif.Props.C79_expires": [
"Classical.choice",
"Quot.sound",
"propext"
],
"Verif.Props.C79_fresh": [
"Classical.choice",
"Quot.sound",
"propext"
],
"Verif.Props.C79_js": [
"Classical.choice",
"Quot.sound",
"propext"
],
"Verif.Props.C79_router": [
"Classical.choice",
"Quot.sound",
"propext"
],
"Verif.Props.C79_skip": [
"Classical.choice",
"Quot.sound",
"propext"
],
"Verif.Props.C79_version1": [
"Classical.choice",
"Quot.sound",
"propext"
],
"Verif.Props.C79_version2": [
"Classical.choice",
"Quot.sound",
"propext"
],
"Verif.Props.C80_escaped": [
"Classical.choice",
"Quot.sound",
"propext"
],
"Verif.Props.C80_once": [
"Classical.choice",
"Quot.sound",
"propext"
],
"Verif.Props.C80_reachable": [
"Classical.choice",
"Quot.sound",
"propext"
],
"Verif.Props.C80_refused": [
"Classical.choice",
"Quot.sound",
"propext"
],
"Verif.Props.C80_spaces": [
"Classical.choice",
"Quot.sound",
"propext"
],
"Verif.Props.C81_certificate": [
"Classical.choice",
"Quot.sound",
"propext"
],
"Verif.Props.C81_hashing": [
"Classical.choice",
"Quot.sound",
"propext"
],
"Verif.Props.C81_header": [
"Classical.choice",
"Quot.sound",
"propext"
],
"Verif.Props.C81_header_hashing": [
"Classical.choice",
"Quot.sound",
"propext"
],
"Verif.Props.C81_texts": [
"Classical.choice",
"Quot.sound",
"propext"
],
"Verif.Props.C81_tree": [
"Classical.choice",
"Quot.sound",
"propext"
],
"Verif.Props.C81_wildcards": [
"Classical.choice",
"Quot.sound",
"propext"
],
"Verif.Props.C82_delete": [
"Classical.choice",
"Quot.sound",
"propext"
],
"Verif.Props.C82_history": [
"Classical.choice",
"Quot.sound",
"propext"
],
"Verif.Props.C82_http": [
"Classical.choice",
"Quot.sound",
"propext"
],
"Verif.Props.C82_insert": [
"Classical.choice",
"Quot.sound",
"propext"
],
"Verif.Props.C82_modify": [
"Classical.choice",
"Quot.sound",
"propext"
],
"Verif.Props.C82_nested_delete": [
"Classical.choice",
"Quot.sound",
"propext"
],
"Verif.Props.C82_nested_insert": [
"Classical.choice",
"Quot.sound",
"propext"
]
}