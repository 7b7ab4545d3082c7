{
 "claims": [
  {
   "property": "C01",
   "status": "proved",
   "theorems": [
    "Verif.Props.C01_found_is_true",
    "Verif.Props.C01_found_subtree_is_true"
   ],
   "note": "for every digest-equal tree; conclusion is 'true of the certified tree, or an explicit hash collision among the strings actually hashed'"
  },
  {
   "property": "C02",
   "status": "proved",
   "theorems": [
    "Verif.Props.C02_absent_path_is_true",
    "Verif.Props.C02_absent_subtree_is_true",
    "Verif.Props.C02_no_contradiction",
    "Verif.Props.C02_needs_wellformed"
   ],
   "note": "needs the certified tree to be well formed; C02_needs_wellformed is the counterexample otherwise"
  },
  {
   "property": "C03",
   "status": "proved",
   "theorems": [
    "Verif.Props.C03_digest_binds",
    "Verif.Props.C03_digest_injective",
    "Verif.Props.C03_prune_keeps_digest"
   ],
   "note": ""
  },
  {
   "property": "C04",
   "status": "proved",
   "theorems": [
    "Verif.Props.C04_found_iff",
    "Verif.Props.C04_other_verdicts",
    "Verif.Props.C04_exact_on_full"
   ],
   "note": ""
  },
  {
   "property": "C05",
   "status": "proved",
   "theorems": [
    "Verif.Props.C05_list_paths",
    "Verif.Props.C05_list_paths_wf"
   ],
   "note": ""
  },
  {
   "property": "C06",
   "status": "proved",
   "theorems": [
    "Verif.Props.C06_map"
   ],
   "note": ""
  },
  {
   "property": "C07",
   "status": "proved",
   "theorems": [
    "Verif.Props.C07_no_panic_balanced"
   ],
   "note": ""
  },
  {
   "property": "C08",
   "status": "proved",
   "theorems": [
    "Verif.Props.C08_root_hash",
    "Verif.Props.C08_full_tree_content"
   ],
   "note": ""
  },
  {
   "property": "C09",
   "status": "proved",
   "theorems": [
    "Verif.Props.C09_witness_digest",
    "Verif.Props.C09_any_range_digest",
    "Verif.Props.C09_nested_witness"
   ],
   "note": ""
  },
  {
   "property": "C10",
   "status": "proved",
   "theorems": [
    "Verif.Props.C10_witness_decides"
   ],
   "note": ""
  },
  {
   "property": "C11",
   "status": "proved",
   "theorems": [
    "Verif.Props.C11_ranges_decide"
   ],
   "note": ""
  },
  {
   "property": "C12",
   "status": "proved",
   "theorems": [
    "Verif.Props.C12_iteration",
    "Verif.Props.C12_eq_iff_same_content"
   ],
   "note": ""
  },
  {
   "property": "C13",
   "status": "proved",
   "theorems": [
    "Verif.Props.C13_path_map",
    "Verif.Props.C13_insert",
    "Verif.Props.C13_delete"
   ],
   "note": ""
  },
  {
   "property": "C14",
   "status": "proved",
   "theorems": [
    "Verif.Props.C14_no_husk",
    "Verif.Props.C14_empty_again"
   ],
   "note": ""
  },
  {
   "property": "C15",
   "status": "proved",
   "theorems": [
    "Verif.Props.C15_hashes",
    "Verif.Props.C15_full_tree_content"
   ],
   "note": ""
  },
  {
   "property": "C16",
   "status": "proved",
   "theorems": [
    "Verif.Props.C16_witness_decides"
   ],
   "note": ""
  },
  {
   "property": "C17",
   "status": "proved",
   "theorems": [
    "Verif.Props.C17_merge",
    "Verif.Props.C17_merge_many"
   ],
   "note": ""
  },
  {
   "property": "C18",
   "status": "proved",
   "theorems": [
    "Verif.Props.C18_exact_ne_wildcard",
    "Verif.Props.C18_exact_inj",
    "Verif.Props.C18_wildcard_inj",
    "Verif.Props.C18_expr_path",
    "Verif.Props.C18_segments"
   ],
   "note": ""
  },
  {
   "property": "C19",
   "status": "partial",
   "theorems": [
    "Verif.Props.C19_terminates",
    "Verif.Props.C19_exact_tree_partial",
    "Verif.Props.C19_exact_verifier_partial",
    "Verif.Props.C19_no_match_lists_all",
    "Verif.Props.C19_all_inputs",
    "Verif.Props.C19_counterexample_prefix",
    "Verif.Props.C19_counterexample_suffix"
   ],
   "note": "terminates on all inputs; exact for every URL except those whose first segment is http_expr (tree) or whose last segment is <$>/<*> (verifier): for those the property is false of the code, see C19_counterexample_prefix/_suffix; C19_all_inputs says exactly what the code lists for every URL and wildcard, without exception"
  },
  {
   "property": "C20",
   "status": "proved",
   "theorems": [
    "Verif.Props.C20_entries",
    "Verif.Props.C20_clash",
    "Verif.Props.C20_imitation",
    "Verif.Props.C20_api_no_clash",
    "Verif.Props.C20_entries_api"
   ],
   "note": "provisos: no URL has a segment <$> or <*> followed by a segment that is byte for byte the expression hash of another entry (C20_imitation shows the need); a skip certification does not share its expression hash with another (C20_clash shows the need)"
  },
  {
   "property": "C21",
   "status": "partial",
   "theorems": [
    "Verif.Props.C21_exact_witness",
    "Verif.Props.C21_wildcard_error",
    "Verif.Props.C21_wildcard_witness",
    "Verif.Props.C21_all_inputs",
    "Verif.Props.C21_wildcard_settles_url_partial"
   ],
   "note": "digest, no panic, exact error condition and settling of all enumerated paths proved for all inputs; that these are all more specific wildcards fails for URLs whose first segment is http_expr (C19_counterexample_prefix); C21_all_inputs says what is settled for every URL and wildcard"
  },
  {
   "property": "C22",
   "status": "partial",
   "theorems": [
    "Verif.Props.C22_complete_partial",
    "Verif.Props.C22_exact",
    "Verif.Props.C22_counterexample_first",
    "Verif.Props.C22_counterexample_last",
    "Verif.Props.C22_counterexample_between"
   ],
   "note": "proved for entries at exact paths without provisos on segments (C22_exact; only: no URL imitates the entry's tree path, C20); for wildcard entries, request URLs whose first segment is http_expr or last is <$>/<*>, and entries whose URL has a segment <$>/<*>, are excluded because the property is false of the code for them (C22_counterexample_first/_last/_between); names must be carried by CEL (C32) and sizes fit"
  },
  {
   "property": "C23",
   "status": "proved",
   "theorems": [
    "Verif.Props.C23_end_to_end",
    "Verif.Props.C23_sound"
   ],
   "note": "C23_sound for any certified tree; C23_end_to_end back to the entry, request and response the canister certified through the API"
  },
  {
   "property": "C24",
   "status": "partial",
   "theorems": [
    "Verif.Props.C24_best_path_partial",
    "Verif.Props.C24_all_inputs",
    "Verif.Props.C24_api_tree",
    "Verif.Props.C24_counterexample"
   ],
   "note": "all requests except those whose last path segment is literally <$> or <*>, for which it is false of the code (C24_counterexample; C24_all_inputs says what holds for them too); a directory wildcard /a/ is also accepted for the request /a when nothing better exists, as BestPath states"
  },
  {
   "property": "C25",
   "status": "proved",
   "theorems": [
    "Verif.Props.C25_returned"
   ],
   "note": ""
  },
  {
   "property": "C26",
   "status": "proved",
   "theorems": [
    "Verif.Props.C26_text",
    "Verif.Props.C26_version",
    "Verif.Props.C26_rejects",
    "Verif.Props.C26_missing"
   ],
   "note": ""
  },
  {
   "property": "C27",
   "status": "proved",
   "theorems": [
    "Verif.Props.C27_end_to_end",
    "Verif.Props.C27_counterexample_hidden",
    "Verif.Props.C27_skip",
    "Verif.Props.C27_only_skip"
   ],
   "note": "C27_end_to_end: no certified URL has a segment <$>/<*> followed by the 32 bytes of the hash of the claimed expression (C27_counterexample_hidden shows the need)"
  },
  {
   "property": "C28",
   "status": "proved",
   "theorems": [
    "Verif.Props.C28_decompress",
    "Verif.Props.C28_decompress_error",
    "Verif.Props.C28_sound",
    "Verif.Props.C28_accepts",
    "Verif.Props.C28_counterexample_index"
   ],
   "note": "the fallback to /index.html is also taken if the entry for the path is merely pruned from the supplied tree: C28_counterexample_index shows that then a different certified body for the path is ignored"
  },
  {
   "property": "C29",
   "status": "proved",
   "theorems": [
    "Verif.Props.C29_ignores_uncertified",
    "Verif.Props.C29_header_order",
    "Verif.Props.C29_error",
    "Verif.Props.C29_binding",
    "Verif.Props.C29_query_binding",
    "Verif.Props.C29_pseudo_clash"
   ],
   "note": ""
  },
  {
   "property": "C30",
   "status": "proved",
   "theorems": [
    "Verif.Props.C30_ignores_uncertified",
    "Verif.Props.C30_drop_uncertified",
    "Verif.Props.C30_binding",
    "Verif.Props.C30_body_hash_override"
   ],
   "note": ""
  },
  {
   "property": "C31",
   "status": "proved",
   "theorems": [
    "Verif.Props.C31_perm",
    "Verif.Props.C31_same",
    "Verif.Props.C31_binding",
    "Verif.Props.C31_numbers",
    "Verif.Props.C31_strings"
   ],
   "note": ""
  },
  {
   "property": "C32",
   "status": "proved",
   "theorems": [
    "Verif.C32_roundtrip",
    "Verif.C32_plain_roundtrip",
    "Verif.C32_injective",
    "Verif.C32_counterexample_quote",
    "Verif.C32_counterexample_underscore"
   ],
   "note": ""
  },
  {
   "property": "C33",
   "status": "proved",
   "theorems": [
    "Verif.C33_accepts_exactly_documented"
   ],
   "note": ""
  },
  {
   "property": "C34",
   "status": "proved",
   "theorems": [
    "Verif.Props.C34_first_field_wins",
    "Verif.Props.C34_version_decimal",
    "Verif.Props.C34_roundtrip",
    "Verif.Props.C34_added",
    "Verif.Props.C34_last_wins",
    "Verif.Props.C34_version_iff"
   ],
   "note": ""
  },
  {
   "property": "C35",
   "status": "proved",
   "theorems": [
    "Verif.Props.C35_roundtrip",
    "Verif.Props.C35_injective",
    "Verif.Props.C35_alphabet",
    "Verif.Props.C35_unambiguous",
    "Verif.Props.C35_decodes",
    "Verif.Props.C35_encodes"
   ],
   "note": ""
  },
  {
   "property": "C36",
   "status": "proved",
   "theorems": [
    "Verif.Props.C36_tree_roundtrip",
    "Verif.Props.C36_tree_injective"
   ],
   "note": "hypotheses: lengths representable, stack holds one call per tree level (both hold for every tree that fits in memory on the machines considered; stack depth is an explicit parameter of the model)"
  },
  {
   "property": "C37",
   "status": "proved",
   "theorems": [
    "Verif.Props.C37_certificate_roundtrip",
    "Verif.Props.C37_ranges_roundtrip",
    "Verif.Props.C37_strings_roundtrip"
   ],
   "note": "ranges: principals of at most 29 bytes; strings: valid UTF-8"
  },
  {
   "property": "C38",
   "status": "partial",
   "theorems": [
    "Verif.Props.C38_total_partial",
    "Verif.Props.C38_counterexample_map",
    "Verif.Props.C38_counterexample_stack",
    "Verif.Props.C38_trailing_rejected",
    "Verif.Props.C38_trees_trailing",
    "Verif.Props.C38_consumes",
    "Verif.Props.C38_counterexample_truncated",
    "Verif.Props.C38_counterexample_principal",
    "Verif.Props.C38_documents_partial",
    "Verif.Props.C38_ranges_exact"
   ],
   "note": "false of the code without provisos: a 9-byte map header panics (C38_counterexample_map), long runs of tags overflow the stack (C38_counterexample_stack), a long principal panics, declared map lengths are not enforced; proved: total under exactly these provisos, trailing bytes rejected for map-free values, reads a prefix of its input; the readers of trees, certificates and texts add no panic (C38_documents_partial), that of canister ranges exactly the long principal (C38_ranges_exact)"
  },
  {
   "property": "C39",
   "status": "partial",
   "theorems": [
    "Verif.Props.C39_time_roundtrip",
    "Verif.Props.C39_accepted_in_window",
    "Verif.Props.C39_window_exact_partial",
    "Verif.Props.C39_counterexample_underflow",
    "Verif.Props.C39_all_inputs",
    "Verif.Props.C39_outcomes"
   ],
   "note": "accepted => time in window for all inputs; the converse only when now-offset..now+offset lies within u128: otherwise the code panics or rejects everything (C39_counterexample_underflow); C39_all_inputs gives the exact behaviour for all times and offsets, with and without overflow checks"
  },
  {
   "property": "C40",
   "status": "proved",
   "theorems": [
    "Verif.Props.C40_chain",
    "Verif.Props.C40_accepts"
   ],
   "note": "BLS is a parameter of the model; the converse C40_accepts is stated with lookups, soundness C40_chain with the separate relational spec"
  },
  {
   "property": "C41",
   "status": "proved",
   "theorems": [
    "Verif.Props.C41_delegation",
    "Verif.Props.C41_ranges",
    "Verif.Props.C41_order"
   ],
   "note": ""
  },
  {
   "property": "C42",
   "status": "proved",
   "theorems": [
    "Verif.Props.C42_cache_transparent",
    "Verif.Props.C42_request_lengths"
   ],
   "note": "all interleavings of any number of threads; up to a SHA-256 collision between cache keys"
  },
  {
   "property": "C43",
   "status": "proved",
   "theorems": [
    "Verif.Props.C43_extract_der",
    "Verif.Props.C43_errors",
    "Verif.Props.C43_der"
   ],
   "note": ""
  },
  {
   "property": "C44",
   "status": "proved",
   "theorems": [
    "Verif.Props.C44_response_only",
    "Verif.Props.C44_full",
    "Verif.Props.C44_errors"
   ],
   "note": ""
  },
  {
   "property": "C45",
   "status": "proved",
   "theorems": [
    "Verif.Props.C45_certify_succeeds",
    "Verif.Props.C45_certify",
    "Verif.Props.C45_certify_tree",
    "Verif.Props.C45_held",
    "Verif.Props.C45_serve",
    "Verif.Props.C45_serve_errors",
    "Verif.Props.C45_total",
    "Verif.Props.C45_files",
    "Verif.Props.C45_frame",
    "Verif.Props.C45_stays",
    "Verif.Props.C45_place",
    "Verif.Props.C45_place_fallback"
   ],
   "note": ""
  },
  {
   "property": "C46",
   "status": "proved",
   "theorems": [
    "Verif.Props.C46_partition",
    "Verif.Props.C46_chunk",
    "Verif.Props.C46_ask",
    "Verif.Props.C46_serve",
    "Verif.Props.C46_reassemble",
    "Verif.Props.C46_bounded",
    "Verif.Props.C46_misaligned",
    "Verif.Props.C46_decimal"
   ],
   "note": ""
  },
  {
   "property": "C47",
   "status": "partial",
   "theorems": [
    "Verif.Props.C47_delete",
    "Verif.Props.C47_delete_tree_partial",
    "Verif.Props.C47_delete_all",
    "Verif.Props.C47_not_served",
    "Verif.Props.C47_undo",
    "Verif.Props.C47_counterexample_chunks"
   ],
   "note": "tables: exactly the responses at the keys of the deleted items disappear; tree: proved only for the entries actually deleted - the chunk entries of large assets are never deleted from the tree (defect, see DESIGN findings)"
  },
  {
   "property": "C48",
   "status": "proved",
   "theorems": [
    "Verif.Props.C48_negotiate",
    "Verif.Props.C48_unlisted",
    "Verif.Props.C48_sort",
    "Verif.Props.C48_refused",
    "Verif.Props.C48_default"
   ],
   "note": ""
  },
  {
   "property": "C49",
   "status": "partial",
   "theorems": [
    "Verif.Props.C49_found",
    "Verif.Props.C49_counterexample_slashes",
    "Verif.Props.C49_counterexample_first",
    "Verif.Props.C49_counterexample_last",
    "Verif.Props.C49_counterexample_query",
    "Verif.Props.C49_start",
    "Verif.Props.C49_certify",
    "Verif.Props.C49_delete_all",
    "Verif.Props.C49_delete",
    "Verif.Props.C49_in_step",
    "Verif.Props.C49_verifies_partial",
    "Verif.Props.C49_counterexample_scope"
   ],
   "note": "C49_in_step: the invariant over all histories of certify_assets and delete_all_assets (C49_delete gives a condition for delete_assets, C76 covers failing calls); C49_found: requests of published URLs, whole or in chunks, without provisos on the path; C49_verifies_partial: all requests, except for a request that equals a fallback scope written without final slash, paths with repeated slashes, first segment http_expr, last segment <$>/<*> and fallbacks whose asset URL has a query (C49_counterexample_scope, _slashes, _first, _last, _query: false of the code in each of these cases)"
  },
  {
   "property": "C50",
   "status": "proved",
   "theorems": [
    "Verif.Props.C50_only_announced"
   ],
   "note": "up to a SHA-256 collision between strings of the messages and strings of announced items; no announced URL hides the hash of the claimed expression after a segment <$>/<*> (C27_counterexample_hidden), and configured headers not called :ic-cert-status"
  },
  {
   "property": "C51",
   "status": "proved",
   "theorems": [
    "Verif.Props.C51_data",
    "Verif.Props.C51_accepts",
    "Verif.Props.C51_only_skip"
   ],
   "note": ""
  },
  {
   "property": "C52",
   "status": "proved",
   "theorems": [
    "Verif.Props.C52_persists",
    "Verif.Props.C52_only_delete",
    "Verif.Props.C52_replay",
    "Verif.Props.C52_old_content"
   ],
   "note": ""
  },
  {
   "property": "C53",
   "status": "proved",
   "theorems": [
    "Verif.Props.C53_root_binds",
    "Verif.Props.C53_nested_root_binds",
    "Verif.Props.C53_unchanged",
    "Verif.Props.C53_nested_unchanged",
    "Verif.Props.C53_http_root_binds",
    "Verif.Props.C53_http_unchanged",
    "Verif.Props.C53_certify_again",
    "Verif.Props.C53_counterexample_order"
   ],
   "note": ""
  },
  {
   "property": "C54",
   "status": "proved",
   "theorems": [
    "Verif.Props.C54_tree",
    "Verif.Props.C54_delegation",
    "Verif.Props.C54_certificate",
    "Verif.Props.C54_roundtrip",
    "Verif.Props.C54_cbor",
    "Verif.Props.C54_readers_agree",
    "Verif.Props.C54_ic_cbor_follows",
    "Verif.Props.C54_counterexample_extra",
    "Verif.Props.C54_counterexample_pruned",
    "Verif.Props.C54_owned_without_pruned",
    "Verif.Props.C54_counterexample_label"
   ],
   "note": ""
  },
  {
   "property": "C55",
   "status": "proved",
   "theorems": [
    "Verif.Props.C55_present",
    "Verif.Props.C55_absent",
    "Verif.Props.C55_ranges",
    "Verif.Props.C55_nested",
    "Verif.Props.C55_nested_values",
    "Verif.Props.C55_http",
    "Verif.Props.C55_small"
   ],
   "note": ""
  },
  {
   "property": "C56",
   "status": "proved",
   "theorems": [
    "Verif.Props.C56_builds",
    "Verif.Props.C56_custom",
    "Verif.Props.C56_verifies",
    "Verif.Props.C56_nested",
    "Verif.Props.C56_numbers",
    "Verif.Props.C56_js",
    "Verif.Props.C56_js_clock"
   ],
   "note": ""
  },
  {
   "property": "C57",
   "status": "proved",
   "theorems": [
    "Verif.Props.C57_request",
    "Verif.Props.C57_response",
    "Verif.Props.C57_rebuild",
    "Verif.Props.C57_update",
    "Verif.Props.C57_cel",
    "Verif.Props.C57_eq",
    "Verif.Props.C57_eq_equiv",
    "Verif.Props.C57_eq_certification",
    "Verif.Props.C57_status"
   ],
   "note": ""
  },
  {
   "property": "C58",
   "status": "proved",
   "theorems": [
    "Verif.Props.C58_accepts_iff",
    "Verif.Props.C58_data",
    "Verif.Props.C58_lookups_agree",
    "Verif.Props.C58_time"
   ],
   "note": ""
  },
  {
   "property": "C59",
   "status": "proved",
   "theorems": [
    "Verif.Props.C59_shows",
    "Verif.Props.C59_only"
   ],
   "note": ""
  },
  {
   "property": "C60",
   "status": "proved",
   "theorems": [
    "Verif.Props.C60_security",
    "Verif.Props.C60_errors",
    "Verif.Props.C60_list",
    "Verif.Props.C60_not_allowed",
    "Verif.Props.C60_not_found",
    "Verif.Props.C60_only",
    "Verif.Props.C60_upgrade",
    "Verif.Props.C60_changes_announced",
    "Verif.Props.C60_answered",
    "Verif.Props.C60_ids",
    "Verif.Props.C60_served"
   ],
   "note": ""
  },
  {
   "property": "C61",
   "status": "proved",
   "theorems": [
    "Verif.Props.C61_agrees",
    "Verif.Props.C61_result_unique",
    "Verif.Props.C61_codes",
    "Verif.Props.C61_status",
    "Verif.Props.C61_text",
    "Verif.Props.C61_body_numbers",
    "Verif.Props.C61_any_objects",
    "Verif.Props.C61_reads_one",
    "Verif.Props.C61_any_text"
   ],
   "note": ""
  },
  {
   "property": "C62",
   "status": "proved",
   "theorems": [
    "Verif.Props.C62_start",
    "Verif.Props.C62_certify",
    "Verif.Props.C62_delete_all",
    "Verif.Props.C62_insert",
    "Verif.Props.C62_delete",
    "Verif.Props.C62_in_step",
    "Verif.Props.C62_verifies",
    "Verif.Props.C62_kept",
    "Verif.Props.C62_wiped",
    "Verif.Props.C62_only"
   ],
   "note": ""
  },
  {
   "property": "C63",
   "status": "proved",
   "theorems": [
    "Verif.Props.C63_shows",
    "Verif.Props.C63_run",
    "Verif.Props.C63_installs",
    "Verif.Props.C63_verifies",
    "Verif.Props.C63_metrics",
    "Verif.Props.C63_only",
    "Verif.Props.C63_security"
   ],
   "note": ""
  },
  {
   "property": "C64",
   "status": "proved",
   "theorems": [
    "Verif.Props.C64_header",
    "Verif.Props.C64_verifies",
    "Verif.Props.C64_index",
    "Verif.Props.C64_only",
    "Verif.Props.C64_fixture"
   ],
   "note": ""
  },
  {
   "property": "C65",
   "status": "proved",
   "theorems": [
    "Verif.Props.C65_describes",
    "Verif.Props.C65_reads",
    "Verif.Props.C65_unambiguous",
    "Verif.Props.C65_tree_accepted",
    "Verif.Props.C65_tree_read",
    "Verif.Props.C65_certificate_accepted",
    "Verif.Props.C65_certificate_read",
    "Verif.Props.C65_certificate_exact",
    "Verif.Props.C65_strings",
    "Verif.Props.C65_ranges_accepted",
    "Verif.Props.C65_ranges_read"
   ],
   "note": ""
  },
  {
   "property": "C66",
   "status": "proved",
   "theorems": [
    "Verif.Props.C66_iter",
    "Verif.Props.C66_get",
    "Verif.Props.C66_lookup",
    "Verif.Props.C66_exact",
    "Verif.Props.C66_stale"
   ],
   "note": ""
  },
  {
   "property": "C67",
   "status": "proved",
   "theorems": [
    "Verif.Props.C67_serves",
    "Verif.Props.C67_uncertified",
    "Verif.Props.C67_installs",
    "Verif.Props.C67_only",
    "Verif.Props.C67_security",
    "Verif.Props.C67_uncertified_headers"
   ],
   "note": ""
  },
  {
   "property": "C68",
   "status": "proved",
   "theorems": [
    "Verif.Props.C68_cmp",
    "Verif.Props.C68_order",
    "Verif.Props.C68_partial_cmp"
   ],
   "note": ""
  },
  {
   "property": "C69",
   "status": "proved",
   "theorems": [
    "Verif.Props.C69_method",
    "Verif.Props.C69_request",
    "Verif.Props.C69_response",
    "Verif.Props.C69_decode_request",
    "Verif.Props.C69_decode_response",
    "Verif.Props.C69_decode_update",
    "Verif.Props.C69_field_numbers"
   ],
   "note": ""
  },
  {
   "property": "C70",
   "status": "proved",
   "theorems": [
    "Verif.Props.C70_skip",
    "Verif.Props.C70_skip_only",
    "Verif.Props.C70_upgrade",
    "Verif.Props.C70_motoko"
   ],
   "note": ""
  },
  {
   "property": "C71",
   "status": "proved",
   "theorems": [
    "Verif.Props.C71_certificate",
    "Verif.Props.C71_errors"
   ],
   "note": ""
  },
  {
   "property": "C72",
   "status": "proved",
   "theorems": [
    "Verif.Props.C72_certificate",
    "Verif.Props.C72_aborts",
    "Verif.Props.C72_expression"
   ],
   "note": ""
  },
  {
   "property": "C73",
   "status": "proved",
   "theorems": [
    "Verif.Props.C73_nothing_else",
    "Verif.Props.C73_minimum",
    "Verif.Props.C73_time",
    "Verif.Props.C73_lifetime"
   ],
   "note": ""
  },
  {
   "property": "C74",
   "status": "proved",
   "theorems": [
    "Verif.Props.C74_key_range",
    "Verif.Props.C74_value_range",
    "Verif.Props.C74_prefix",
    "Verif.Props.C74_nested",
    "Verif.Props.C74_exact",
    "Verif.Props.C74_wildcard",
    "Verif.Props.C74_bytes",
    "Verif.Props.C74_header"
   ],
   "note": ""
  },
  {
   "property": "C75",
   "status": "proved",
   "theorems": [
    "Verif.Props.C75_debug_text",
    "Verif.Props.C75_debug_faithful",
    "Verif.Props.C75_label_display",
    "Verif.Props.C75_label_unambiguous",
    "Verif.Props.C75_pruned_from_hex",
    "Verif.Props.C75_hex_errors",
    "Verif.Props.C75_hex_roundtrip",
    "Verif.Props.C75_debug_ambiguous"
   ],
   "note": ""
  },
  {
   "property": "C76",
   "status": "proved",
   "theorems": [
    "Verif.Props.C76_delete_succeeds",
    "Verif.Props.C76_bad_pattern",
    "Verif.Props.C76_certify",
    "Verif.Props.C76_delete",
    "Verif.Props.C76_certified",
    "Verif.Props.C76_certify_in_step",
    "Verif.Props.C76_in_step",
    "Verif.Props.C76_counterexample_encodings"
   ],
   "note": ""
  },
  {
   "property": "C77",
   "status": "proved",
   "theorems": [
    "Verif.Props.C77_digest",
    "Verif.Props.C77_signed",
    "Verif.Props.C77_rih",
    "Verif.Props.C77_request_hash",
    "Verif.Props.C77_response_hash",
    "Verif.Props.C77_path",
    "Verif.Props.C77_time",
    "Verif.Props.C77_white_space",
    "Verif.Props.C77_tree_cbor",
    "Verif.Props.C77_texts_cbor",
    "Verif.Props.C77_certificate_cbor",
    "Verif.Props.C77_header"
   ],
   "note": ""
  },
  {
   "property": "C78",
   "status": "proved",
   "theorems": [
    "Verif.Props.C78_parse",
    "Verif.Props.C78_unambiguous",
    "Verif.Props.C78_accepts",
    "Verif.Props.C78_rest",
    "Verif.Props.C78_syntax",
    "Verif.Props.C78_stack",
    "Verif.Props.C78_brackets",
    "Verif.Props.C78_written",
    "Verif.Props.C78_counterexample_stack"
   ],
   "note": ""
  },
  {
   "property": "C79",
   "status": "proved",
   "theorems": [
    "Verif.Props.C79_fresh",
    "Verif.Props.C79_version1",
    "Verif.Props.C79_version2",
    "Verif.Props.C79_expires",
    "Verif.Props.C79_certificate",
    "Verif.Props.C79_js",
    "Verif.Props.C79_counter",
    "Verif.Props.C79_skip",
    "Verif.Props.C79_router"
   ],
   "note": ""
  },
  {
   "property": "C80",
   "status": "proved",
   "theorems": [
    "Verif.Props.C80_reachable",
    "Verif.Props.C80_once",
    "Verif.Props.C80_spaces",
    "Verif.Props.C80_refused",
    "Verif.Props.C80_escaped"
   ],
   "note": ""
  },
  {
   "property": "C81",
   "status": "proved",
   "theorems": [
    "Verif.Props.C81_tree",
    "Verif.Props.C81_certificate",
    "Verif.Props.C81_hashing",
    "Verif.Props.C81_texts",
    "Verif.Props.C81_header",
    "Verif.Props.C81_header_hashing",
    "Verif.Props.C81_wildcards"
   ],
   "note": ""
  },
  {
   "property": "C82",
   "status": "proved",
   "theorems": [
    "Verif.Props.C82_nested_insert",
    "Verif.Props.C82_nested_delete",
    "Verif.Props.C82_http",
    "Verif.Props.C82_insert",
    "Verif.Props.C82_delete",
    "Verif.Props.C82_modify",
    "Verif.Props.C82_history"
   ],
   "note": ""
  }
 ]
}