{
 "C01": {
  "note": "for every digest-equal tree; conclusion is 'true of the certified tree, or an explicit hash collision among the strings actually hashed'"
 },
 "C02": {
  "note": "needs the certified tree to be well formed; C02_needs_wellformed is the counterexample otherwise"
 },
 "C19": {
  "status": "partial",
  "note": "terminates on all inputs; exact for every URL except those whose first segment is http_expr (tree) or whose last segment is <$>/<*> (verifier): for those the property is false of the code, see C19_counterexample_prefix/_suffix; C19_all_inputs says exactly what the code lists for every URL and wildcard, without exception"
 },
 "C20": {
  "note": "provisos: no URL has a segment <$> or <*> followed by a segment that is byte for byte the expression hash of another entry (C20_imitation shows the need); a skip certification does not share its expression hash with another (C20_clash shows the need)"
 },
 "C21": {
  "status": "partial",
  "note": "digest, no panic, exact error condition and settling of all enumerated paths proved for all inputs; that these are all more specific wildcards fails for URLs whose first segment is http_expr (C19_counterexample_prefix); C21_all_inputs says what is settled for every URL and wildcard"
 },
 "C36": {
  "note": "hypotheses: lengths representable, stack holds one call per tree level (both hold for every tree that fits in memory on the machines considered; stack depth is an explicit parameter of the model)"
 },
 "C37": {
  "note": "ranges: principals of at most 29 bytes; strings: valid UTF-8"
 },
 "C38": {
  "status": "partial",
  "note": "false of the code without provisos: a 9-byte map header panics (C38_counterexample_map), long runs of tags overflow the stack (C38_counterexample_stack), a long principal panics, declared map lengths are not enforced; proved: total under exactly these provisos, trailing bytes rejected for map-free values, reads a prefix of its input; the readers of trees, certificates and texts add no panic (C38_documents_partial), that of canister ranges exactly the long principal (C38_ranges_exact)"
 },
 "C39": {
  "status": "partial",
  "note": "accepted => time in window for all inputs; the converse only when now-offset..now+offset lies within u128: otherwise the code panics or rejects everything (C39_counterexample_underflow); C39_all_inputs gives the exact behaviour for all times and offsets, with and without overflow checks"
 },
 "C40": {
  "note": "BLS is a parameter of the model; the converse C40_accepts is stated with lookups, soundness C40_chain with the separate relational spec"
 },
 "C42": {
  "note": "all interleavings of any number of threads; up to a SHA-256 collision between cache keys"
 },
 "C24": {
  "status": "partial",
  "note": "all requests except those whose last path segment is literally <$> or <*>, for which it is false of the code (C24_counterexample; C24_all_inputs says what holds for them too); a directory wildcard /a/ is also accepted for the request /a when nothing better exists, as BestPath states"
 },
 "C28": {
  "note": "the fallback to /index.html is also taken if the entry for the path is merely pruned from the supplied tree: C28_counterexample_index shows that then a different certified body for the path is ignored"
 },
 "C22": {
  "status": "partial",
  "note": "proved for entries at exact paths without provisos on segments (C22_exact; only: no URL imitates the entry's tree path, C20); for wildcard entries, request URLs whose first segment is http_expr or last is <$>/<*>, and entries whose URL has a segment <$>/<*>, are excluded because the property is false of the code for them (C22_counterexample_first/_last/_between); names must be carried by CEL (C32) and sizes fit"
 },
 "C23": {
  "note": "C23_sound for any certified tree; C23_end_to_end back to the entry, request and response the canister certified through the API"
 },
 "C27": {
  "note": "C27_end_to_end: no certified URL has a segment <$>/<*> followed by the 32 bytes of the hash of the claimed expression (C27_counterexample_hidden shows the need)"
 },
 "C47": {
  "status": "partial",
  "note": "tables: exactly the responses at the keys of the deleted items disappear; tree: proved only for the entries actually deleted - the chunk entries of large assets are never deleted from the tree (defect, see DESIGN findings)"
 },
 "C49": {
  "status": "partial",
  "note": "C49_in_step: the invariant over all histories of certify_assets and delete_all_assets (C49_delete gives a condition for delete_assets, C76 covers failing calls); C49_found: requests of published URLs, whole or in chunks, without provisos on the path; C49_verifies_partial: all requests, except for a request that equals a fallback scope written without final slash, paths with repeated slashes, first segment http_expr, last segment <$>/<*> and fallbacks whose asset URL has a query (C49_counterexample_scope, _slashes, _first, _last, _query: false of the code in each of these cases)"
 },
 "C50": {
  "note": "up to a SHA-256 collision between strings of the messages and strings of announced items; no announced URL hides the hash of the claimed expression after a segment <$>/<*> (C27_counterexample_hidden), and configured headers not called :ic-cert-status"
 }
}