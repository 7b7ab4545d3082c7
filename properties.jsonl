{"id": "C01", "title": "Found lookups on any digest-equal tree are truthful", "statement": "If a (possibly adversarial, partially pruned) hash tree has the same digest as a certified well-formed full tree, then whenever lookup_path on it answers Found(v), the certified tree really holds v at that path, or else two different byte strings hashed while computing the two digests collide.", "quantifier": "every witness tree of any shape, every well-formed certified tree, every path, every hash function", "why_tests_cant": "the adversary chooses the witness; tests can only sample honest or a few mutated witnesses", "anchors": ["packages/ic-certification/src/hash_tree/mod.rs: HashTree::lookup_path, HashTreeNode::lookup_label, digest"]}
{"id": "C02", "title": "Absent lookups on any digest-equal tree are truthful", "statement": "Under the same conditions, when lookup_path or lookup_subtree answers Absent the certified tree holds no leaf (resp. no node) at that path, or a hash collision is exhibited.", "quantifier": "every witness tree, every well-formed certified tree, every path, every hash function", "why_tests_cant": "absence is a universal claim about the hidden (pruned) parts of the tree", "anchors": ["packages/ic-certification/src/hash_tree/mod.rs: HashTree::lookup_path, HashTree::lookup_subtree"]}
{"id": "C03", "title": "The digest determines the tree up to pruning", "statement": "Two hash trees with the same digest, the second containing no pruned node, differ only in that the first prunes subtrees of the second, or a collision between hashed strings is exhibited. In particular domain separation prevents one node kind being passed off as another.", "quantifier": "all pairs of hash trees and all hash functions", "why_tests_cant": "second-preimage style confusion between node kinds needs all shapes, labels and lengths", "anchors": ["packages/ic-certification/src/hash_tree/mod.rs: HashTreeNode::digest, domain_sep, fork_hash, leaf_hash, labeled_hash"]}
{"id": "C04", "title": "The two lookups agree and lookups always terminate with the documented verdict", "statement": "lookup_path answers Found(v) exactly when lookup_subtree finds a leaf holding v; Absent, Unknown and Error correspond to the kind of node or verdict lookup_subtree reports.", "quantifier": "all hash trees (well-formed or not) and all paths", "why_tests_cant": "two separately written recursive functions must agree on every tree", "anchors": ["packages/ic-certification/src/hash_tree/mod.rs: lookup_path, lookup_subtree"]}
{"id": "C05", "title": "list_paths enumerates exactly the visible leaves", "statement": "A path is listed by list_paths if and only if following those labels through the tree reaches a leaf; on a well-formed full tree each listed path is Found by lookup_path and vice versa, with no duplicates.", "quantifier": "all hash trees", "why_tests_cant": "exhaustiveness over all tree shapes", "anchors": ["packages/ic-certification/src/hash_tree/mod.rs: HashTree::list_paths"]}
{"id": "C06", "title": "RbTree is a map under every operation history", "statement": "After any sequence of insert, delete and modify calls, get(k) returns what an ordinary finite map would return.", "quantifier": "every finite history of operations over arbitrary byte-string keys and values, every queried key", "why_tests_cant": "rebalancing interacts with history; bugs of delete in LLRB trees show only for particular shapes", "anchors": ["packages/ic-certification/src/rb_tree/mod.rs: RbTree::insert, delete, modify, get"]}
{"id": "C07", "title": "RbTree operations never panic and keep the tree balanced", "statement": "No history of operations reaches an unwrap on None or a failed debug assertion; the tree stays a left-leaning red-black tree and its height is at most 2*log2(n+1).", "quantifier": "every finite history of operations", "why_tests_cant": "panics depend on rare shapes; the height bound is for all sizes", "anchors": ["packages/ic-certification/src/rb_tree/mod.rs: insert, delete, balance, rotate_left, rotate_right, flip_colors, move_red_left, move_red_right"]}
{"id": "C08", "title": "The incrementally maintained root hash is the digest of the full tree", "statement": "After any history, root_hash() equals the digest of as_hash_tree(), although hashes are only updated incrementally along modified paths.", "quantifier": "every finite history of operations and every hash function", "why_tests_cant": "a missed incremental update shows only after particular rotations", "anchors": ["packages/ic-certification/src/rb_tree/mod.rs: update_subtree_hash, compute_subtree_hash, AsHashTree for RbTree"]}
{"id": "C09", "title": "Every RbTree witness has the root hash as its digest", "statement": "witness(k), nested_witness, keys(), key_range, value_range and keys_with_prefix all return hash trees whose digest is root_hash().", "quantifier": "every reachable tree, every key, range and prefix (including absent keys, and inverted ranges)", "why_tests_cant": "the pruning logic has many cases depending on tree shape and bounds", "anchors": ["packages/ic-certification/src/rb_tree/mod.rs: witness, nested_witness, keys, key_range, value_range, keys_with_prefix, three_way_fork"]}
{"id": "C10", "title": "RbTree witnesses prove membership and non-membership", "statement": "Looking up k in witness(k) yields the value's tree when k is present and Absent when it is not; it is never Unknown.", "quantifier": "every reachable tree and every key", "why_tests_cant": "absence proofs depend on neighbours for all shapes", "anchors": ["packages/ic-certification/src/rb_tree/mod.rs: witness, lookup_and_build_witness, range_witness, lower_bound, upper_bound"]}
{"id": "C11", "title": "Range and prefix witnesses are complete", "statement": "key_range(a,b) (a<=b) decides every key between a and b: present keys are found, absent keys are provably absent; value_range additionally reveals the values; keys_with_prefix(p) decides every key starting with p.", "quantifier": "every reachable tree, every range and prefix, every key inside", "why_tests_cant": "completeness quantifies over all keys inside the range and all tree shapes", "anchors": ["packages/ic-certification/src/rb_tree/mod.rs: key_range, value_range, keys_with_prefix, right_prefix_neighbor, witness_range_above, witness_range_below, witness_range_between"]}
{"id": "C12", "title": "Iteration is the sorted content", "statement": "iter() terminates and yields each entry exactly once in strictly increasing key order, the same entries for_each visits; two trees compare equal iff they hold the same entries, independent of insertion order.", "quantifier": "every reachable tree", "why_tests_cant": "iterator state machine over all shapes; order-independence over all histories", "anchors": ["packages/ic-certification/src/rb_tree/mod.rs: Iter::step, Iter::next, RbTree::iter, for_each, PartialEq for RbTree"]}
{"id": "C13", "title": "NestedTree is a map from paths to leaves under every history", "statement": "After any sequence of insert/delete/clear, get(path), contains_leaf and contains_path answer as the abstract nested map: insert makes exactly that leaf visible, replaces whatever was at or above the path and keeps unrelated paths; delete removes exactly the subtree at the path.", "quantifier": "every history of operations with arbitrary paths, every queried path", "why_tests_cant": "interactions of prefix-overlapping paths over all histories", "anchors": ["packages/ic-certification/src/nested_rb_tree.rs: NestedTree::insert, delete, clear, get, contains_leaf, contains_path"]}
{"id": "C14", "title": "NestedTree deletion leaves no empty husk", "statement": "After any history no reachable nested subtree below the root is empty, so deleting the last leaf under a path makes contains_path false for its ancestors up to the nearest one that still has other content.", "quantifier": "every history of operations", "why_tests_cant": "husks only appear for particular histories", "anchors": ["packages/ic-certification/src/nested_rb_tree.rs: NestedTree::delete"]}
{"id": "C15", "title": "NestedTree root hash and witnesses are coherent", "statement": "After any history, root_hash() is the digest of as_hash_tree(), and witness(path) has digest root_hash() for every path, present or not.", "quantifier": "every history, every path, every hash function", "why_tests_cant": "nested incremental hash updates over all shapes", "anchors": ["packages/ic-certification/src/nested_rb_tree.rs: NestedTree::witness, root_hash, as_hash_tree"]}
{"id": "C16", "title": "NestedTree witnesses decide the witnessed path", "statement": "lookup_subtree of path in witness(path) is the full subtree when contains_path(path), and Absent otherwise; nothing contradicting the tree can be read from a witness.", "quantifier": "every reachable tree and path", "why_tests_cant": "all combinations of nesting depth and tree shape", "anchors": ["packages/ic-certification/src/nested_rb_tree.rs: NestedTree::witness"]}
{"id": "C17", "title": "Merging witnesses of one tree never panics and loses nothing", "statement": "merge_hash_trees of any two (hence any finite number of) witnesses of the same tree does not panic, keeps the digest, and every definite lookup answer of either operand is still given by the merge.", "quantifier": "every tree, every pair of prunings of it", "why_tests_cant": "structural mismatch panics must be excluded for every pair of witnesses", "anchors": ["packages/ic-certification/src/nested_rb_tree.rs: merge_hash_trees"]}
{"id": "C18", "title": "HTTP paths map to tree paths unambiguously", "statement": "Exact and wildcard certification paths never share a tree path; two exact (or two wildcard) paths share one iff they have the same non-empty segments and the same trailing-slash status; the expression path is the tree path under the http_expr label.", "quantifier": "all path strings", "why_tests_cant": "all strings including repeated slashes, trailing slashes and reserved segment names", "anchors": ["packages/ic-http-certification/src/tree/certification_tree_path.rs: HttpCertificationPath::to_tree_path, to_expr_path"]}
{"id": "C19", "title": "The more-specific-wildcard enumeration is exact and terminates", "statement": "For a request path and a responding wildcard path the enumeration terminates and yields exactly the wildcard paths that match the request and are strictly more specific than the responding one.", "quantifier": "all request paths and wildcard paths", "why_tests_cant": "a while loop over paths of any length; boundary cases with trailing slashes", "anchors": ["packages/ic-http-certification/src/utils/wildcard_paths.rs: more_specific_wildcards_for, is_wildcard_path_valid_for_request_path, strip_path_affixes"]}
{"id": "C20", "title": "HttpCertificationTree certifies exactly the inserted, not deleted entries", "statement": "After any history of insert/delete/clear, an entry's full tree path is in the tree iff it was inserted and not since removed.", "quantifier": "every history of entries of all three certification kinds and all paths", "why_tests_cant": "entries share path prefixes; deletion must not disturb others", "anchors": ["packages/ic-http-certification/src/tree/certification_tree.rs: insert, delete, clear"]}
{"id": "C21", "title": "HttpCertificationTree witnesses always verify against its root hash", "statement": "witness(entry, url) succeeds unless the wildcard is longer than the request path, never panics, and its digest equals root_hash(); it lets a verifier find the entry and see the absence of the exact path and of every more specific wildcard.", "quantifier": "every reachable tree, every entry and request URL", "why_tests_cant": "merging many witnesses for arbitrary trees and URLs", "anchors": ["packages/ic-http-certification/src/tree/certification_tree.rs: root_hash, witness, witness_wildcard"]}
{"id": "C22", "title": "Honest v2 responses verify (completeness)", "statement": "If an entry for a response was inserted in the certification tree, the tree root was certified in a valid certificate, and no better matching path exists in the tree, then the response with the generated IC-Certificate header is accepted by verify_request_response_pair with the certified content.", "quantifier": "every reachable tree, request, response, CEL expression and certificate meeting the premises", "why_tests_cant": "end-to-end composition of many components for all inputs", "anchors": ["packages/ic-http-certification/src/tree/certification_tree.rs: witness", "packages/ic-http-certification/src/utils/response_header.rs: add_v2_certificate_header", "packages/ic-response-verification/src/verification/verify_request_response_pair.rs: verify_request_response_pair"]}
{"id": "C23", "title": "Accepted v2 responses are certified (soundness)", "statement": "If verification returns Ok with a response, then the certified tree of the canister contains, under the claimed expression path, the hash of the claimed CEL expression and the request and response hashes computed from what was received (or a hash collision is exhibited).", "quantifier": "every request/response pair, however malformed, and every certified tree", "why_tests_cant": "adversarial headers, trees and encodings", "anchors": ["packages/ic-response-verification/src/verification/verify_request_response_pair.rs: verify_request_response_pair", "packages/ic-response-verification/src/validation/v2_validation.rs: validate_hashes, validate_expr_hash"]}
{"id": "C24", "title": "Accepted paths are the most specific certified path", "statement": "If verification accepts an expression path for a request URL then either it is the exact path of the URL, or the certified tree has no exact path for the URL and no wildcard that matches the URL more specifically (or a collision is exhibited).", "quantifier": "every accepted request/response pair and certified tree", "why_tests_cant": "downgrade attacks choose among all certified paths", "anchors": ["packages/ic-response-verification/src/validation/v2_validation.rs: validate_expr_path"]}
{"id": "C25", "title": "Only certified content is returned", "statement": "The headers in the returned verified response are exactly the received headers selected by the CEL expression plus IC-Certificate, and body and status are those covered by the verified response hash.", "quantifier": "every accepted response", "why_tests_cant": "header lists of any length, duplicates and case variants", "anchors": ["packages/ic-response-verification/src/types/verified_response.rs", "packages/ic-http-certification/src/hash/response_hash.rs: filter_response_headers", "packages/ic-response-verification/src/verification/verify_request_response_pair.rs: v2_verification"]}
{"id": "C26", "title": "Version negotiation is enforced", "statement": "Verification never succeeds with a version below the requested minimum or other than 1 or 2, and the reported version is the one in the header.", "quantifier": "all headers and minimum versions", "why_tests_cant": "header strings are arbitrary", "anchors": ["packages/ic-response-verification/src/verification/verify_request_response_pair.rs: verify_request_response_pair", "packages/ic-response-verification/src/verification/certificate_header.rs: CertificateHeader::from"]}
{"id": "C27", "title": "Skip-certification responses return no verified response", "statement": "When the certified expression says no certification, verification succeeds iff the certified tree holds the expression hash at the expression path, and no response content is vouched for.", "quantifier": "all requests/responses whose CEL expression maps to no certification", "why_tests_cant": "all responses and trees", "anchors": ["packages/ic-response-verification/src/verification/verify_request_response_pair.rs: v2_verification", "packages/ic-response-verification/src/validation/v2_validation.rs: validate_expr_hash", "packages/ic-http-certification/src/utils/skip_certification.rs"]}
{"id": "C28", "title": "Accepted v1 responses are certified", "statement": "If v1 verification succeeds, the SHA-256 of the (decoded or raw) body equals the leaf stored in the certified tree under http_assets and the request path, or under /index.html only when the former is not found.", "quantifier": "every request/response pair and certified tree", "why_tests_cant": "adversarial trees and bodies", "anchors": ["packages/ic-response-verification/src/verification/verify_request_response_pair.rs: v1_verification", "packages/ic-response-verification/src/validation/v1_validation.rs: validate_body"]}
{"id": "C29", "title": "Request hash ignores order and uncertified parts, and binds the certified ones", "statement": "The request hash is unchanged by reordering headers or changing uncertified headers/query parameters; equal request hashes imply equal certified projections (method, certified headers, certified query, body) or an exhibited collision.", "quantifier": "all pairs of requests and all certification settings", "why_tests_cant": "pairs of inputs of unbounded size", "anchors": ["packages/ic-http-certification/src/hash/request_hash.rs: request_hash"]}
{"id": "C30", "title": "Response hash ignores order and uncertified parts, and binds the certified ones", "statement": "Likewise for responses: status, certified headers and body are bound; header order, IC-Certificate, and uncertified headers are irrelevant.", "quantifier": "all pairs of responses and all certification settings", "why_tests_cant": "pairs of inputs of unbounded size", "anchors": ["packages/ic-http-certification/src/hash/response_hash.rs: response_hash, response_headers_hash, filter_response_headers"]}
{"id": "C31", "title": "Representation-independent hash is permutation invariant and binding", "statement": "hash_of_map (representation_independent_hash) depends only on the multiset of entries; equal hashes imply equal multisets up to an exhibited collision (modulo the value encoding's identifications).", "quantifier": "all lists of entries with nested array values, all permutations", "why_tests_cant": "all permutations and nested values", "anchors": ["packages/ic-representation-independent-hash/src/representation_independent_hash.rs: representation_independent_hash"]}
{"id": "C32", "title": "CEL expressions round-trip", "statement": "Parsing and mapping the string produced by create_cel_expr gives back the certification it was made from.", "quantifier": "all certification definitions with header/query names the grammar can carry", "why_tests_cant": "string builder against independent parser for all name lists", "anchors": ["packages/ic-http-certification/src/cel/create_cel_expr.rs", "packages/ic-response-verification/src/cel/parser.rs", "packages/ic-response-verification/src/cel/ast_mapping.rs"]}
{"id": "C33", "title": "CEL mapping accepts only well-formed certification expressions", "statement": "map_cel_ast succeeds only for the documented shapes: at most one of no_certification/certification, a response certification whenever there is a request certification, exactly one of certified headers / header exclusions.", "quantifier": "all CEL syntax trees", "why_tests_cant": "all malformed syntax trees", "anchors": ["packages/ic-response-verification/src/cel/ast_mapping.rs: map_cel_ast"]}
{"id": "C34", "title": "Certificate header round-trips and is parsed predictably", "statement": "The header produced by add_v2_certificate_header is parsed by the verifier to exactly the same certificate, tree, expression path and version; on arbitrary header strings the first occurrence of each known field wins and unknown fields are ignored. The version field is accepted exactly if it is a decimal number of at most 255, with leading zeros or one plus sign allowed. Adding the header leaves status, body and the other headers as they were, and the verifier reads the added header whatever headers of that name the response already had.", "quantifier": "all certificates, trees and expression paths; all header strings", "why_tests_cant": "encode/decode over all byte strings", "anchors": ["packages/ic-http-certification/src/utils/response_header.rs: add_v2_certificate_header", "packages/ic-response-verification/src/verification/certificate_header.rs: CertificateHeader::from", "packages/ic-response-verification/src/verification/certificate_header_field.rs"]}
{"id": "C35", "title": "Base64 fields round-trip", "statement": "Decoding the base64 produced for any byte string returns it, padded or not. The decoder accepts a text as a byte string exactly if it is base64 for it in the standard alphabet (RFC 4648): six bits per symbol, fewer than six unused bits with any value, and in an incomplete last group at most as many padding signs as are missing. What is written has the unused bits zero and, with padding, a length divisible by four.", "quantifier": "all byte strings", "why_tests_cant": "all lengths modulo 3 and all bytes", "anchors": ["packages/ic-response-verification/src/base64.rs"]}
{"id": "C36", "title": "CBOR hash trees round-trip", "statement": "parse_cbor of the CBOR serialisation of any hash tree returns that tree.", "quantifier": "all hash trees with labels/leaves of any encodable length", "why_tests_cant": "all lengths crossing the CBOR size-class boundaries and all depths", "anchors": ["packages/ic-certification/src/hash_tree/mod.rs: Serialize for HashTreeNode", "packages/ic-cbor/src/cbor_parse_hash_tree.rs: parsed_cbor_to_tree", "packages/ic-cbor/src/cbor_parser.rs: parse_cbor"]}
{"id": "C37", "title": "CBOR certificates, principal arrays and string arrays round-trip", "statement": "Certificates (with or without delegation), canister ranges and expression-path arrays are parsed back from their CBOR serialisation exactly.", "quantifier": "all certificates, principals and string lists", "why_tests_cant": "all sizes", "anchors": ["packages/ic-cbor/src/cbor_parse_certificate.rs", "packages/ic-cbor/src/cbor_parser.rs: parse_cbor_principals_array, parse_cbor_string_array"]}
{"id": "C38", "title": "The CBOR parser is total on arbitrary bytes", "statement": "On every byte string the CBOR parser terminates with a value or an error and never reads beyond the input; trailing bytes are rejected.", "quantifier": "all byte strings", "why_tests_cant": "adversarial inputs", "anchors": ["packages/ic-cbor/src/cbor_parser.rs: parse_cbor"]}
{"id": "C39", "title": "Certificate time window is exact", "statement": "A certificate is accepted by the time check iff its time differs from the current time by at most the allowed offset.", "quantifier": "all times and offsets", "why_tests_cant": "boundary and overflow cases", "anchors": ["packages/ic-certificate-verification/src/certificate_verification.rs: validate_certificate_time"]}
{"id": "C40", "title": "Certificate acceptance implies a signature chain to the root key", "statement": "verify succeeds only if the certificate's tree is signed by the root key, or by a subnet key whose delegation certificate is itself signed by the root key, has no further delegation, and whose ranges include the canister.", "quantifier": "all certificates, delegations, canister ids and keys", "why_tests_cant": "adversarial certificates", "anchors": ["packages/ic-certificate-verification/src/certificate_verification.rs: verify, verify_delegation, validate_certificate"]}
{"id": "C41", "title": "Canister ranges are checked inclusively in principal order", "statement": "A canister id is accepted by a delegation iff some range [low, high] contains it in the byte order of principals.", "quantifier": "all ids and range lists", "why_tests_cant": "ordering with differing lengths", "anchors": ["packages/ic-certificate-verification/src/certificate_verification.rs: principal_is_within_ranges"]}
{"id": "C42", "title": "The signature cache never changes a verdict", "statement": "For every history of verification requests, the cached verification returns Ok exactly when the uncached BLS verification would (or a hash collision among cache keys is exhibited), and the cache never exceeds its capacity.", "quantifier": "every history of (message, signature, key) requests", "why_tests_cant": "eviction and aliasing depend on history", "anchors": ["packages/ic-certificate-verification/src/signature_verification/signature_cache.rs", "packages/ic-certificate-verification/src/signature_verification/mod.rs: verify_signature"]}
{"id": "C43", "title": "DER public key extraction accepts exactly the documented encoding", "statement": "extract_der accepts a byte string iff it is the fixed 37-byte prefix followed by 96 key bytes and then returns those 96 bytes.", "quantifier": "all byte strings", "why_tests_cant": "all lengths and prefixes", "anchors": ["packages/ic-certificate-verification/src/certificate_verification.rs: extract_der"]}
{"id": "C44", "title": "Response certification requires the expression header", "statement": "HttpCertification::full and response_only succeed iff the response carries exactly one IC-CertificateExpression header (name compared case-insensitively) equal to the CEL expression being certified.", "quantifier": "all responses and expressions", "why_tests_cant": "arbitrary header lists", "anchors": ["packages/ic-http-certification/src/tree/certification.rs: HttpCertification::full, response_only, validate_response"]}
{"id": "C45", "title": "Asset requests are served from the certified asset with a verifying witness", "statement": "After certifying assets, serve_asset for a request path returns the exact asset if present, otherwise the fallback of the closest enclosing scope, and its witness digest is the router's root hash.", "quantifier": "all asset sets, configurations and request paths", "why_tests_cant": "scope walking and aliases over all paths", "anchors": ["packages/ic-asset-certification/src/asset_router.rs: serve_asset, get_asset_for_request, certify_assets"]}
{"id": "C46", "title": "Range responses partition the asset", "statement": "For large assets the ranged responses have contiguous, in-bounds, non-overlapping Content-Range values whose bodies concatenate to the asset.", "quantifier": "all asset sizes and range requests", "why_tests_cant": "chunk boundary arithmetic for all sizes", "anchors": ["packages/ic-asset-certification/src/asset_router.rs: insert_static_asset, prepare_asset_response_and_certification, parse_range_header_str"]}
{"id": "C47", "title": "Deleted assets are neither served nor certified", "statement": "After delete_assets / delete_all_assets the removed paths are not served and the root hash no longer certifies any of their responses.", "quantifier": "all histories of certify and delete", "why_tests_cant": "chunks, encodings, aliases and fallbacks over all histories", "anchors": ["packages/ic-asset-certification/src/asset_router.rs: delete_assets, delete_static_asset, delete_all_assets"]}
{"id": "C48", "title": "Encoding negotiation is sound", "statement": "The served encoding is the most preferred (br, zstd, gzip, deflate, identity) among those that the Accept-Encoding header lists (quality values are ignored) and that are available; if there is none, the unencoded response is served.", "quantifier": "all Accept-Encoding headers and encodings available", "why_tests_cant": "ordering over all header lists", "anchors": ["packages/ic-asset-certification/src/asset_router.rs: get_encodings / encoding priority, get_encoded_asset"]}
{"id": "C49", "title": "What the asset router serves verifies", "statement": "After any history of certify_assets and delete_all_assets calls, the answer of serve_asset to a GET request without body, query and Range header, served with a valid certificate of the router's root hash, is accepted by verify_request_response_pair, which returns its status, body and headers.", "quantifier": "all histories of calls, all asset sets and configurations, all request paths", "why_tests_cant": "depends on the agreement of two lookup algorithms (router and verifier) on every path and every history", "anchors": ["packages/ic-asset-certification/src/asset_router.rs: certify_assets, delete_assets, delete_all_assets, serve_asset, get_asset_for_request", "packages/ic-response-verification/src/verify_request_response_pair.rs: verify_request_response_pair"]}
{"id": "C50", "title": "Only what the asset router announced verifies against its root hash", "statement": "Every response accepted by verify_request_response_pair against a certificate of the router's root hash is one that a certify_assets call announced (status, body, headers), at the announced path, for a GET request without body whose query is absent exactly if that of the asset URL is, and for chunks without Range header; or a SHA-256 collision is exhibited.", "quantifier": "all histories of calls, all requests and responses of an adversary", "why_tests_cant": "adversarial responses", "anchors": ["packages/ic-asset-certification/src/asset_router.rs: certify_assets, serve_asset, prepare_response_and_certification", "packages/ic-response-verification/src/verify_request_response_pair.rs"]}
{"id": "C51", "title": "Switching certification off for a whole canister is complete, and switches everything off", "statement": "skip_certification_certified_data is the root hash of the certification tree whose one entry skips certification for every path. Against a certificate of it, every response with the headers of add_skip_certification_header is accepted for every request with a URL that can be parsed, and no accepted response is returned as verified (or a SHA-256 collision is exhibited).", "quantifier": "all requests and responses, all certificates of that root hash", "why_tests_cant": "adversarial requests and responses; every path", "anchors": ["packages/ic-http-certification/src/utils/skip_certification.rs: add_skip_certification_header, skip_certification_certified_data", "packages/ic-response-verification/src/verify_request_response_pair.rs"]}
{"id": "C52", "title": "What the asset router certified stays valid until it is deleted", "statement": "Every response announced by a successful certify_assets call remains certified, and verifies for plain requests of its URL against the router's current root hash, after any number of further certify_assets calls (successful or not), even if they certify other content for the same path and the router itself serves the new content. Only delete_assets with the old content or delete_all_assets revokes it.", "quantifier": "all histories of certify_assets calls", "why_tests_cant": "depends on every later history", "anchors": ["packages/ic-asset-certification/src/asset_router.rs: certify_assets, insert_static_asset", "packages/ic-response-verification/src/verify_request_response_pair.rs: verify_request_response_pair"]}
{"id": "C53", "title": "The root hash identifies the content, and changes only with it", "statement": "Two RbTrees, NestedTrees or HttpCertificationTrees with the same root hash hold the same entries (or a SHA-256 collision is exhibited). Inserting a value a key, path or entry already has, deleting one that is absent, and certifying the same assets again in the asset router leave the root hash unchanged. The converse does not hold: the same entries inserted in another order can have another root hash.", "quantifier": "all pairs of histories", "why_tests_cant": "ranges over all pairs of histories and is cryptographic", "anchors": ["packages/ic-certification/src/rb_tree/mod.rs: insert, delete, modify, root_hash", "packages/ic-certification/src/nested_rb_tree.rs: insert, delete, root_hash", "packages/ic-http-certification/src/tree/http_certification_tree.rs: insert, delete, root_hash", "packages/ic-asset-certification/src/asset_router.rs: certify_assets, root_hash"]}
{"id": "C54", "title": "The serde form of trees, delegations and certificates is faithful and strict", "statement": "Deserialize for HashTree accepts exactly the grammar [0] | [1 tree tree] | [2 bytes tree] | [3 bytes] | [4 hash]; for Delegation and Certificate exactly maps with the required fields, in any order, none missing, repeated or unknown (or the sequence of the parts). What Serialize writes is read back as the same object through a format that lends byte strings (serde_cbor on a slice); what serde_cbor writes is what ic-cbor reads, as the same object, and every tree that serde accepts from CBOR with short numbers ic-cbor reads the same way. Not so: trees with pruned nodes cannot be read from formats that do not lend strings, human-readable labels are not read back, and ic-cbor accepts extra elements.", "quantifier": "all trees, certificates and serde values, owned and borrowed storage", "why_tests_cant": "ranges over all encodings an adversary can send", "anchors": ["packages/ic-certification/src/hash_tree/mod.rs: serde_impl", "packages/ic-certification/src/certificate.rs: serde_impl", "packages/ic-certification/src/lib.rs: serde_impl"]}
{"id": "C55", "title": "Witnesses disclose only what was asked", "statement": "The witness RbTree::witness(k) of a stored key contains exactly that key with its value, and no other key's name or value. The witness of a missing key names at most the greatest stored key below it and the smallest above it, with their values pruned. key_range, value_range and keys_with_prefix name only keys in the range (with the prefix) and the nearest key on each side; only value_range shows values, and only of keys in the range; keys() shows every key and no value. NestedTree::witness(path) shows values only on the path (above or below it), and HttpCertificationTree::witness discloses leaves only on the entry's path, the requested URL's exact path and the wildcards between. The witness of a key has O(log n) nodes besides the value's tree.", "quantifier": "every history of operations, key, range, prefix, path, entry and URL, and every node of the returned witness", "why_tests_cant": "what a proof leaks about other entries depends on the shape of the whole tree; tests look up the requested key and never enumerate what else is visible for every tree", "anchors": ["packages/ic-certification/src/rb_tree/mod.rs: witness, nested_witness, key_range, value_range, keys_with_prefix, keys, lower_bound, upper_bound, right_prefix_neighbor", "packages/ic-certification/src/nested_rb_tree.rs: NestedTree::witness, merge_hash_trees", "packages/ic-http-certification/src/tree/certification_tree.rs: witness"]}
{"id": "C56", "title": "Test certificate builder makes the certificates it is asked for", "statement": "After any history of CertificateBuilder calls, build succeeds; the CBOR it returns parses back to the certificate it returns, which carries the certified data at the canister's path (or exactly the leaves of the custom tree). Certificate::verify accepts it with the returned root key if and only if the time set last (default 1651142233000005031, modulo 2^64) is in the window, with_invalid_signature was not called, and the ranges given last to with_delegation, if any, contain the canister. With both kinds of delegation it is refused for too many delegations; a nested delegation alone has no effect. The JavaScript interface behaves alike, with the time in milliseconds.", "quantifier": "all histories of builder calls, canister ids, data, times, ranges, key pairs, verification times and offsets", "why_tests_cant": "ranges over all builder histories; a builder that makes certificates which are wrongly accepted or refused hides defects of everything tested with it", "anchors": ["packages/ic-certification-testing/src/certificate_builder.rs: new, from_custom_tree, with_delegation, with_nested_delegation, with_time, with_invalid_signature, build", "packages/ic-certification-testing/src/certificate.rs: create_certificate_tree, create_delegation_tree", "packages/ic-certification-testing/src/encoding.rs", "packages/ic-certification-testing-wasm/src/certificate_builder.rs: CertificateBuilder", "packages/ic-certificate-verification/src/certificate_verification.rs: verify"]}
{"id": "C57", "title": "Builders and conversions of requests, responses and CEL expressions lose nothing", "statement": "A request, response or CEL expression built by any sequence of with_* calls has in each field the argument of the last call for it, else the default (GET, /, 200, empty, no certified headers). build_update equals the conversion of build, and the conversion keeps path, query and hashes. A response turned back into a builder keeps every field not set again. Two HttpResponses are equal exactly if status, body, upgrade are and the headers are up to order; this is an equivalence, and equal responses give the same certifications and response hashes.", "quantifier": "all histories of builder calls, all requests and responses", "why_tests_cant": "histories of any length and all pairs of responses", "anchors": ["packages/ic-http-certification/src/http/http_request.rs: HttpRequestBuilder, build, build_update, From<HttpRequest>", "packages/ic-http-certification/src/http/http_response.rs: HttpResponseBuilder, From<HttpResponse>, PartialEq", "packages/ic-http-certification/src/cel/cel_builder.rs: DefaultResponseOnlyCelBuilder, DefaultFullCelExpressionBuilder"]}
{"id": "C58", "title": "JavaScript verifyCertification accepts exactly the genuine, recent, matching tree", "statement": "verifyCertification returns a tree if and only if the agent accepts the certificate for the canister and root key, the tree is the one encoded, the certificate's time in whole milliseconds differs from now by at most maxCertificateTimeOffsetMs, and the certificate gives the digest of the tree as certified data of the canister. Whatever is then found in the returned tree is in the tree whose digest the canister certified, or a SHA-256 collision is exhibited. Its lookups find the same data as the Rust crate's on every pruning of a well-formed tree, and it reads the same time.", "quantifier": "all certificates, encoded trees, canisters, keys, times, offsets and paths", "why_tests_cant": "ranges over everything an adversary can send, and compares two implementations on all trees", "anchors": ["packages/certificate-verification-js/src/index.ts: verifyCertification, validateCertificateTime, validateTree"]}
{"id": "C59", "title": "Certified counter: the number displayed is the number of increments", "statement": "After any history of increments and upgrades of the certified-counter example canister, the frontend displays the answer of get_count with a current certificate exactly if there was an increment since the last upgrade (or the installation), and then displays the number of increments since (modulo 2^32, or stuck at 2^32-1 with overflow checks). Whatever anyone else answers, with a current certificate only the number certified by the last increment can be displayed (or a SHA-256 collision is exhibited), and nothing if there never was one.", "quantifier": "all histories of increments and upgrades, all answers and certificates", "why_tests_cant": "histories of any length, and all adversarial answers", "anchors": ["examples/certification/certified-counter/src/backend/src/lib.rs: inc_count, get_count, get_count_witness", "examples/certification/certified-counter/src/frontend/src/index.ts"]}
{"id": "C60", "title": "json-api example: GET /todos shows exactly the current todos, and nothing else verifies", "statement": "After any history of update calls and upgrades of the json-api example canister, GET /todos (no query, no body) is answered with status 200 and the JSON of exactly the current list of todos: created by POST /todos with ids 0, 1, 2, ..., changed by PATCH /todos/{id}, removed by DELETE /todos/{id}, emptied by an upgrade; calls that trap change nothing. This answer verifies. HEAD, PUT, OPTIONS, TRACE and CONNECT on /todos get a 405 that verifies, and the routed methods on other paths a 404 that verifies. No query is answered with anything but these three, each as JSON with the same security headers. Exactly POST to /todos and PATCH and DELETE to /todos/{id}, the method in any case, are to be repeated as update calls, and no other update call changes anything. Whatever anyone else answers, against the canister's current certificate only these responses verify for these requests (or a SHA-256 collision between named inputs is exhibited).", "quantifier": "all histories of update calls and upgrades, all enumeration orders of the hash map of items, all requests, answers and certificates", "why_tests_cant": "histories of any length, every hash-map enumeration order, and all adversarial answers", "anchors": ["examples/http-certification/json-api/src/backend/src/lib.rs: init, post_upgrade, http_request, http_request_update, certify_list_todos_response, certify_not_allowed_todo_responses, certify_not_found_response, certify_response, query_handler, create_todo_item_handler, update_todo_item_handler, delete_todo_item_handler"]}
{"id": "C61", "title": "JavaScript verifyRequestResponsePair does what the Rust function does", "statement": "Called with objects that stand for a request and a response (properties in any order, further properties ignored, bodies as Uint8Array or number array, texts as UTF-16), verifyRequestResponsePair of the JavaScript package returns an object that describes exactly the result of the Rust verification, or throws an error whose code identifies the kind of the Rust error, or fails where the Rust function does. The returned object determines the version, status, headers and body verified. A status that is not a number from 100 up to 999 (rounded towards zero), or a method that is not a token, is never verified; strings that are not UTF-16 are read with U+FFFD, and numbers in a body that are no bytes are rounded towards zero and reduced modulo 256, or read as zero if not finite.", "quantifier": "all request and response objects, keys, times, offsets and versions", "why_tests_cant": "ranges over all JavaScript objects and strings, and all responses an adversary can send", "anchors": ["packages/ic-response-verification-wasm/src/lib.rs: verify_request_response_pair", "packages/ic-response-verification-wasm/src/request.rs: request_from_js", "packages/ic-response-verification-wasm/src/response.rs: response_from_js", "packages/ic-response-verification/src/types/verified_response.rs: From<VerifiedResponse> for JsValue", "packages/ic-response-verification/src/types/verification_result.rs: From<VerificationInfo> for JsValue", "packages/ic-response-verification/src/error.rs: From<ResponseVerificationError> for ResponseVerificationJsError"]}
{"id": "C62", "title": "A router on a shared tree serves responses that verify beside the canister's own entries", "statement": "An asset router created with with_tree shares its certification tree with the canister. After any history of successful certify_assets calls, delete_all_assets calls, and direct insertions into the tree (and direct deletions of entries the router did not make), everything the router holds is certified and everything certified is held by the router or was inserted directly. A plain GET of a normal path that the router serves with a current certificate verifies with its status, headers and body, unless an entry the canister inserted directly takes precedence for that path. Entries inserted directly stay certified through certify_assets calls; delete_all_assets removes them too. Conversely, whatever verifies against a certificate of the shared root hash was announced by a certify_assets call or comes from an entry inserted directly, in either case certified now at the claimed expression path, and agrees with it in everything its definition covers, or a collision is exhibited.", "quantifier": "all histories of router calls and direct insertions and deletions, all requests and certificates", "why_tests_cant": "histories of any length, interleaving two writers of one tree", "anchors": ["packages/ic-asset-certification/src/asset_router.rs: with_tree, certify_assets, delete_all_assets, serve_asset", "packages/ic-http-certification/src/tree/certification_tree.rs: insert, delete, clear, witness"]}
{"id": "C63", "title": "assets example: the site shows the installed files, verified, and nothing else verifies", "statement": "After any installation and upgrades of the assets example canister, a GET (no query, body or Range) with a current certificate of any path but /metrics is answered with: a permanent redirect to / for /old-url; for the path of a file of the last directory installed, that file, in brotli or gzip if the client accepts it and a compressed version lies next to an HTML, JavaScript or CSS file; for every other path, index.html with status 200, likewise encoded. HTML, JavaScript and CSS carry the security headers. The answer verifies with its status, headers and body. /metrics is answered with the current metrics and accepted without being verified. Whatever anyone else answers for another path, against the canister's certificate only such a response verifies (or a SHA-256 collision between named inputs is exhibited).", "quantifier": "all directories as the frontend build makes them, all histories of upgrades, all orders of visiting the assets, all requests, answers and certificates", "why_tests_cant": "all directory trees, all paths and all adversarial answers", "anchors": ["examples/http-certification/assets/src/backend/src/lib.rs: init, post_upgrade, http_request, collect_assets, certify_all_assets, serve_metrics, serve_asset, get_asset_headers"]}
{"id": "C64", "title": "Honest version 1 responses verify, and only they; the version 2 fixture verifies", "statement": "After any history of insertions of bodies for paths in a version 1 asset tree: a response that delivers the last body inserted for the path of the request (plain, or compressed as its Content-Encoding header says, or as certified), with a valid certificate of the tree's root and the tree's witness for the path in its IC-Certificate header, is accepted as a version 1 response whenever version 1 is allowed; with the witness for /index.html, the body of /index.html is accepted for every path, even one with a body of its own; and whatever anyone answers, a response accepted against a certificate of the tree is of version 1 and delivers the last body inserted for the path of the request or for /index.html, or there is an explicit SHA-256 collision. The version 2 fixture made for a request path and certification always exists, and every response that agrees with the certified one verifies with the fixture's header, canister id and root key within the time window.", "quantifier": "all insertion histories, requests, responses, certificates, certifications and keys", "why_tests_cant": "unbounded histories and adversarial answers; the verification tests of the repository all rest on these helpers", "anchors": ["packages/ic-response-verification-test-utils/src/asset_tree.rs: AssetTree::new, insert, serialize, get_certified_data", "packages/ic-response-verification-test-utils/src/v2_certificate_fixture.rs: create_v2_tree_fixture, create_v2_header, create_v2_fixture", "packages/ic-response-verification-test-utils/src/certificate.rs: create_certificate_header, create_versioned_certificate_header", "packages/ic-response-verification/src/verification/verify_request_response_pair.rs: v1_verification", "packages/ic-response-verification/src/validation/v1_validation.rs: validate_body"]}
{"id": "C65", "title": "The CBOR readers accept exactly the documents of a grammar", "statement": "Whatever bytes the CBOR reader accepts are one CBOR data item (major types 0-7 with an argument of any width; tags and simple values before an item are skipped; a map may hold fewer pairs than declared), whole and with the value returned; conversely every item whose maps hold the declared number of pairs is read, in whatever non-canonical form it is written, if the stack holds as many calls and maps as many pairs as it has bytes. Bytes accepted as a hash tree, a certificate or canister ranges are an item that is this tree, certificate (the last values of the keys tree, signature, delegation; a delegation that is no map counts as none) or list of pairs of principals of at most 29 bytes, and every such item is accepted; exactly the arrays of strings in valid UTF-8 are accepted as lists of strings.", "quantifier": "all byte strings", "why_tests_cant": "adversarial and non-canonical encodings of any size and nesting", "anchors": ["packages/ic-cbor/src/cbor_parser.rs: parse_cbor, parser, extract_cbor_value, parse_cbor_principals_array, parse_cbor_string_array", "packages/ic-cbor/src/cbor_parse_hash_tree.rs: parsed_cbor_to_tree", "packages/ic-cbor/src/cbor_parse_certificate.rs: parsed_cbor_to_certificate"]}
{"id": "C66", "title": "The asset maps show exactly what the router holds", "statement": "After any history of router calls, iterating over get_assets or get_fallback_assets lists every held response exactly once, len is their number, and get finds a response exactly if the iteration lists it at that path, encoding and range. A successfully certified asset can be looked up until a call about its place: the whole asset without a range whatever its size, its i-th chunk with range i * 2000000, a fallback at its scope, a redirect at its source. After delete_all_assets (or in a new router) followed by one certification, the maps have an entry exactly for the places of the items announced. Certifying smaller content for the URL of a large asset leaves the chunks of the old content in place and they are still served.", "quantifier": "all histories of router calls, all paths, encodings and ranges, all iteration orders", "why_tests_cant": "histories of any length and arbitrary assets; hash-map iteration order is unspecified", "anchors": ["packages/ic-asset-certification/src/asset_map.rs: AssetMap::get, len, iter", "packages/ic-asset-certification/src/asset_router.rs: get_assets, get_fallback_assets, certify_assets, serve_asset"]}
{"id": "C67", "title": "custom-assets example: the site shows the built files, verified, and nothing else verifies", "statement": "The custom-assets example canister installs exactly if the build has an index.html and no directory matches one of the four patterns. After installation or an upgrade of it, a request with a current certificate of any normal path but /uncertified is answered with status 200 and: for the path of a built file that one of the four patterns matches, that file; for every other path, index.html; in brotli if the Accept-Encoding header mentions it and a compressed version is there, else gzip likewise, else plain; with content type, length, encoding, caching and security headers to match. The answer verifies with its status, content and headers. Whatever anyone answers for such a path, if it verifies against a certificate of the canister's state it is an offered version of that file (or of index.html) with all its headers, or a hash collision is exhibited. At /uncertified the current page is served and accepted, and so is anything else.", "quantifier": "all directories as the frontend build makes them, all requests, Accept-Encoding values, answers and certificates", "why_tests_cant": "all directories, all paths and all adversarial answers", "anchors": ["examples/http-certification/custom-assets/src/backend/src/lib.rs: init, post_upgrade, http_request, certify_all_assets, add_certification_skips, certify_index_asset, certify_asset_glob, certify_asset, certify_asset_with_encoding, certify_asset_response, asset_handler, get_asset_headers, create_asset_response, create_uncertified_response"]}
{"id": "C68", "title": "Comparing trees is a total order on their contents", "statement": "cmp on two maps built by any histories always answers, and the answer depends only on the entries: with k the smallest key where the maps differ, the first is Less iff both have k and its value is smaller, or only it has k and the other still has a larger key, or only the other has k and it has no larger key; Greater iff the same holds with the maps exchanged; Equal iff the maps hold the same entries, which is what == says. Exchanging the arguments reverses the answer, Less is transitive, and partial_cmp (so <, <=, >, >=) gives the answer of cmp for totally ordered values.", "quantifier": "all histories of insertions, deletions and modifications of the trees compared, all values of a totally ordered type", "why_tests_cant": "histories of unbounded length give trees of different shapes with the same entries; transitivity ranges over triples of trees", "anchors": ["packages/ic-certification/src/rb_tree/mod.rs: PartialOrd for RbTree::partial_cmp, Ord for RbTree::cmp, Iter::next"]}
{"id": "C69", "title": "Messages survive Candid encoding; malformed ones are refused", "statement": "Every request, response, update request and update response decodes from its Candid value to itself. A Candid value decodes as a request iff it is a record whose method is a nonempty token, url a text, headers a list of pairs of texts and body bytes, and as a response iff it has such headers and body and a status code from 100 to 999; the result has exactly these contents. certificate_version and upgrade are what is given there, as an option or not, and None if missing, null or of another type. Unknown fields and the order of fields play no role, and fields have the numbers the Candid specification gives their names. The value of a request decodes as an update request that forgets the version, likewise for responses, and the value of an update message decodes as a full message without the extra field.", "quantifier": "all messages and all Candid values another party may send", "why_tests_cant": "the values come from other programs, of any shape; every method text and every 16-bit status must be classified", "anchors": ["packages/ic-http-certification/src/http/http_request.rs: MethodWrapper::idl_serialize, MethodWrapper::deserialize, HttpRequest, HttpUpdateRequest", "packages/ic-http-certification/src/http/http_response.rs: StatusCodeWrapper::idl_serialize, StatusCodeWrapper::deserialize, HttpResponse, HttpUpdateResponse"]}
{"id": "C70", "title": "The skip-certification and upgrade-to-update-call examples", "statement": "Once the skip-certification example canister is installed, it answers every query that has a data certificate, at any time, with status 200, a page showing that time and a content-length header that is the page's length; with a valid certificate of the data its init set, the answer is accepted for every request with a parsable URL, and no response to any request is ever returned as verified under such a certificate, unless SHA-256 collides. The answer to a query of the upgrade-to-update-call canister decodes at the gateway to a response asking for an update call, and that of its update call to status 418 with the expected body.", "quantifier": "all requests, times, certificates, responses and minimum versions", "why_tests_cant": "adversarial answers and all times and requests", "anchors": ["examples/http-certification/skip-certification/src/backend/src/lib.rs: init, http_request, create_response", "examples/http-certification/upgrade-to-update-call/src/rust-backend/src/lib.rs: http_request, http_request_update", "packages/ic-http-certification/src/utils/skip_certification.rs: add_skip_certification_header, skip_certification_certified_data"]}
{"id": "C71", "title": "Errors report facts", "statement": "Every error returned by verify_request_response_pair, and by Certificate::verify, is true: a missing-part error means that the header, the field, the tree path or the key is indeed missing; a decoding error means that this field or delegated certificate does not decode; a version error that the version is below the minimum, or unknown; a time error that the certificate's time is more than the offset before or after the current time (or, without overflow checks, that the window leaves the range of u128); a signature error that the signature of the certificate that had to be checked, with the key it had to be checked with, is not valid; a range error that the canister is in none of the delegated ranges; an expression path error that the path has the wrong form, is not the request's, is not shown by the tree, or that the tree does not prove the absence of the exact path or of a more specific matching wildcard; a hash error that the tree does not show the entry for this request and response.", "quantifier": "all requests, responses, certificates, clocks, root keys, canisters, minimum versions and machines", "why_tests_cant": "every one of the 37 errors over all adversarial inputs", "anchors": ["packages/ic-response-verification/src/verification/verify_request_response_pair.rs: verify_request_response_pair, v1_verification, v2_verification", "packages/ic-response-verification/src/verification/certificate_header.rs: CertificateHeader::from", "packages/ic-response-verification/src/validation/v2_validation.rs: validate_expr_path, validate_expr_hash, validate_hashes", "packages/ic-certificate-verification/src/certificate_verification.rs: verify, verify_delegation, verify_certificate_time, verify_certificate_signature"]}
{"id": "C72", "title": "The only reasons not to return", "statement": "Certificate::verify returns unless now + offset or now - offset leaves u128 and overflow checks are on, the delegated certificate or its ranges do not decode without a crash of the CBOR decoder, the certificate has a delegation and the canister ID more than 29 bytes, or the BLS library panics on a key and signature that had to be checked. verify_request_response_pair returns unless that happens for the certificate in the header or the CBOR decoder crashes on a field of the header, or the CEL expression in the header is nested so deeply that reading it overflows the stack (which happens whatever the certificate is); in particular path matching and hashing never panic.", "quantifier": "all requests, responses, certificates, clocks, root keys, canisters, minimum versions and machines", "why_tests_cant": "absence of panics over all adversarial inputs", "anchors": ["packages/ic-response-verification/src/verification/verify_request_response_pair.rs: verify_request_response_pair", "packages/ic-certificate-verification/src/certificate_verification.rs: verify"]}
{"id": "C73", "title": "A verdict depends on nothing but the certified parts and the time window", "statement": "verify_request_response_pair gives the same verdict (the same content up to header order, the same error, or no return) for two request/response pairs that agree in the certificate header, the request path and - version 2 - the expression header and the parts the claimed CEL expression covers, - version 1 - the body and the content encoding; whatever else is added, removed, changed or reordered. The minimum version matters only through being above the header's version or not. The clock and the allowed offset matter only through the certificate's time being in the window or not: an accepted response stays accepted, with the same result, exactly as long as it is.", "quantifier": "all pairs of request/response pairs, minimum versions, clocks and offsets (not overflowing u128)", "why_tests_cant": "tests compare a few fixed pairs; independence is about all modifications of all pairs", "anchors": ["packages/ic-response-verification/src/verification/verify_request_response_pair.rs: verify_request_response_pair, v1_verification, v2_verification", "packages/ic-certificate-verification/src/certificate_verification.rs: verify, verify_certificate_time"]}
{"id": "C74", "title": "Witnesses and certificate headers stay small", "statement": "The proof a canister sends along with a response is small even when very much is certified. A range witness has at most a constant number of nodes per key of the range plus a multiple of the logarithm of the number of keys; a witness for a path of a nested tree has a number of nodes per label of the path that is logarithmic in the number of stored paths, plus what is stored below the path; so has the witness for an exact entry of the HTTP certification tree, and the witness for a wildcard entry has a number of nodes polynomial in the number of segments of the URL and logarithmic in the number of entries, plus what is certified at the wildcard path itself. The CBOR of a witness has at most a constant number of bytes per node beyond the longest label, and the certificate header has exactly four characters for every three bytes of the certificate, the witness and the expression path, and 48 besides.", "quantifier": "all histories of insert, delete, modify and clear, all ranges, prefixes, paths, entries, URLs, certificates and responses", "why_tests_cant": "the bound is about the growth over all tree sizes; a test measures one tree", "anchors": ["packages/ic-certification/src/rb_tree/mod.rs: key_range, value_range, keys_with_prefix, nested_witness", "packages/ic-certification/src/nested_rb_tree.rs: witness", "packages/ic-http-certification/src/tree/certification_tree.rs: witness", "packages/ic-http-certification/src/utils/response_header.rs: add_v2_certificate_header"]}
{"id": "C75", "title": "Text forms of labels and hashes are faithful", "statement": "The text of a label and of a hash can be relied on in logs, error messages and test fixtures. A label of visible ASCII characters is displayed between quotation marks as it is, every other label as 0x and its hexadecimal digits; labels that are displayed alike are equal, and so are labels with equal debug output. A pruned node read from hexadecimal text has exactly the hash that the text denotes, in either case; text of another length or with another character is refused with the error that names it; writing a hash and reading it back gives the same node. The debug output of whole trees has the documented form, and trees whose labels and contents are visible ASCII are equal if they are printed alike; other trees that differ may be printed alike.", "quantifier": "all labels, hashes, trees and hexadecimal texts", "why_tests_cant": "faithfulness is an injectivity statement over all byte strings; a test prints a few labels", "anchors": ["packages/ic-certification/src/hash_tree/mod.rs: Label, pruned_from_hex, HashTreeNode"]}
{"id": "C76", "title": "Failing calls of the asset router do no hidden damage", "statement": "certify_assets and delete_assets return an error exactly if a pattern is malformed, a URL to be certified does not parse, or a configured header is the expression header. A call refused for its pattern changes nothing. Any other failing call is not atomic, but what it leaves behind is limited: it has published (or withdrawn) some of the announced items, each completely, in the response maps and in the tree together, and changed nothing else; so everything the router holds is still certified. If the call publishes no encodings besides the plain one, the router stays in step with its tree, and what is served afterwards still verifies; with encodings this is false: the call may leave a URL certified in one encoding only, and clients that do not accept it get a fallback response that does not verify.", "quantifier": "all histories of router calls, failing or not, all assets, configurations, and points of failure", "why_tests_cant": "the point of failure can lie between any two items; a test exercises one failure and one state before it", "anchors": ["packages/ic-asset-certification/src/asset_router.rs: certify_assets, delete_assets"]}
{"id": "C77", "title": "Digests, hashes, signed messages, paths, keys and times are those of the public specifications", "statement": "What the library computes and accepts is, byte for byte, what the Internet Computer interface specification and the HTTP gateway protocol prescribe, so that certificates made by other implementations verify and the other way round: the digest of a tree is reconstruct with its four domain separators; the message checked against the signature is the separated root hash; the representation-independent hash sorts the concatenated name and value hashes; the request hash and the response hash are over the certified headers in lower case, the pseudo headers for method, query and status, and the body; the path of a URL in the tree is http_expr, its segments and the terminator; a time is a LEB128 number of at most 64 bits; trees, certificates and lists of texts are written as the CBOR of the specification with every head in its shortest form, and the version 2 header is certificate, tree, expr_path and version with padded base64 of self-described CBOR. For each of these the specification has exactly one result, and it is the library's.", "quantifier": "all trees, maps, requests, responses, certification lists, paths, certificates, keys and byte strings", "why_tests_cant": "a test compares a few vectors; a deviation for one order of hashes, one letter, one kind of path or one length of number stays unseen", "anchors": ["packages/ic-certification/src/hash_tree/mod.rs: HashTree::digest", "packages/ic-representation-independent-hash/src/representation_independent_hash.rs: representation_independent_hash", "packages/ic-http-certification/src/hash/request_hash.rs: request_hash", "packages/ic-http-certification/src/hash/response_hash.rs: response_hash", "packages/ic-http-certification/src/tree/certification_tree_path.rs: to_expr_path", "packages/ic-certificate-verification/src/certificate_verification.rs: extract_der, verify_certificate_signature"]}
{"id": "C78", "title": "Certification expressions are read by an unambiguous grammar", "statement": "The text of an IC-CertificateExpression header is accepted with a meaning exactly if it begins with a value of a grammar (strings, arrays, function calls and objects, with blanks allowed around every token, commas between elements and none at the end) and this value has that meaning; it is reported as a syntax error exactly if it does not begin with a value. No text begins with two values, the parser's choice of alternatives never rejects a text that the grammar has, and what follows the value does not change the result. Reading overflows the stack exactly if the text begins with as many nested arrays, calls and objects as the stack holds nested calls, which no expression written by this library does.", "quantifier": "all byte strings", "why_tests_cant": "the parser tries alternatives and commits to them; a test shows the result for one text, not that no text is lost to the wrong alternative", "anchors": ["packages/ic-response-verification/src/cel/parser.rs: parse_cel_expression", "packages/ic-response-verification/src/cel/ast_mapping.rs: map_cel_ast"]}
{"id": "C79", "title": "What is accepted was certified within the time window", "statement": "Assume a network whose subnets are honest: they sign only complete state trees, a signed state shows for a canister the certified data of the time it shows, and the root subnet delegates a range only to subnets that were in charge of it. If no signature of a received response is a forgery and the response is accepted at time `now` with offset `off`, then the root hash of its tree was the certified data of the canister at some time between `now - off` and `now + off`, unless a hash collision is exhibited. For version 1 the tree of that time had the hash of the body, as sent or decompressed, at the path or at /index.html; for version 2 with certification there was at that time an entry, inserted and not deleted since, at the expression path, made from a request and response that agree in all certified parts. For version 2 without certification there was at that time an entry saying so; for a canister with an asset router, the response was at that time one announced by certify_assets at this path, with the same status, body and headers. So once an entry is gone for longer than the offset, no response made with it is accepted any more. The same holds of the JavaScript verifyCertification, with times in whole milliseconds: the number the frontend of the certified counter displays is the one the counter had at its last increment before some time in the window.", "quantifier": "all histories of a canister's tree, networks, certificates (with or without delegation), requests, responses, times and offsets", "why_tests_cant": "a test shows that one old response is refused; that no old certificate, tree or response can be combined with others to bring back deleted content needs a proof over all histories and all recombinations", "anchors": ["packages/ic-response-verification/src/verification/verify_request_response_pair.rs: verify_request_response_pair", "packages/ic-response-verification/src/validation/common_validation.rs: validate_tree", "packages/ic-certificate-verification/src/certificate_verification.rs: verify, verify_delegation, verify_certificate_time, verify_certificate_signature"]}
{"id": "C80", "title": "Every path can be requested, escapes are decoded once, and the asset router cannot publish paths with spaces", "statement": "get_path of a request whose URL is the percent-encoding of a path (of UTF-8 text, within the length limit of the URL library) is this path; escapes in the path itself are not decoded a second time. After any history of calls, serve_asset answers a request whose decoded path contains a space with a fallback or with NoAssetMatchingRequestUrl, never with an asset of its own: certify_assets refuses a path with a space, and an asset published under the escaped path is found only by requests that escape it twice.", "quantifier": "all paths, methods, headers and bodies; all histories of router calls, all assets and configurations", "why_tests_cant": "All byte strings as paths and all call histories; tests use plain ASCII paths.", "anchors": ["packages/ic-http-certification/src/http/http_request.rs: HttpRequest::get_path", "packages/ic-asset-certification/src/asset_router.rs: AssetRouter::certify_assets, AssetRouter::serve_asset"]}
{"id": "C81", "title": "Reading a response takes memory and hashing in proportion to its size", "statement": "A hash tree read from CBOR has at most one node for every two bytes of the document, and no more bytes in labels, leaves and hashes than the document; a list of texts has no more texts and bytes than the document; no part of a certificate is larger than the document. The root hash of a tree takes one call of the hash function for each node, on at most 81 bytes for each node besides the bytes in the tree. So whatever certificate header of n characters is sent, what is read out of it has at most 3n/4 bytes, and the root hashes of its trees, and of the tree in the delegation, take at most 31 n hashed bytes each. For a request path the verifier looks up at most two wildcard paths for each segment, and two besides.", "quantifier": "all byte strings, header texts, trees, request and expression paths", "why_tests_cant": "No set of inputs bounds the cost of the others: a small input with a huge result would have to be known to be tested.", "anchors": ["packages/ic-cbor/src: parse_cbor, HashTreeCbor, CertificateToCbor", "packages/ic-certification/src/hash_tree/mod.rs: HashTree::digest", "packages/ic-response-verification/src/types/certificate_header.rs: CertificateHeader::from", "packages/ic-http-certification/src/tree/wildcard_paths.rs: more_specific_wildcards_for"]}
{"id": "C82", "title": "Updating a tree hashes only logarithmically many nodes", "statement": "Whatever happened to the tree before, with n entries in it, insert computes the hashes of at most 10 log2(n+1) + 1 nodes, delete of at most 18 log2(n+1) and of none if the key is absent, and modify of at most 2 log2(n+1) besides what its closure does. A history of m updates from the empty tree hashes at most m (18 log2(m+1) + 1) nodes. In a nested tree with n leaves insert hashes at most 12 log2(n+2) + 1 nodes for each segment of the path, and delete at most 20 log2(n+1); so do inserting and deleting entries of the HTTP certification tree, for each segment of the entry's tree path.", "quantifier": "all histories of updates, all keys, paths and values", "why_tests_cant": "A test measures some trees; that no history makes an update expensive, as one that unbalanced the tree or rehashed it whole would, is about all of them.", "anchors": ["packages/ic-certification/src/rb_tree/mod.rs: RbTree::insert, RbTree::delete, RbTree::modify", "packages/ic-certification/src/nested_rb_tree.rs: NestedTree::insert, NestedTree::delete", "packages/ic-http-certification/src/tree/certification_tree.rs: HttpCertificationTree::insert, HttpCertificationTree::delete"]}
