# Formal model of dfinity/response-verification

Lean 4 model under `lean/Verif/`. `/repo` is read as text only; nothing of it is executed. Every definition in a
*model* file carries a comment with the file and line range it models and says where it simplifies.

* `Verif/Model/*` — the code, function by function.
* `Verif/Spec/*` — small specification vocabulary (relations, histories of calls, what a "leaf", a "window", a "collision"
  is), independent of the model's helper functions.
* `Verif/Lemmas/*` — proofs that carry no claim of their own.
* `Verif/Props/*` — the theorems claimed in MANIFEST.json, `Cnn_…`, each file with concrete instances (`example`) showing
  that the hypotheses are met by non-trivial cases, and counterexample theorems where the property fails of the code.

* `Verif/Conformance/*` — the repository's own unit-test vectors (with the real SHA-256, `Spec/Sha256.lean`), evaluated on
  the model by the kernel. These are *tests of the modelling*, not properties: they check on the repository's expected
  values that the model computes what the Rust code computes. No claim in MANIFEST.json rests on them.

This file is generated by `tools/gen_design.py` from the text in `tools/design_*.md` and the property list.

## Conventions

* Byte strings are `Bytes := List UInt8` with Rust's lexicographic slice order. Rust strings are their UTF-8 bytes.
* SHA-256 is a *parameter* (`[SHA]`: one function `sha : Bytes → Hash`, `Hash` = byte strings of length 32). No property
  of it is assumed. Binding theorems never assume injectivity (false of every such function); they say "conclusion, or
  here are two different strings, one hashed on the left and one hashed on the right, with equal hashes" (`CollisionIn`),
  where both strings are inputs that the two computations at hand really hash. An existential over *all* strings would be
  trivially true by counting, so it is never used.
* Panics (unwrap on None, explicit panic!, index out of bounds, stack overflow) are outcomes of the model: `none`,
  `CRes.crash` or `Out.crash`. "Never panics" is a theorem that the outcome is another one. Arithmetic overflow is
  modelled where it can occur (`checks : Bool` distinguishes debug and release builds).
* `&mut` functions return the new value. Loops become structural recursion or take fuel; when there is fuel, a theorem
  shows that the fuel used at the call site always suffices, or the fuel is the machine's stack and running out is a crash.
* The stack: recursion in the two parsers (`parser` for CBOR, `cel_value`) is bounded by `Machine.stack` and `Machine.celStack`,
  which are arbitrary, except that the second is at least 10. Functions that recurse over a tree already in memory (`digest`,
  `lookup_path`, `merge_hash_trees`, `drop`) are assumed to have stack enough: such a tree came out of the parser, whose frames are
  larger, or out of the library's own balanced trees.
* Histories (of tree operations, router calls, builder calls, cache accesses of several threads) are lists of calls of
  any length; nothing is bounded.
* A property that is false of the code in corner cases keeps its full statement in properties.jsonl; the theorem with the
  exact proviso has the suffix `_partial`, and `Cnn_counterexample_…` theorems exhibit the failing case, evaluated by the
  kernel (`decide +kernel`, `rfl`), on the same model.

## Trusted base

1. Lean 4.33.0's kernel. Axioms: see the last section; only `propext`, `Classical.choice`, `Quot.sound`.
2. The reading of the Rust source into `Verif/Model` (the comments give the lines), and the specification files.
3. Behaviour of libraries, in two groups.
   * *Parameters, about which nothing is assumed beyond what a theorem's hypotheses state*: SHA-256, BLS signature
     verification (`Bls.verify`) and signing (`BlsSign`), `http::Uri` parsing and `urlencoding` (`UriLib`), glob matching
     (`GlobLib`), gzip/deflate (`Inflate`), the order `sort_unstable_by` gives to equal elements (`UnstableSort`),
     conversion of labelled trees by `ic-crypto-tree-hash` (`TreeLib`), subnet test ids (`SubnetIds`), the iteration order of
     `HashMap` in certify_assets (an arbitrary permutation).
   * *Modelled from knowledge of the library*: nom 7.1.3 combinators used by the CEL and CBOR parsers, serde_cbor 0.11.2
     encoding and self-describe tag, serde derive / serde_bytes visitors (C54), base64 0.21.7 STANDARD engine, leb128 0.2.5,
     `http` 0.2.12 header/status types, `cached::SizedCache`, candid `Principal::from_slice`, `str::to_lowercase` on header
     names (ASCII lowering: no other character lowers to the names compared), Rust `sort`, `BTreeMap`, UTF-8 validation.

## What is modelled, file by file

| package / file | modelled | not modelled |
|----|----|----|
| ic-certification/src/hash_tree/mod.rs | constructors, digest, lookup_label, lookup_path, lookup_subtree, list_paths, serde (C54), Display and Debug of labels, Debug of trees, pruned_from_hex (C75) | the pretty form `{:#?}`, Arc/Clone |
| ic-certification/src/rb_tree/mod.rs | everything but debug helpers: get, insert, delete, modify, iter, witness, ranges, prefix, nested_witness, root_hash, PartialEq, Ord (C68) | Debug; the unsafe-free pointer representation (boxes are values) |
| ic-certification/src/nested_rb_tree.rs | all functions incl. merge_hash_trees | Debug |
| ic-certification/src/certificate.rs | Certificate, Delegation, serde | |
| ic-cbor/src/* | cbor_parser, hash tree, certificate, principal and string arrays | log output |
| ic-representation-independent-hash | all | |
| ic-http-certification/src/hash, cel, tree, utils, http | request/response hashes, CEL types, builders and printing, certifications, paths, tree, wildcards, v2 header, skip certification, request/response builders and equality (C57) | the binary form of Candid (values are modelled, C69), Debug output |
| ic-certificate-verification/src/* | verify, time, delegation, ranges, DER key, signature cache with concurrency | reproducible_rng, pairing arithmetic |
| ic-response-verification/src/* | verify_request_response_pair (v1 and v2), header parsing, CEL parser and mapping, the decompression loop, base64 | error text |
| ic-asset-certification/src/* | asset configuration and normalisation, certify/delete/serve, ranges, encodings, AssetMap | candid, `'static` borrowing |
| ic-certification-testing/src/*, ic-certification-testing-wasm/src/* | CertificateBuilder and its JavaScript wrapper (C56) | key generation, conversion of JavaScript objects |
| certificate-verification-js; examples: certified-counter, json-api | verifyCertification (C58), counter (C59), todo API (C60) | agent-js internals, browser code |
| examples: custom-assets | certification of the directory, choice of the encoding, serving, uncertified page (C67) | the glob matcher (a parameter), `include_dir`, the text of the uncertified page |
| examples: assets | directory collection, certification, serving, metrics, upgrades (C63) | JSON of the metrics; `include_dir` |
| ic-response-verification-wasm | conversion of requests, responses, results and error codes (C61) | error message texts; values outside the TypeScript interface |
| ic-response-verification-test-utils | Model/TestUtils: AssetTree, header makers, version 2 fixture (C64); ic-response-verification-tests: not modelled (tests) | |


## Plan per property

| id | property | what is modelled | how it is proved | status | theorems (prefix `Cnn_`) |
|----|----------|------------------|------------------|--------|----------|
| C01 | Found lookups on any digest-equal tree are truthful | HashTree digest, lookup_path, lookup_subtree | relation `Prunes` between trees; induction on both trees at once, extracting a collision where the digests agree but the nodes do not | proved | found_is_true, found_subtree_is_true |
| C02 | Absent lookups on any digest-equal tree are truthful | as C01, lookup_label | order of labels in well-formed trees; the gap seen by the lookup is a gap of the certified tree | proved | absent_path_is_true, absent_subtree_is_true, no_contradiction, needs_wellformed |
| C03 | The digest determines the tree up to pruning | digest | collision extraction; pruning keeps the digest by induction | proved | digest_binds, digest_injective, prune_keeps_digest |
| C04 | The two lookups agree and lookups always terminate with the documented verdict | lookup_path, lookup_subtree | induction on the path and on the tree | proved | found_iff, other_verdicts, exact_on_full |
| C05 | list_paths enumerates exactly the visible leaves | list_paths | induction on the tree | proved | list_paths, list_paths_wf |
| C06 | RbTree is a map under every operation history | RbTree insert, delete, modify, get | refinement of the LLRB tree to a finite map over every history | proved | map |
| C07 | RbTree operations never panic and keep the tree balanced | all RbTree operations with their panics (`Option`) | LLRB invariants (black height, left leaning, order, stored hashes); height bound | proved | no_panic_balanced |
| C08 | The incrementally maintained root hash is the digest of the full tree | stored subtree hashes | invariant: stored hash = recomputed digest | proved | root_hash, full_tree_content |
| C09 | Every RbTree witness has the root hash as its digest | witness, key_range, value_range, nested_witness | each witness `Prunes` the full tree, hence C03 | proved | witness_digest, any_range_digest, nested_witness |
| C10 | RbTree witnesses prove membership and non-membership | witness | lookup on the witness computed by cases on the neighbours | proved | witness_decides |
| C11 | Range and prefix witnesses are complete | key_range, value_range, keys_with_prefix | characterisation of lower_bound/upper_bound/right_prefix_neighbor | proved | ranges_decide |
| C12 | Iteration is the sorted content | Iter state machine | invariant of the visit stack; sortedness | proved | iteration, eq_iff_same_content |
| C13 | NestedTree is a map from paths to leaves under every history | NestedTree insert, delete, modify | refinement to a map on paths | proved | path_map, insert, delete |
| C14 | NestedTree deletion leaves no empty husk | NestedTree delete | invariant: no empty subtree | proved | no_husk, empty_again |
| C15 | NestedTree root hash and witnesses are coherent | NestedTree root_hash, as_hash_tree, witness | as C08/C09 one level up | proved | hashes, full_tree_content |
| C16 | NestedTree witnesses decide the witnessed path | NestedTree::witness | induction on the path over C10 | proved | witness_decides |
| C17 | Merging witnesses of one tree never panics and loses nothing | merge_hash_trees | merge is the least upper bound for `Prunes` below a common tree | proved | merge, merge_many |
| C18 | HTTP paths map to tree paths unambiguously | HttpCertificationPath | list/string induction (split, join) | proved | exact_ne_wildcard, exact_inj, wildcard_inj, expr_path, segments |
| C19 | The more-specific-wildcard enumeration is exact and terminates | more_specific_wildcards (tree and verifier versions) | exact characterisation of the enumeration; counterexamples evaluated in the kernel | partial | terminates, exact_tree_partial, exact_verifier_partial, no_match_lists_all, all_inputs, counterexample_prefix, counterexample_suffix |
| C20 | HttpCertificationTree certifies exactly the inserted, not deleted entries | HttpCertificationTree insert, delete | refinement to a set of tree paths via C13; injectivity of entry paths | proved | entries, clash, imitation, api_no_clash, entries_api |
| C21 | HttpCertificationTree witnesses always verify against its root hash | HttpCertificationTree::witness | C16 + C17 + C19 | partial | exact_witness, wildcard_error, wildcard_witness, all_inputs, wildcard_settles_url_partial |
| C22 | Honest v2 responses verify (completeness) | generator and verifier together | composition of C21, C34–C37, C29–C33 | partial | complete_partial, exact, counterexample_first, counterexample_last, counterexample_between |
| C23 | Accepted v2 responses are certified (soundness) | verify_request_response_pair, v2 | case analysis of the verifier + C01, C20, C29–C31 | proved | end_to_end, sound |
| C24 | Accepted paths are the most specific certified path | path validity checks of the verifier | C02 on every more specific path | partial | best_path_partial, all_inputs, api_tree, counterexample |
| C25 | Only certified content is returned | verified response construction | case analysis | proved | returned |
| C26 | Version negotiation is enforced | version negotiation | case analysis | proved | text, version, rejects, missing |
| C27 | Skip-certification responses return no verified response | skip certification in the verifier | case analysis + C23 | proved | end_to_end, counterexample_hidden, skip, only_skip |
| C28 | Accepted v1 responses are certified | v1 validation | case analysis + C01 | proved | decompress, decompress_error, sound, accepts, counterexample_index |
| C29 | Request hash ignores order and uncertified parts, and binds the certified ones | request_hash | sorting/permutation, filter lemmas, collision extraction | proved | ignores_uncertified, header_order, error, binding, query_binding, pseudo_clash |
| C30 | Response hash ignores order and uncertified parts, and binds the certified ones | response_hash | as C29 | proved | ignores_uncertified, drop_uncertified, binding, body_hash_override |
| C31 | Representation-independent hash is permutation invariant and binding | representation_independent_hash | permutation invariance of sorting; collision extraction | proved | perm, same, binding, numbers, strings |
| C32 | CEL expressions round-trip | CEL printer, nom parser | parser/printer round trip by induction on lists and characters | proved | roundtrip, plain_roundtrip, injective, counterexample_quote, counterexample_underscore |
| C33 | CEL mapping accepts only well-formed certification expressions | CEL AST mapping | relational grammar; both directions | proved | accepts_exactly_documented |
| C34 | Certificate header round-trips and is parsed predictably | CertificateHeader::from, response_header | induction on the fields | proved | first_field_wins, version_decimal, roundtrip, added, last_wins, version_iff |
| C35 | Base64 fields round-trip | base64 engine | bit arithmetic and induction on triples | proved | roundtrip, injective, alphabet, unambiguous, decodes, encodes |
| C36 | CBOR hash trees round-trip | ic-cbor hash tree parser and serializer | round trip by induction on the tree; stack depth explicit | proved | tree_roundtrip, tree_injective |
| C37 | CBOR certificates, principal arrays and string arrays round-trip | certificate and array parsers | round trip on top of C36 | proved | certificate_roundtrip, ranges_roundtrip, strings_roundtrip |
| C38 | The CBOR parser is total on arbitrary bytes | whole ic-cbor parser with panics and stack | progress argument; counterexamples | partial | total_partial, counterexample_map, counterexample_stack, trailing_rejected, trees_trailing, consumes, counterexample_truncated, counterexample_principal, documents_partial, ranges_exact |
| C39 | Certificate time window is exact | validate_certificate_time, LEB128 | arithmetic | partial | time_roundtrip, accepted_in_window, window_exact_partial, counterexample_underflow, all_inputs, outcomes |
| C40 | Certificate acceptance implies a signature chain to the root key | Certificate::verify, delegation | case analysis + C01; relational chain specification | proved | chain, accepts |
| C41 | Canister ranges are checked inclusively in principal order | canister range check | order lemmas | proved | delegation, ranges, order |
| C42 | The signature cache never changes a verdict | signature cache (SizedCache, mutex) | invariant over all interleavings; key injectivity up to collision | proved | cache_transparent, request_lengths |
| C43 | DER public key extraction accepts exactly the documented encoding | extract_der | list arithmetic | proved | extract_der, errors, der |
| C44 | Response certification requires the expression header | HttpCertification constructors | induction on headers | proved | response_only, full, errors |
| C45 | Asset requests are served from the certified asset with a verifying witness | AssetRouter certify_assets, serve_asset | state invariant, frame lemmas | proved | certify_succeeds, certify, certify_tree, held, serve, serve_errors, total, files, frame, stays, place, place_fallback |
| C46 | Range responses partition the asset | chunking | list arithmetic | proved | partition, chunk, ask, serve, reassemble, bounded, misaligned, decimal |
| C47 | Deleted assets are neither served nor certified | delete_assets, delete_all_assets | effects on maps and tree | partial | delete, delete_tree_partial, delete_all, not_served, undo, counterexample_chunks |
| C48 | Encoding negotiation is sound | Accept-Encoding negotiation | sortedness | proved | negotiate, unlisted, sort, refused, default |
| C49 | What the asset router serves verifies | router + verifier | in-step invariant between router maps and tree, + C22 | partial | found, counterexample_slashes, counterexample_first, counterexample_last, counterexample_query, start, certify, delete_all, delete, in_step, verifies_partial, counterexample_scope |
| C50 | Only what the asset router announced verifies against its root hash | router + verifier, adversarial response | C23 + exact tree content | proved | only_announced |
| C51 | Switching certification off for a whole canister is complete, and switches everything off | skip_certification | evaluation + C27 | proved | data, accepts, only_skip |
| C52 | What the asset router certified stays valid until it is deleted | router histories | monotonicity of the tree content | proved | persists, only_delete, replay, old_content |
| C53 | The root hash identifies the content, and changes only with it | root_hash | C03 + C08; idempotence | proved | root_binds, nested_root_binds, unchanged, nested_unchanged, http_root_binds, http_unchanged, certify_again, counterexample_order |
| C54 | The serde form of trees, delegations and certificates is faithful and strict | serde visitors for trees, delegations, certificates | relational grammar; both directions | proved | tree, delegation, certificate, roundtrip, cbor, readers_agree, ic_cbor_follows, counterexample_extra, counterexample_pruned, owned_without_pruned, counterexample_label |
| C55 | Witnesses disclose only what was asked | witness generation | every visible node of a witness classified | proved | present, absent, ranges, nested, nested_values, http, small |
| C56 | Test certificate builder makes the certificates it is asked for | CertificateBuilder | history of calls + C37, C39–C41 | proved | builds, custom, verifies, nested, numbers, js, js_clock |
| C57 | Builders and conversions of requests, responses and CEL expressions lose nothing | request, response and CEL builders | history of calls; sorted lists equal iff permutations | proved | request, response, rebuild, update, cel, eq, eq_equiv, eq_certification, status |
| C58 | JavaScript verifyCertification accepts exactly the genuine, recent, matching tree | verifyCertification of certificate-verification-js, agent-js lookup and LEB decoding | case analysis; agreement of the two lookups on prunings by induction | proved | accepts_iff, data, lookups_agree, time |
| C59 | Certified counter: the number displayed is the number of increments | certified-counter canister and its frontend as a state machine | invariant over histories of increments and upgrades; C58 | proved | shows, only |
| C60 | json-api example: GET /todos shows exactly the current todos, and nothing else verifies | json-api canister: routers, handlers, stored responses, tree, certified data as a state machine | refinement to an abstract list of todos by an invariant over histories; C22, C23, C27 for what verifies | proved | security, errors, list, not_allowed, not_found, only, upgrade, changes_announced, answered, ids, served |
| C61 | JavaScript verifyRequestResponsePair does what the Rust function does | JavaScript values, request_from_js, response_from_js, result and error conversion | folds over property lists in any order; UTF-16 round trip by induction; case analysis of the verifier for the headers returned | proved | agrees, result_unique, codes, status, text, body_numbers, any_objects, reads_one, any_text |
| C62 | A router on a shared tree serves responses that verify beside the canister's own entries | router calls interleaved with direct operations on the shared tree | in-step invariant over histories; precedence of direct entries excluded by hypothesis; C22 for verification | proved | start, certify, delete_all, insert, delete, in_step, verifies, kept, wiped, only |
| C63 | assets example: the site shows the installed files, verified, and nothing else verifies | the assets example canister on top of the router model; site defined from the directory alone | what the router holds (C45) computed for the six configurations; C62 for verification; C24, C23, C27 for nothing else | proved | shows, run, installs, verifies, metrics, only, security |
| C64 | Honest version 1 responses verify, and only they; the version 2 fixture verifies | AssetTree, its witness and CBOR, the two header makers, the version 2 fixture on CertBuilder; histories and delivery in Spec/TestUtils | insertion histories as red-black histories (C08, C04) for completeness and C28 for soundness; the fixture by complete_core and the builder theorem C56 | proved | header, verifies, index, only, fixture |
| C65 | The CBOR readers accept exactly the documents of a grammar | the reader of Model/Cbor against a separate inductive grammar (Spec/CborGrammar) | induction on the stack depth (sound) and mutual induction on the grammar (complete); value level by the recursion of the converters | proved | describes, reads, unambiguous, tree_accepted, tree_read, certificate_accepted, certificate_read, certificate_exact, strings, ranges_accepted, ranges_read |
| C66 | The asset maps show exactly what the router holds | the `AssetMap` trait over the tables of Model/Asset; iteration of a hash map as a relation (each entry once, any order) | finiteness of the tables by induction on the effects; the rest from C45 (what is held) and C46 (what is served) | proved | iter, get, lookup, exact, stale |
| C67 | custom-assets example: the site shows the built files, verified, and nothing else verifies | the custom-assets example canister on top of the models of the certification tree, certifications and headers; the served version defined from the directory and the Accept-Encoding header alone | the list of insertions computed from the directory; what the response maps hold by induction over it; verification from completeness (C39) and nothing else from soundness (C38) | proved | serves, uncertified, installs, only, security, uncertified_headers |
| C68 | Comparing trees is a total order on their contents | Iterator::cmp and partial_cmp on the modelled tree iterator; MapLess, the order in terms of get alone | the iterator yields the sorted entries (C12), lexicographic comparison by induction on them, exclusivity of MapLess | proved | cmp, order, partial_cmp |
| C69 | Messages survive Candid encoding; malformed ones are refused | Candid values with field ids computed by the real hash of the names; the derived and hand-written (de)serialisers | case analysis on the value; field ids distinct by evaluation; the 256 method characters by evaluation over all bytes | proved | method, request, response, decode_request, decode_response, decode_update, field_numbers |
| C70 | The skip-certification and upgrade-to-update-call examples | the two canisters on top of the models of the skip helpers, builders and Candid values | from C51 (skipping for a whole canister) and C69 (Candid round trip) | proved | skip, skip_only, upgrade, motoko |
| C71 | Errors report facts | all of the verifier (Model/Verify, Model/Header, Model/CertVerify); the table of facts is Spec/Errors.lean | case analysis along the calls; the loop over the header fields by induction; more specific wildcards by the enumeration lemmas of C19 | proved | certificate, errors |
| C72 | The only reasons not to return | as C71 | the same case analysis, with the outcome 'does not return' | proved | certificate, aborts, expression |
| C73 | A verdict depends on nothing but the certified parts and the time window | verify_request_response_pair, certificate verification | relational (two-run) case analysis of the verifier; C29, C30 for the hashes; C39 for the time | proved | nothing_else, minimum, time, lifetime |
| C74 | Witnesses and certificate headers stay small | the models of the range witnesses, the nested witness, the witness of the certification tree, the CBOR encoder and the header text; size is the number of nodes (Spec/Show.lean) and the number of bytes | the depth of a valid red-black tree is at most twice the logarithm of its size (C08); induction over range witnesses with a weight per entry; a level per label for nested witnesses; the whole tree below a path by partitioning the stored paths by their first label; merging adds no nodes; the enumeration of wildcards has one entry per more specific prefix; CBOR and base64 lengths by induction | proved | key_range, value_range, prefix, nested, exact, wildcard, bytes, header |
| C75 | Text forms of labels and hashes are faithful | Display and Debug of labels, Debug of trees, hex decoding (Model/LabelText.lean) over the UTF-8 model | an inductive relation between hexadecimal text and bytes, shown to be functional and to be met by encoder and decoder; visible ASCII characterised through the UTF-8 lemmas; ambiguity by two concrete trees | proved | debug_text, debug_faithful, label_display, label_unambiguous, pruned_from_hex, hex_errors, hex_roundtrip, debug_ambiguous |
| C76 | Failing calls of the asset router do no hidden damage | the calls of the asset router as effects with a result, which stop at the first failure (Model/Asset.lean) | a failing call is a prefix of the sequence of items, cut between whole pages; the maps and the tree are folds over this prefix; C49's invariant for prefixes without encodings; the case with encodings by a concrete history evaluated in the kernel | proved | delete_succeeds, bad_pattern, certify, delete, certified, certify_in_step, in_step, counterexample_encodings |
| C77 | Digests, hashes, signed messages, paths, keys and times are those of the public specifications | the formulas of the specifications as functions and relations of their own (Spec/Interface.lean), sharing with the model only the data types and SHA-256 | structural induction for the digest; for the others each relation is shown to hold of exactly one result, which the modelled function computes: sorted permutations are unique, the order of concatenated pairs of hashes is the order of pairs, LEB128 by induction on the number | proved | digest, signed, rih, request_hash, response_hash, path, time, white_space, tree_cbor, texts_cbor, certificate_cbor, header |
| C78 | Certification expressions are read by an unambiguous grammar | the parser combinators with nom's recoverable and final errors (Model/Cel.lean); the grammar as inductive relations (Spec/CelGrammar.lean) | soundness by induction on the depth, completeness by induction on the depth for every text of the grammar, with the alternatives refused by their first characters; unambiguity follows, since the parser is a function | proved | parse, unambiguous, accepts, rest, syntax, stack, brackets, written, counterexample_stack |
| C79 | What is accepted was certified within the time window | the verifier (Model/Verify.lean, Model/CertVerify.lean) and the certification tree (Model/CertTree.lean); a network as the set of signed state trees, the keys in charge and the certified data at each time (Spec/Network.lean) | the chain of trust of C40 gives a time in the window and a key; the signed state tree with the same root hash contains everything the witness shows, or there is a collision; then C23 and C28 with the tree of that time | proved | fresh, version1, version2, expires, certificate, js, counter, skip, router |
| C80 | Every path can be requested, escapes are decoded once, and the asset router cannot publish paths with spaces | Model/Http getPath with the URL libraries as parameters; Spec/Uri: percent-encoding after RFC 3986 and what is assumed of the libraries (StandardUri), met by a concrete instance | decode after encode by induction over the path; the invariant of the response maps (C45_held) with the assumption that URLs with spaces do not parse | proved | reachable, once, spaces, refused, escaped |
| C81 | Reading a response takes memory and hashing in proportion to its size | Model/Cbor, Header, HashTree, HttpPath as they are; Spec/Cost: bytes in a tree, total length | induction over the CBOR grammar (C65) and the tree (C81_hashing); lengths of base64 from C35_decodes; the bound of the loop for wildcards | proved | tree, certificate, hashing, texts, header, header_hashing, wildcards |
| C82 | Updating a tree hashes only logarithmically many nodes | Model/RbCost: the updates once more in a monad that counts update_subtree_hash and Node::new | the counting versions return what the models return (by unfolding); bound by 5 per level for insert, by 9 per level for delete with red nodes counted as levels (induction on the fuel with the invariant of the deletion), height from C07 | proved | nested_insert, nested_delete, http, insert, delete, modify, history |

## Findings

Places where a property a user would expect fails of the code; each is proved on the model as a concrete case, or follows
from an exact characterisation (theorem in brackets).

1. `strip_path_affixes` (wildcard enumeration). Generator: for a URL whose first segment is `http_expr` the segment is
   stripped, so the more specific wildcards are computed for another URL [C19_counterexample_prefix, C22_counterexample_first].
   Verifier: a URL whose last decoded segment is `<*>` or `<$>` loses it; a less specific wildcard response is then accepted
   although a more specific one is certified [C19_counterexample_suffix, C24_counterexample], and an honest response can be
   rejected [C22_counterexample_last].
2. Asset router deletion leaves the chunk entries of large assets certified [C47_counterexample_chunks]; certifying changed
   content for a path leaves the old response certified (replayable) [C52_old_content, C52_replay].
3. ic-cbor on hostile bytes: a 9-byte map header with a huge length panics (capacity overflow) [C38_counterexample_map], nested
   tags or arrays overflow the stack [C38_counterexample_stack], declared map lengths are not enforced
   [C38_counterexample_truncated], principals above 29 bytes panic [C38_counterexample_principal]; extra array elements in a tree
   node are accepted [C54_counterexample_extra]; a delegation that is not a map is silently ignored (the certificate is then
   treated as undelegated, harmless for soundness: C40).
4. Certificate time: `current_time - offset` underflows for small times (panic in debug, rejects everything in release)
   [C39_counterexample_underflow].
5. `lookup_label` answers Absent on malformed trees such as `Fork(Empty, x)`: trees must be well formed for absence proofs
   [C02_needs_wellformed]. Trees made by the API are [C09–C16].
6. Root hashes depend on insertion order, not only on content [C53_counterexample_order]; `certify_assets` iterates over HashMaps, so
   the same assets can give different root hashes, and when two configurations claim one URL the iteration order decides.
7. CEL: names containing `"` or starting like a comment do not round-trip [C32_counterexample_quote,
   C32_counterexample_underscore]; text after the closing parenthesis is ignored.
8. Request hash: a header literally named like a pseudo header (`:ic-cert-method` …) is confused with it [C29_pseudo_clash]; a
   query string, even with no certified parameter, changes the request hash compared to no query string: an asset requested
   with `?x=1` is served but does not verify [C50_only_announced makes the dependence explicit].
9. A skip certification whose expression hash equals that of another entry overwrites it [C20_clash].
10. v1 fallback to `/index.html` is taken also when the requested path is merely pruned from the witness
    [C28_counterexample_index].
11. Asset router: a request for a fallback scope without its trailing slash is served but not verified
    [C49_counterexample_scope]; chunk responses certify the request header `range`, but are
    certified for a request without it: a Range request answered with a chunk does not verify as it stands, only the same request
    without its Range header does [C50, C49_found]; a Range request with an unaligned begin or on a small asset misses [C46_misaligned]; fallback
    assets above 2,000,000 bytes are served whole [C46_bounded]; `q=0` in Accept-Encoding is ignored [C48_refused].
12. Human-readable serde of `Label`: serialised as hex, deserialised as raw text [C54_counterexample_label]; pruned nodes can only
    be deserialised from borrowed input [C54_counterexample_pruned].
13. CertificateBuilder (testing): times are truncated to 64 bits [C56_verifies]; a nested delegation without an outer one is
    ignored [C56_verifies]; with both, the returned root key is the inner one (unobservable: such certificates are always refused,
    C56_nested).
14. certified-counter example: after installation and after every upgrade the count is refused by the frontend until the next
    increment (no init / post_upgrade hook certifies it), while the answer from before the upgrade is still displayed
    [C59_shows, C59_only].
15. certificate-verification-js: the offset is not validated; with `NaN` both comparisons are false and every time is accepted
    (not modelled: offsets are integers in the model).
16. json-api example: `GET //todos` (and any path that differs from `/todos` only in repeated slashes) is answered with the 404
    page, which does not verify since the tree path is that of `/todos`; so is, with the list, `GET /todos?x` or a `GET` with a
    body (the certification covers body and the whole query, none of which was certified); methods are routed case-insensitively but
    certified as written. `PATCH /todos` and `DELETE /todos` have a certified 405, but the router has no route for them and
    the canister traps; `GET /` traps too [hypotheses of C60_list, C60_not_allowed and C60_not_found].
17. JavaScript bindings: a fractional `status_code` is rounded towards zero and verified as such (200.9 as 200); lone surrogates in
    url and headers are silently replaced by U+FFFD before verification, so that different JavaScript strings verify alike; a
    missing or malformed method or status makes the call panic instead of throwing a ResponseVerificationError; the minimum version
    is taken modulo 256 and the times modulo 2^64 [C61_status, C61_text, model of verifyJs].
18. `AssetRouter::delete_all_assets` clears the whole certification tree: on a tree shared through `with_tree` the entries the
    canister inserted itself are gone too, and their responses no longer verify [C62_wiped]. An entry inserted directly for an exact
    path, or for a more specific wildcard, makes the fallback the router serves for such a path unverifiable [hypothesis
    `GivesWay` of C62_verifies].
19. assets example: the metrics are certified with the skip expression at `/metrics`, so anything answered there by anyone is accepted
    [C63_metrics, hypothesis of C63_only]; a file `metrics` in the directory would never be served, and would be certified at
    the same path [hypothesis of C63_shows]; every path without a file shows `index.html` with status 200, not 404
    [C63_shows]; the encoding a client gets is not certified, so a gateway may substitute any certified encoding [C63_only].
20. version 1: with the witness for `/index.html` its body is accepted for every path, even one for which another body is in the tree
    (the verifier never asks for a proof of absence) [C64_index].
21. CBOR: simple values and floats (major type 7) are skipped like tags, so `null` before an item is ignored; negative numbers below
    the range of their width wrap around; further items in the arrays of a tree node are ignored; a delegation that is not a map is
    treated as no delegation [constructors simple, wrapped, TreeOf, CertificateOf of the grammar in C65].
22. asset router: certifying content of at most 2000000 bytes at the URL of a larger asset leaves the chunks of the old asset in the
    router and in the tree; a request with `Range: bytes=n-` for such a chunk is still answered with the old bytes [C66_stale].
23. custom-assets example: anything answered at `/uncertified` by anyone is accepted [C67_uncertified]; the encoding is chosen by substring, so
    `br;q=0` or `x-brunch` in `Accept-Encoding` selects brotli [`Mentions` in C67_serves]; the encoding a client gets is not certified, so any
    offered version verifies [C67_only]; every path without a matching file shows `index.html` with status 200 [C67_serves]; `HEAD`,
    `POST` and other methods are answered like `GET`.
24. certification tree: a URL may imitate the tree path of another entry. Certifying the URL `/a/<$>/h`, where `h` is the expression hash of
    the skip certification of `/a` (any 32 bytes are allowed in a path), removes that certification [C20_imitation].
25. certification tree: an exact entry for the URL `/a/<$>/b` blocks the wildcard answers for the path `/a`: the witness shows that something is
    certified at `/a/<$>`, and the verifier takes it for a more specific entry [C22_counterexample_between].
26. hash tree: the debug output of trees is ambiguous: contents of more than 32 bytes are printed as their length, and a leaf with
    the text `0x00` prints like a leaf with the byte 0 [C75_debug_ambiguous].
27. JavaScript certificate builder: `withTime` takes milliseconds up to 2^64, but the certificate shows the time modulo 2^64
    nanoseconds: from the year 2554 on (18446744073710) it is silently wrong [C56_js_clock].
28. version 2 verification: whoever gets a canister to certify the URL `/x/<$>/h`, where `h` are the 32 bytes of the hash of the expression for
    skipping (they must form UTF-8 text without slash), can have any response accepted for `/x` as one without certification
    [C27_counterexample_hidden].
29. asset router: `certify_assets` is not atomic. Encoded variants are published before the plain one, so a call that fails in between (for
    instance at an alias that is not a URL) leaves the asset certified in one encoding only; a client that does not accept it is answered
    with a fallback, and this answer does not verify [C76_counterexample_encodings].
30. Asset router, further provisos of C49: a request path with repeated slashes (`//a`) is answered with the fallback, which does not
    verify [C49_counterexample_slashes]; likewise for a fallback whose asset path has a query, such as
    `404.html?v=2` [C49_counterexample_query], for some missing pages under a directory called `http_expr`
    [C49_counterexample_first] and for a missing page called `<*>` if there are fallbacks for `/d/` and `/d`
    [C49_counterexample_last].
31. version 2 verification: a response with an `IC-CertificateExpression` of the form `[[[[…` (a few thousand brackets) overflows the stack of the
    verifier, which brings the process down. The expression is read before the certificate is looked at, so anyone who can answer the
    request can do that [C78_counterexample_stack, C72_expression]. What follows a complete expression in the header is ignored
    [C78_rest].
32. asset router: files whose names have a space (or another character that must be escaped in URLs) cannot be published. `certify_assets`
    uses the asset's path as a URL and fails if it does not parse; an escaped path (`/a%20b`) is published, but requests are looked up
    by their decoded path, so that only `/a%2520b` finds it [C80_spaces and the examples beside it; the URL library is a parameter,
    assumed to refuse spaces]. The assets example hands the file names of the build directory to `certify_assets` as they are, so one such
    file makes the installation trap.
33. version 1 verification: the body is decompressed without any limit on the size of the result (body.rs reads until the decoder ends; the
    constant MAX_CHUNK_SIZE_TO_DECOMPRESS is only the size of the buffer) [C28_decompress], before it is known whether the body or the tree
    are certified. Whoever can answer a request with some valid certificate of the canister can make the verifier use about a thousand
    times the memory of the body. Everything else that is read is bounded by the size of the response [C81].

## Axioms each theorem depends on

Collected with `#print axioms` (tools/axioms.py) for all theorems in MANIFEST.json. No theorem depends on anything but Lean's three standard axioms.

* **`Classical.choice`, `Quot.sound`, `propext`** (385): C01_found_is_true, C01_found_subtree_is_true, C02_absent_path_is_true, C02_absent_subtree_is_true, C02_needs_wellformed, C02_no_contradiction, C03_digest_binds, C03_digest_injective, C03_prune_keeps_digest, C04_exact_on_full, C05_list_paths_wf, C06_map, C07_no_panic_balanced, C08_full_tree_content, C08_root_hash, C09_any_range_digest, C09_nested_witness, C09_witness_digest, C10_witness_decides, C11_ranges_decide, C12_eq_iff_same_content, C12_iteration, C13_delete, C13_insert, C13_path_map, C14_empty_again, C14_no_husk, C15_full_tree_content, C15_hashes, C16_witness_decides, C17_merge, C17_merge_many, C18_exact_inj, C18_exact_ne_wildcard, C18_expr_path, C18_wildcard_inj, C19_all_inputs, C19_counterexample_prefix, C19_counterexample_suffix, C19_exact_tree_partial, C19_exact_verifier_partial, C19_no_match_lists_all, C19_terminates, C20_api_no_clash, C20_clash, C20_entries, C20_entries_api, C20_imitation, C21_all_inputs, C21_exact_witness, C21_wildcard_error, C21_wildcard_settles_url_partial, C21_wildcard_witness, C22_complete_partial, C22_counterexample_between, C22_counterexample_first, C22_counterexample_last, C22_exact, C23_end_to_end, C23_sound, C24_all_inputs, C24_api_tree, C24_best_path_partial, C24_counterexample, C25_returned, C26_missing, C26_rejects, C26_text, C26_version, C27_counterexample_hidden, C27_end_to_end, C27_only_skip, C27_skip, C28_accepts, C28_counterexample_index, C28_sound, C29_binding, C29_error, C29_header_order, C29_ignores_uncertified, C29_pseudo_clash, C30_binding, C30_body_hash_override, C30_drop_uncertified, C30_ignores_uncertified, C31_binding, C31_numbers, C31_perm, C32_counterexample_quote, C32_counterexample_underscore, C32_injective, C32_plain_roundtrip, C32_roundtrip, C33_accepts_exactly_documented, C34_added, C34_first_field_wins, C34_last_wins, C34_roundtrip, C35_alphabet, C35_decodes, C35_encodes, C35_injective, C35_roundtrip, C35_unambiguous, C36_tree_injective, C36_tree_roundtrip, C37_certificate_roundtrip, C37_ranges_roundtrip, C37_strings_roundtrip, C38_consumes, C38_counterexample_map, C38_counterexample_principal, C38_counterexample_stack, C38_counterexample_truncated, C38_documents_partial, C38_ranges_exact, C38_total_partial, C38_trailing_rejected, C38_trees_trailing, C39_accepted_in_window, C39_all_inputs, C39_counterexample_underflow, C39_outcomes, C39_time_roundtrip, C39_window_exact_partial, C40_accepts, C40_chain, C41_delegation, C41_order, C41_ranges, C42_cache_transparent, C42_request_lengths, C43_der, C43_errors, C43_extract_der, C44_errors, C44_full, C44_response_only, C45_certify, C45_certify_succeeds, C45_certify_tree, C45_files, C45_frame, C45_held, C45_place, C45_place_fallback, C45_serve, C45_serve_errors, C45_stays, C45_total, C46_ask, C46_bounded, C46_chunk, C46_decimal, C46_misaligned, C46_partition, C46_reassemble, C46_serve, C47_counterexample_chunks, C47_delete, C47_delete_all, C47_delete_tree_partial, C47_not_served, C47_undo, C48_default, C48_negotiate, C48_refused, C48_sort, C48_unlisted, C49_certify, C49_counterexample_first, C49_counterexample_last, C49_counterexample_query, C49_counterexample_scope, C49_counterexample_slashes, C49_delete, C49_delete_all, C49_found, C49_in_step, C49_start, C49_verifies_partial, C50_only_announced, C51_accepts, C51_data, C51_only_skip, C52_old_content, C52_only_delete, C52_persists, C52_replay, C53_certify_again, C53_counterexample_order, C53_http_root_binds, C53_http_unchanged, C53_nested_root_binds, C53_nested_unchanged, C53_root_binds, C53_unchanged, C54_cbor, C54_certificate, C54_delegation, C54_ic_cbor_follows, C54_readers_agree, C54_roundtrip, C55_absent, C55_http, C55_nested, C55_nested_values, C55_present, C55_ranges, C55_small, C56_builds, C56_custom, C56_js, C56_js_clock, C56_nested, C56_numbers, C56_verifies, C57_eq, C57_eq_certification, C57_eq_equiv, C57_request, C57_update, C58_accepts_iff, C58_data, C58_lookups_agree, C59_only, C59_shows, C60_answered, C60_changes_announced, C60_errors, C60_ids, C60_list, C60_not_allowed, C60_not_found, C60_only, C60_security, C60_served, C60_upgrade, C61_agrees, C61_any_objects, C61_any_text, C61_body_numbers, C61_reads_one, C61_result_unique, C61_status, C61_text, C62_certify, C62_delete, C62_delete_all, C62_in_step, C62_insert, C62_kept, C62_only, C62_start, C62_verifies, C62_wiped, C63_installs, C63_metrics, C63_only, C63_run, C63_security, C63_shows, C63_verifies, C64_fixture, C64_header, C64_index, C64_only, C64_verifies, C65_certificate_accepted, C65_certificate_exact, C65_certificate_read, C65_describes, C65_ranges_accepted, C65_ranges_read, C65_reads, C65_strings, C65_tree_accepted, C65_tree_read, C65_unambiguous, C66_exact, C66_get, C66_iter, C66_lookup, C66_stale, C67_installs, C67_only, C67_security, C67_serves, C67_uncertified, C67_uncertified_headers, C68_cmp, C68_order, C68_partial_cmp, C69_decode_request, C69_decode_response, C69_decode_update, C69_method, C69_request, C69_response, C70_motoko, C70_skip, C70_skip_only, C70_upgrade, C71_certificate, C71_errors, C72_aborts, C72_certificate, C72_expression, C73_lifetime, C73_minimum, C73_nothing_else, C73_time, C74_bytes, C74_exact, C74_header, C74_key_range, C74_nested, C74_prefix, C74_value_range, C74_wildcard, C75_debug_ambiguous, C75_debug_faithful, C75_debug_text, C75_hex_errors, C75_hex_roundtrip, C75_label_display, C75_label_unambiguous, C75_pruned_from_hex, C76_bad_pattern, C76_certified, C76_certify, C76_certify_in_step, C76_counterexample_encodings, C76_delete, C76_delete_succeeds, C76_in_step, C77_certificate_cbor, C77_digest, C77_header, C77_path, C77_request_hash, C77_response_hash, C77_rih, C77_signed, C77_texts_cbor, C77_time, C77_tree_cbor, C77_white_space, C78_accepts, C78_brackets, C78_counterexample_stack, C78_parse, C78_rest, C78_stack, C78_syntax, C78_unambiguous, C78_written, C79_certificate, C79_counter, C79_expires, C79_fresh, C79_js, C79_router, C79_skip, C79_version1, C79_version2, C80_escaped, C80_once, C80_reachable, C80_refused, C80_spaces, C81_certificate, C81_hashing, C81_header, C81_header_hashing, C81_texts, C81_tree, C81_wildcards, C82_delete, C82_history, C82_http, C82_insert, C82_modify, C82_nested_delete, C82_nested_insert
* **`Quot.sound`, `propext`** (14): C04_other_verdicts, C05_list_paths, C18_segments, C29_query_binding, C31_same, C34_version_iff, C54_counterexample_label, C54_owned_without_pruned, C54_tree, C57_cel, C57_rebuild, C57_response, C58_time, C69_field_numbers
* **`propext`** (8): C04_found_iff, C28_decompress, C28_decompress_error, C31_strings, C54_counterexample_extra, C54_counterexample_pruned, C57_status, C61_codes
* **none** (1): C34_version_decimal
