# Formal model of dfinity/response-verification

Lean 4 model under `lean/Verif/`. `/repo` is read as text only; nothing of it is executed. Every definition in a
*model* file carries a comment with the file and line range it models and says where it simplifies.

* `Verif/Model/*` — the code, function by function.
* `Verif/Spec/*` — small specification vocabulary (relations, histories of calls, what a "leaf", a "window", a "collision"
  is), independent of the model's helper functions.
* `Verif/Lemmas/*` — proofs that carry no claim of their own.
* `Verif/Props/*` — the theorems claimed in MANIFEST.json, `Cnn_…`, each file with concrete instances (`example`) showing
  that the hypotheses are met by non-trivial cases, and counterexample theorems where the property fails of the code.

* `Verif/Conformance/*` — the repository's own unit-test vectors (with the real SHA-256, `Spec/Sha256.lean`), evaluated on
  the model by the kernel. These are *tests of the modelling*, not properties: they check on the repository's expected
  values that the model computes what the Rust code computes. No claim in MANIFEST.json rests on them.

This file is generated by `tools/gen_design.py` from the text in `tools/design_*.md` and the property list.

## Conventions

* Byte strings are `Bytes := List UInt8` with Rust's lexicographic slice order. Rust strings are their UTF-8 bytes.
* SHA-256 is a *parameter* (`[SHA]`: one function `sha : Bytes → Hash`, `Hash` = byte strings of length 32). No property
  of it is assumed. Binding theorems never assume injectivity (false of every such function); they say "conclusion, or
  here are two different strings, one hashed on the left and one hashed on the right, with equal hashes" (`CollisionIn`),
  where both strings are inputs that the two computations at hand really hash. An existential over *all* strings would be
  trivially true by counting, so it is never used.
* Panics (unwrap on None, explicit panic!, index out of bounds, stack overflow) are outcomes of the model: `none`,
  `CRes.crash` or `Out.crash`. "Never panics" is a theorem that the outcome is another one. Arithmetic overflow is
  modelled where it can occur (`checks : Bool` distinguishes debug and release builds).
* `&mut` functions return the new value. Loops become structural recursion or take fuel; when there is fuel, a theorem
  shows that the fuel used at the call site always suffices, or the fuel is the machine's stack and running out is a crash.
* The stack: recursion in the two parsers (`parser` for CBOR, `cel_value`) is bounded by `Machine.stack` and `Machine.celStack`,
  which are arbitrary, except that the second is at least 10. Functions that recurse over a tree already in memory (`digest`,
  `lookup_path`, `merge_hash_trees`, `drop`) are assumed to have stack enough: such a tree came out of the parser, whose frames are
  larger, or out of the library's own balanced trees.
* Histories (of tree operations, router calls, builder calls, cache accesses of several threads) are lists of calls of
  any length; nothing is bounded.
* A property that is false of the code in corner cases keeps its full statement in properties.jsonl; the theorem with the
  exact proviso has the suffix `_partial`, and `Cnn_counterexample_…` theorems exhibit the failing case, evaluated by the
  kernel (`decide +kernel`, `rfl`), on the same model.

## Trusted base

1. Lean 4.33.0's kernel. Axioms: see the last section; only `propext`, `Classical.choice`, `Quot.sound`.
2. The reading of the Rust source into `Verif/Model` (the comments give the lines), and the specification files.
3. Behaviour of libraries, in two groups.
   * *Parameters, about which nothing is assumed beyond what a theorem's hypotheses state*: SHA-256, BLS signature
     verification (`Bls.verify`) and signing (`BlsSign`), `http::Uri` parsing and `urlencoding` (`UriLib`), glob matching
     (`GlobLib`), gzip/deflate (`Inflate`), the order `sort_unstable_by` gives to equal elements (`UnstableSort`),
     conversion of labelled trees by `ic-crypto-tree-hash` (`TreeLib`), subnet test ids (`SubnetIds`), the iteration order of
     `HashMap` in certify_assets (an arbitrary permutation).
   * *Modelled from knowledge of the library*: nom 7.1.3 combinators used by the CEL and CBOR parsers, serde_cbor 0.11.2
     encoding and self-describe tag, serde derive / serde_bytes visitors (C54), base64 0.21.7 STANDARD engine, leb128 0.2.5,
     `http` 0.2.12 header/status types, `cached::SizedCache`, candid `Principal::from_slice`, `str::to_lowercase` on header
     names (ASCII lowering: no other character lowers to the names compared), Rust `sort`, `BTreeMap`, UTF-8 validation.

## What is modelled, file by file

| package / file | modelled | not modelled |
|----|----|----|
| ic-certification/src/hash_tree/mod.rs | constructors, digest, lookup_label, lookup_path, lookup_subtree, list_paths, serde (C54), Display and Debug of labels, Debug of trees, pruned_from_hex (C75) | the pretty form `{:#?}`, Arc/Clone |
| ic-certification/src/rb_tree/mod.rs | everything but debug helpers: get, insert, delete, modify, iter, witness, ranges, prefix, nested_witness, root_hash, PartialEq, Ord (C68) | Debug; the unsafe-free pointer representation (boxes are values) |
| ic-certification/src/nested_rb_tree.rs | all functions incl. merge_hash_trees | Debug |
| ic-certification/src/certificate.rs | Certificate, Delegation, serde | |
| ic-cbor/src/* | cbor_parser, hash tree, certificate, principal and string arrays | log output |
| ic-representation-independent-hash | all | |
| ic-http-certification/src/hash, cel, tree, utils, http | request/response hashes, CEL types, builders and printing, certifications, paths, tree, wildcards, v2 header, skip certification, request/response builders and equality (C57) | the binary form of Candid (values are modelled, C69), Debug output |
| ic-certificate-verification/src/* | verify, time, delegation, ranges, DER key, signature cache with concurrency | reproducible_rng, pairing arithmetic |
| ic-response-verification/src/* | verify_request_response_pair (v1 and v2), header parsing, CEL parser and mapping, the decompression loop, base64 | error text |
| ic-asset-certification/src/* | asset configuration and normalisation, certify/delete/serve, ranges, encodings, AssetMap | candid, `'static` borrowing |
| ic-certification-testing/src/*, ic-certification-testing-wasm/src/* | CertificateBuilder and its JavaScript wrapper (C56) | key generation, conversion of JavaScript objects |
| certificate-verification-js; examples: certified-counter, json-api | verifyCertification (C58), counter (C59), todo API (C60) | agent-js internals, browser code |
| examples: custom-assets | certification of the directory, choice of the encoding, serving, uncertified page (C67) | the glob matcher (a parameter), `include_dir`, the text of the uncertified page |
| examples: assets | directory collection, certification, serving, metrics, upgrades (C63) | JSON of the metrics; `include_dir` |
| ic-response-verification-wasm | conversion of requests, responses, results and error codes (C61) | error message texts; values outside the TypeScript interface |
| ic-response-verification-test-utils | Model/TestUtils: AssetTree, header makers, version 2 fixture (C64); ic-response-verification-tests: not modelled (tests) | |

