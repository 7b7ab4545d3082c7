## Findings

Places where a property a user would expect fails of the code; each is proved on the model as a concrete case, or follows
from an exact characterisation (theorem in brackets).

1. `strip_path_affixes` (wildcard enumeration). Generator: for a URL whose first segment is `http_expr` the segment is
   stripped, so the more specific wildcards are computed for another URL [C19_counterexample_prefix, C22_counterexample_first].
   Verifier: a URL whose last decoded segment is `<*>` or `<$>` loses it; a less specific wildcard response is then accepted
   although a more specific one is certified [C19_counterexample_suffix, C24_counterexample], and an honest response can be
   rejected [C22_counterexample_last].
2. Asset router deletion leaves the chunk entries of large assets certified [C47_counterexample_chunks]; certifying changed
   content for a path leaves the old response certified (replayable) [C52_old_content, C52_replay].
3. ic-cbor on hostile bytes: a 9-byte map header with a huge length panics (capacity overflow) [C38_counterexample_map], nested
   tags or arrays overflow the stack [C38_counterexample_stack], declared map lengths are not enforced
   [C38_counterexample_truncated], principals above 29 bytes panic [C38_counterexample_principal]; extra array elements in a tree
   node are accepted [C54_counterexample_extra]; a delegation that is not a map is silently ignored (the certificate is then
   treated as undelegated, harmless for soundness: C40).
4. Certificate time: `current_time - offset` underflows for small times (panic in debug, rejects everything in release)
   [C39_counterexample_underflow].
5. `lookup_label` answers Absent on malformed trees such as `Fork(Empty, x)`: trees must be well formed for absence proofs
   [C02_needs_wellformed]. Trees made by the API are [C09–C16].
6. Root hashes depend on insertion order, not only on content [C53_counterexample_order]; `certify_assets` iterates over HashMaps, so
   the same assets can give different root hashes, and when two configurations claim one URL the iteration order decides.
7. CEL: names containing `"` or starting like a comment do not round-trip [C32_counterexample_quote,
   C32_counterexample_underscore]; text after the closing parenthesis is ignored.
8. Request hash: a header literally named like a pseudo header (`:ic-cert-method` …) is confused with it [C29_pseudo_clash]; a
   query string, even with no certified parameter, changes the request hash compared to no query string: an asset requested
   with `?x=1` is served but does not verify [C50_only_announced makes the dependence explicit].
9. A skip certification whose expression hash equals that of another entry overwrites it [C20_clash].
10. v1 fallback to `/index.html` is taken also when the requested path is merely pruned from the witness
    [C28_counterexample_index].
11. Asset router: a request for a fallback scope without its trailing slash is served but not verified
    [C49_counterexample_scope]; chunk responses certify the request header `range`, but are
    certified for a request without it: a Range request answered with a chunk does not verify as it stands, only the same request
    without its Range header does [C50, C49_found]; a Range request with an unaligned begin or on a small asset misses [C46_misaligned]; fallback
    assets above 2,000,000 bytes are served whole [C46_bounded]; `q=0` in Accept-Encoding is ignored [C48_refused].
12. Human-readable serde of `Label`: serialised as hex, deserialised as raw text [C54_counterexample_label]; pruned nodes can only
    be deserialised from borrowed input [C54_counterexample_pruned].
13. CertificateBuilder (testing): times are truncated to 64 bits [C56_verifies]; a nested delegation without an outer one is
    ignored [C56_verifies]; with both, the returned root key is the inner one (unobservable: such certificates are always refused,
    C56_nested).
14. certified-counter example: after installation and after every upgrade the count is refused by the frontend until the next
    increment (no init / post_upgrade hook certifies it), while the answer from before the upgrade is still displayed
    [C59_shows, C59_only].
15. certificate-verification-js: the offset is not validated; with `NaN` both comparisons are false and every time is accepted
    (not modelled: offsets are integers in the model).
16. json-api example: `GET //todos` (and any path that differs from `/todos` only in repeated slashes) is answered with the 404
    page, which does not verify since the tree path is that of `/todos`; so is, with the list, `GET /todos?x` or a `GET` with a
    body (the certification covers body and the whole query, none of which was certified); methods are routed case-insensitively but
    certified as written. `PATCH /todos` and `DELETE /todos` have a certified 405, but the router has no route for them and
    the canister traps; `GET /` traps too [hypotheses of C60_list, C60_not_allowed and C60_not_found].
17. JavaScript bindings: a fractional `status_code` is rounded towards zero and verified as such (200.9 as 200); lone surrogates in
    url and headers are silently replaced by U+FFFD before verification, so that different JavaScript strings verify alike; a
    missing or malformed method or status makes the call panic instead of throwing a ResponseVerificationError; the minimum version
    is taken modulo 256 and the times modulo 2^64 [C61_status, C61_text, model of verifyJs].
18. `AssetRouter::delete_all_assets` clears the whole certification tree: on a tree shared through `with_tree` the entries the
    canister inserted itself are gone too, and their responses no longer verify [C62_wiped]. An entry inserted directly for an exact
    path, or for a more specific wildcard, makes the fallback the router serves for such a path unverifiable [hypothesis
    `GivesWay` of C62_verifies].
19. assets example: the metrics are certified with the skip expression at `/metrics`, so anything answered there by anyone is accepted
    [C63_metrics, hypothesis of C63_only]; a file `metrics` in the directory would never be served, and would be certified at
    the same path [hypothesis of C63_shows]; every path without a file shows `index.html` with status 200, not 404
    [C63_shows]; the encoding a client gets is not certified, so a gateway may substitute any certified encoding [C63_only].
20. version 1: with the witness for `/index.html` its body is accepted for every path, even one for which another body is in the tree
    (the verifier never asks for a proof of absence) [C64_index].
21. CBOR: simple values and floats (major type 7) are skipped like tags, so `null` before an item is ignored; negative numbers below
    the range of their width wrap around; further items in the arrays of a tree node are ignored; a delegation that is not a map is
    treated as no delegation [constructors simple, wrapped, TreeOf, CertificateOf of the grammar in C65].
22. asset router: certifying content of at most 2000000 bytes at the URL of a larger asset leaves the chunks of the old asset in the
    router and in the tree; a request with `Range: bytes=n-` for such a chunk is still answered with the old bytes [C66_stale].
23. custom-assets example: anything answered at `/uncertified` by anyone is accepted [C67_uncertified]; the encoding is chosen by substring, so
    `br;q=0` or `x-brunch` in `Accept-Encoding` selects brotli [`Mentions` in C67_serves]; the encoding a client gets is not certified, so any
    offered version verifies [C67_only]; every path without a matching file shows `index.html` with status 200 [C67_serves]; `HEAD`,
    `POST` and other methods are answered like `GET`.
24. certification tree: a URL may imitate the tree path of another entry. Certifying the URL `/a/<$>/h`, where `h` is the expression hash of
    the skip certification of `/a` (any 32 bytes are allowed in a path), removes that certification [C20_imitation].
25. certification tree: an exact entry for the URL `/a/<$>/b` blocks the wildcard answers for the path `/a`: the witness shows that something is
    certified at `/a/<$>`, and the verifier takes it for a more specific entry [C22_counterexample_between].
26. hash tree: the debug output of trees is ambiguous: contents of more than 32 bytes are printed as their length, and a leaf with
    the text `0x00` prints like a leaf with the byte 0 [C75_debug_ambiguous].
27. JavaScript certificate builder: `withTime` takes milliseconds up to 2^64, but the certificate shows the time modulo 2^64
    nanoseconds: from the year 2554 on (18446744073710) it is silently wrong [C56_js_clock].
28. version 2 verification: whoever gets a canister to certify the URL `/x/<$>/h`, where `h` are the 32 bytes of the hash of the expression for
    skipping (they must form UTF-8 text without slash), can have any response accepted for `/x` as one without certification
    [C27_counterexample_hidden].
29. asset router: `certify_assets` is not atomic. Encoded variants are published before the plain one, so a call that fails in between (for
    instance at an alias that is not a URL) leaves the asset certified in one encoding only; a client that does not accept it is answered
    with a fallback, and this answer does not verify [C76_counterexample_encodings].
30. Asset router, further provisos of C49: a request path with repeated slashes (`//a`) is answered with the fallback, which does not
    verify [C49_counterexample_slashes]; likewise for a fallback whose asset path has a query, such as
    `404.html?v=2` [C49_counterexample_query], for some missing pages under a directory called `http_expr`
    [C49_counterexample_first] and for a missing page called `<*>` if there are fallbacks for `/d/` and `/d`
    [C49_counterexample_last].
31. version 2 verification: a response with an `IC-CertificateExpression` of the form `[[[[…` (a few thousand brackets) overflows the stack of the
    verifier, which brings the process down. The expression is read before the certificate is looked at, so anyone who can answer the
    request can do that [C78_counterexample_stack, C72_expression]. What follows a complete expression in the header is ignored
    [C78_rest].
32. asset router: files whose names have a space (or another character that must be escaped in URLs) cannot be published. `certify_assets`
    uses the asset's path as a URL and fails if it does not parse; an escaped path (`/a%20b`) is published, but requests are looked up
    by their decoded path, so that only `/a%2520b` finds it [C80_spaces and the examples beside it; the URL library is a parameter,
    assumed to refuse spaces]. The assets example hands the file names of the build directory to `certify_assets` as they are, so one such
    file makes the installation trap.
33. version 1 verification: the body is decompressed without any limit on the size of the result (body.rs reads until the decoder ends; the
    constant MAX_CHUNK_SIZE_TO_DECOMPRESS is only the size of the buffer) [C28_decompress], before it is known whether the body or the tree
    are certified. Whoever can answer a request with some valid certificate of the canister can make the verifier use about a thousand
    times the memory of the body. Everything else that is read is bounded by the size of the response [C81].
