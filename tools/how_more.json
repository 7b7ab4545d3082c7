{
 "C58": [
  "verifyCertification of certificate-verification-js, agent-js lookup and LEB decoding",
  "case analysis; agreement of the two lookups on prunings by induction"
 ],
 "C59": [
  "certified-counter canister and its frontend as a state machine",
  "invariant over histories of increments and upgrades; C58"
 ],
 "C60": [
  "json-api canister: routers, handlers, stored responses, tree, certified data as a state machine",
  "refinement to an abstract list of todos by an invariant over histories; C22, C23, C27 for what verifies"
 ],
 "C61": [
  "JavaScript values, request_from_js, response_from_js, result and error conversion",
  "folds over property lists in any order; UTF-16 round trip by induction; case analysis of the verifier for the headers returned"
 ],
 "C62": [
  "router calls interleaved with direct operations on the shared tree",
  "in-step invariant over histories; precedence of direct entries excluded by hypothesis; C22 for verification"
 ],
 "C63": [
  "the assets example canister on top of the router model; site defined from the directory alone",
  "what the router holds (C45) computed for the six configurations; C62 for verification; C24, C23, C27 for nothing else"
 ],
 "C64": [
  "AssetTree, its witness and CBOR, the two header makers, the version 2 fixture on CertBuilder; histories and delivery in Spec/TestUtils",
  "insertion histories as red-black histories (C08, C04) for completeness and C28 for soundness; the fixture by complete_core and the builder theorem C56"
 ],
 "C65": [
  "the reader of Model/Cbor against a separate inductive grammar (Spec/CborGrammar)",
  "induction on the stack depth (sound) and mutual induction on the grammar (complete); value level by the recursion of the converters"
 ],
 "C66": [
  "the `AssetMap` trait over the tables of Model/Asset; iteration of a hash map as a relation (each entry once, any order)",
  "finiteness of the tables by induction on the effects; the rest from C45 (what is held) and C46 (what is served)"
 ],
 "C67": [
  "the custom-assets example canister on top of the models of the certification tree, certifications and headers; the served version defined from the directory and the Accept-Encoding header alone",
  "the list of insertions computed from the directory; what the response maps hold by induction over it; verification from completeness (C39) and nothing else from soundness (C38)"
 ],
 "C68": [
  "Iterator::cmp and partial_cmp on the modelled tree iterator; MapLess, the order in terms of get alone",
  "the iterator yields the sorted entries (C12), lexicographic comparison by induction on them, exclusivity of MapLess"
 ],
 "C69": [
  "Candid values with field ids computed by the real hash of the names; the derived and hand-written (de)serialisers",
  "case analysis on the value; field ids distinct by evaluation; the 256 method characters by evaluation over all bytes"
 ],
 "C70": [
  "the two canisters on top of the models of the skip helpers, builders and Candid values",
  "from C51 (skipping for a whole canister) and C69 (Candid round trip)"
 ],
 "C71": [
  "all of the verifier (Model/Verify, Model/Header, Model/CertVerify); the table of facts is Spec/Errors.lean",
  "case analysis along the calls; the loop over the header fields by induction; more specific wildcards by the enumeration lemmas of C19"
 ],
 "C72": [
  "as C71",
  "the same case analysis, with the outcome 'does not return'"
 ],
 "C73": [
  "verify_request_response_pair, certificate verification",
  "relational (two-run) case analysis of the verifier; C29, C30 for the hashes; C39 for the time"
 ],
 "C74": [
  "the models of the range witnesses, the nested witness, the witness of the certification tree, the CBOR encoder and the header text; size is the number of nodes (Spec/Show.lean) and the number of bytes",
  "the depth of a valid red-black tree is at most twice the logarithm of its size (C08); induction over range witnesses with a weight per entry; a level per label for nested witnesses; the whole tree below a path by partitioning the stored paths by their first label; merging adds no nodes; the enumeration of wildcards has one entry per more specific prefix; CBOR and base64 lengths by induction"
 ],
 "C75": [
  "Display and Debug of labels, Debug of trees, hex decoding (Model/LabelText.lean) over the UTF-8 model",
  "an inductive relation between hexadecimal text and bytes, shown to be functional and to be met by encoder and decoder; visible ASCII characterised through the UTF-8 lemmas; ambiguity by two concrete trees"
 ],
 "C76": [
  "the calls of the asset router as effects with a result, which stop at the first failure (Model/Asset.lean)",
  "a failing call is a prefix of the sequence of items, cut between whole pages; the maps and the tree are folds over this prefix; C49's invariant for prefixes without encodings; the case with encodings by a concrete history evaluated in the kernel"
 ],
 "C77": [
  "the formulas of the specifications as functions and relations of their own (Spec/Interface.lean), sharing with the model only the data types and SHA-256",
  "structural induction for the digest; for the others each relation is shown to hold of exactly one result, which the modelled function computes: sorted permutations are unique, the order of concatenated pairs of hashes is the order of pairs, LEB128 by induction on the number"
 ],
 "C78": [
  "the parser combinators with nom's recoverable and final errors (Model/Cel.lean); the grammar as inductive relations (Spec/CelGrammar.lean)",
  "soundness by induction on the depth, completeness by induction on the depth for every text of the grammar, with the alternatives refused by their first characters; unambiguity follows, since the parser is a function"
 ],
 "C79": [
  "the verifier (Model/Verify.lean, Model/CertVerify.lean) and the certification tree (Model/CertTree.lean); a network as the set of signed state trees, the keys in charge and the certified data at each time (Spec/Network.lean)",
  "the chain of trust of C40 gives a time in the window and a key; the signed state tree with the same root hash contains everything the witness shows, or there is a collision; then C23 and C28 with the tree of that time"
 ],
 "C80": [
  "Model/Http getPath with the URL libraries as parameters; Spec/Uri: percent-encoding after RFC 3986 and what is assumed of the libraries (StandardUri), met by a concrete instance",
  "decode after encode by induction over the path; the invariant of the response maps (C45_held) with the assumption that URLs with spaces do not parse"
 ],
 "C81": [
  "Model/Cbor, Header, HashTree, HttpPath as they are; Spec/Cost: bytes in a tree, total length",
  "induction over the CBOR grammar (C65) and the tree (C81_hashing); lengths of base64 from C35_decodes; the bound of the loop for wildcards"
 ],
 "C82": [
  "Model/RbCost: the updates once more in a monad that counts update_subtree_hash and Node::new",
  "the counting versions return what the models return (by unfolding); bound by 5 per level for insert, by 9 per level for delete with red nodes counted as levels (induction on the fuel with the invariant of the deletion), height from C07"
 ]
}