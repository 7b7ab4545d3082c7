#!/usr/bin/env python3
"""Writes /verif/DESIGN.md from the text below, properties.jsonl, MANIFEST.json and tools/axioms.json."""
import json,os
P=[json.loads(l) for l in open('/verif/properties.jsonl')]
M={c['property']:c for c in json.load(open('/verif/MANIFEST.json'))['claims']}
AX=json.load(open('/verif/tools/axioms.json')) if os.path.exists('/verif/tools/axioms.json') else {}
HOW={
'C01':('HashTree digest, lookup_path, lookup_subtree','relation `Prunes` between trees; induction on both trees at once, extracting a collision where the digests agree but the nodes do not'),
'C02':('as C01, lookup_label','order of labels in well-formed trees; the gap seen by the lookup is a gap of the certified tree'),
'C03':('digest','collision extraction; pruning keeps the digest by induction'),
'C04':('lookup_path, lookup_subtree','induction on the path and on the tree'),
'C05':('list_paths','induction on the tree'),
'C06':('RbTree insert, delete, modify, get','refinement of the LLRB tree to a finite map over every history'),
'C07':('all RbTree operations with their panics (`Option`)','LLRB invariants (black height, left leaning, order, stored hashes); height bound'),
'C08':('stored subtree hashes','invariant: stored hash = recomputed digest'),
'C09':('witness, key_range, value_range, nested_witness','each witness `Prunes` the full tree, hence C03'),
'C10':('witness','lookup on the witness computed by cases on the neighbours'),
'C11':('key_range, value_range, keys_with_prefix','characterisation of lower_bound/upper_bound/right_prefix_neighbor'),
'C12':('Iter state machine','invariant of the visit stack; sortedness'),
'C13':('NestedTree insert, delete, modify','refinement to a map on paths'),
'C14':('NestedTree delete','invariant: no empty subtree'),
'C15':('NestedTree root_hash, as_hash_tree, witness','as C08/C09 one level up'),
'C16':('NestedTree::witness','induction on the path over C10'),
'C17':('merge_hash_trees','merge is the least upper bound for `Prunes` below a common tree'),
'C18':('HttpCertificationPath','list/string induction (split, join)'),
'C19':('more_specific_wildcards (tree and verifier versions)','exact characterisation of the enumeration; counterexamples evaluated in the kernel'),
'C20':('HttpCertificationTree insert, delete','refinement to a set of tree paths via C13; injectivity of entry paths'),
'C21':('HttpCertificationTree::witness','C16 + C17 + C19'),
'C22':('generator and verifier together','composition of C21, C34–C37, C29–C33'),
'C23':('verify_request_response_pair, v2','case analysis of the verifier + C01, C20, C29–C31'),
'C24':('path validity checks of the verifier','C02 on every more specific path'),
'C25':('verified response construction','case analysis'),
'C26':('version negotiation','case analysis'),
'C27':('skip certification in the verifier','case analysis + C23'),
'C28':('v1 validation','case analysis + C01'),
'C29':('request_hash','sorting/permutation, filter lemmas, collision extraction'),
'C30':('response_hash','as C29'),
'C31':('representation_independent_hash','permutation invariance of sorting; collision extraction'),
'C32':('CEL printer, nom parser','parser/printer round trip by induction on lists and characters'),
'C33':('CEL AST mapping','relational grammar; both directions'),
'C34':('CertificateHeader::from, response_header','induction on the fields'),
'C35':('base64 engine','bit arithmetic and induction on triples'),
'C36':('ic-cbor hash tree parser and serializer','round trip by induction on the tree; stack depth explicit'),
'C37':('certificate and array parsers','round trip on top of C36'),
'C38':('whole ic-cbor parser with panics and stack','progress argument; counterexamples'),
'C39':('validate_certificate_time, LEB128','arithmetic'),
'C40':('Certificate::verify, delegation','case analysis + C01; relational chain specification'),
'C41':('canister range check','order lemmas'),
'C42':('signature cache (SizedCache, mutex)','invariant over all interleavings; key injectivity up to collision'),
'C43':('extract_der','list arithmetic'),
'C44':('HttpCertification constructors','induction on headers'),
'C45':('AssetRouter certify_assets, serve_asset','state invariant, frame lemmas'),
'C46':('chunking','list arithmetic'),
'C47':('delete_assets, delete_all_assets','effects on maps and tree'),
'C48':('Accept-Encoding negotiation','sortedness'),
'C49':('router + verifier','in-step invariant between router maps and tree, + C22'),
'C50':('router + verifier, adversarial response','C23 + exact tree content'),
'C51':('skip_certification','evaluation + C27'),
'C52':('router histories','monotonicity of the tree content'),
'C53':('root_hash','C03 + C08; idempotence'),
'C54':('serde visitors for trees, delegations, certificates','relational grammar; both directions'),
'C55':('witness generation','every visible node of a witness classified'),
'C56':('CertificateBuilder','history of calls + C37, C39–C41'),
'C57':('request, response and CEL builders','history of calls; sorted lists equal iff permutations'),
}
HOW.update(json.load(open('/verif/tools/how_more.json')) if os.path.exists('/verif/tools/how_more.json') else {})
out=[]
w=out.append
w(open('/verif/tools/design_head.md').read())
w('## Plan per property\n')
w('| id | property | what is modelled | how it is proved | status | theorems (prefix `Cnn_`) |')
w('|----|----------|------------------|------------------|--------|----------|')
for p in P:
    c=M[p['id']]
    a,b=HOW.get(p['id'],('',''))
    ts=', '.join(t.split('.')[-1][4:] for t in c['theorems'])
    w('| %s | %s | %s | %s | %s | %s |'%(p['id'],p['title'],a,b,c['status'],ts))
w('')
w(open('/verif/tools/design_findings.md').read())
w('## Axioms each theorem depends on\n')
w('Collected with `#print axioms` (tools/axioms.py) for all theorems in MANIFEST.json. No theorem depends on anything but Lean\'s three standard axioms.\n')
g={}
for n,a in AX.items(): g.setdefault(tuple(a),[]).append(n.split('.')[-1])
for a in sorted(g,key=lambda a:-len(g[a])):
    w('* **%s** (%d): %s'%(', '.join('`%s`'%x for x in a) or 'none',len(g[a]),', '.join(sorted(g[a]))))
w('')
open('/verif/DESIGN.md','w').write('\n'.join(out))
