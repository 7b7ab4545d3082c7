import json
L=[]
def M(file,d,claim,old,new): L.append(dict(id="a%03d"%(len(L)+1),file="Model."+file,claim=claim,old=old,new=new,**{"def":d}))
A="Asset"
M(A,"Asset.new","C45 C63: the URL of an asset starts with one slash","url := if path.head? = some slashByte then path else slashByte :: path, content","url := slashByte :: path, content")
M(A,"AssetEncoding.name","C48 C45: brotli is called br","  | .brotli => str \"br\"\n","  | .brotli => str \"brotli\"\n")
M(A,"AssetConfig.normalize","C45: a malformed pattern is an error","    | none => .error .glob\n    | some f => .ok (.pattern f ct hs en)","    | none => .ok (.pattern (fun _ => false) ct hs en)\n    | some f => .ok (.pattern f ct hs en)")
M(A,"NConfig.matchesAsset","C45: a file configuration applies to its path","  | .file p _ _ _ _ _ => p == a.path","  | .file p _ _ _ _ _ => p == a.url")
M(A,"NConfig.matchesAsset","C45: a pattern is matched against the path","  | .pattern f _ _ _ => f a.path","  | .pattern f _ _ _ => f a.url")
M(A,"assetResponse","C45 C46: content-length is the length of the body","headers := (str \"content-length\", decimal body.length) :: extra ++","headers := (str \"content-length\", decimal (body.length + 1)) :: extra ++")
M(A,"getRequest","C49: assets are certified for GET","{ method := str \"GET\", url, headers := [], body := [] }","{ method := str \"POST\", url, headers := [], body := [] }")
M(A,"assetHeaders","C45: the configured headers are served","  headers ++ (contentType.map (fun ct => (str \"content-type\", ct))).toList ++","  (contentType.map (fun ct => (str \"content-type\", ct))).toList ++")
M(A,"assetHeaders","C45 C48: an encoded version says so","    (encoding.map (fun e => (str \"content-encoding\", e.name))).toList","    (encoding.map (fun e => (str \"content-encoding\", AssetEncoding.gzip.name))).toList")
M(A,"rangeEnd","C46: chunks end before the next begins","min (begin_ + chunkSize) total - 1","min (begin_ + chunkSize) total")
M(A,"contentRange","C46: the Content-Range header gives the total","decimal (rangeEnd begin_ total) ++ str \"/\" ++ decimal total","decimal (rangeEnd begin_ total) ++ str \"/\" ++ decimal (rangeEnd begin_ total)")
M(A,"prepareAssetResponse","C46: a chunk has status 206","    prepareResponse a.url 206 ((a.content.drop b)","    prepareResponse a.url 200 ((a.content.drop b)")
M(A,"prepareAssetResponse","C46: a chunk has the bytes of its range","((a.content.drop b).take (rangeEnd b a.content.length + 1 - b))","((a.content.drop b).take (rangeEnd b a.content.length - b))")
M(A,"prepareAssetResponse","C46 C49: the Range header is certified for chunks","      [str \"range\"]\n","      []\n")
M(A,"prepareAssetResponse","C45: the fallback status is used","prepareResponse a.url (status.getD 200) a.content","prepareResponse a.url 200 a.content")
M(A,"prepareStatic","C45 C49: a static asset is certified at its exact path","entry := ⟨.exact a.url, c⟩ }","entry := ⟨.wildcard a.url, c⟩ }")
M(A,"prepareFallback","C45 C49: a fallback is certified as a wildcard of its scope","entry := ⟨.wildcard fb.scope, c⟩ }","entry := ⟨.wildcard a.url, c⟩ }")
M(A,"RedirectKind.status","C45: a temporary redirect has status 307","  | .temporary => 307","  | .temporary => 302")
M(A,"prepareRedirect","C45: a redirect leads to its target","[(str \"location\", dst)] []","[(str \"location\", src)] []")
M(A,"Effects.andThen","C45 C47: nothing happens after an error","  | .error e => (a.1, .error e)","  | .error e => (a.1 ++ b.1, .error e)")
M(A,"Effects.each","C45 C49: all elements are visited","  | x :: xs => (f x).andThen (Effects.each f xs)","  | x :: _ => (f x)")
M(A,"chunkBegins","C46: chunks tile the content","b :: chunkBegins fuel (b + chunkSize) len","b :: chunkBegins fuel (b + chunkSize + 1) len")
M(A,"chunksOf","C46: content of exactly one chunk size is not split","if len > chunkSize then chunkBegins len 0 len else []","if len ≥ chunkSize then chunkBegins len 0 len else []")
M(A,"insertStatic","C46 C49: a chunk is put into the tree","    ([.treeInsert r.entry, .putResponse (assetKey a.url encoding (some b)) r], .ok ())))\n    (chunksOf","    ([.putResponse (assetKey a.url encoding (some b)) r], .ok ())))\n    (chunksOf")
M(A,"insertStatic","C45 C48: the key holds the encoding","    ([.treeInsert r.entry, .putResponse (assetKey a.url encoding none) r], .ok ())))\n\n/-- `delete_static","    ([.treeInsert r.entry, .putResponse (assetKey a.url none none) r], .ok ())))\n\n/-- `delete_static")
M(A,"deleteStatic","C47: deleting removes the tree entry","    (.treeDelete r.entry :: .removeResponse (assetKey a.url encoding none) ::","    (.removeResponse (assetKey a.url encoding none) ::")
M(A,"deleteStatic","C47: deleting removes the chunks","      (chunksOf r.response.body.length).map (fun b","      (chunksOf (r.response.body.length - 1)).map (fun b")
M(A,"insertFallback","C45: fallbacks are held at their scope","([.treeInsert r.entry, .putFallback (assetKey fb.scope encoding none) r], .ok ())","([.treeInsert r.entry, .putFallback (assetKey a.url encoding none) r], .ok ())")
M(A,"deleteFallback","C47: deleting a fallback removes it","([.treeDelete r.entry, .removeFallback (assetKey fb.scope encoding none)], .ok ())","([.treeDelete r.entry, .removeFallback (assetKey fb.scope none none)], .ok ())")
M(A,"insertRedirect","C45 C49: a redirect is certified","    ([.treeInsert r.entry, .putResponse ⟨src, none, none⟩ r], .ok ()))","    ([.putResponse ⟨src, none, none⟩ r], .ok ()))")
M(A,"deleteRedirect","C47: deleting a redirect removes it","    ([.treeDelete r.entry, .removeResponse ⟨src, none, none⟩], .ok ()))","    ([.treeDelete r.entry, .removeResponse ⟨dst, none, none⟩], .ok ()))")
M(A,"certifyAsset","C45: aliases are certified","        (Effects.each (fun al => insertStatic { a with url := al } ct hs encoding) als))","        (Effects.each (fun al => insertStatic { a with url := al } ct hs none) als))")
M(A,"certifyAsset","C45: fallbacks are certified","      ((Effects.each (fun fb => insertFallback a ct hs fb encoding) fbs).andThen","      ((Effects.each (fun fb => insertFallback a ct hs fb none) fbs).andThen")
M(A,"deleteAsset","C47: aliases are deleted","        (Effects.each (fun al => deleteStatic { a with url := al } ct hs encoding) als))","        (Effects.each (fun al => deleteStatic { a with url := al } ct hs none) als))")
M(A,"configEncodings","C45 C48: patterns have encodings","  | some (.pattern _ _ _ en) => en\n","")
M(A,"oneAsset","C45 C48: encoded versions are served at the URL of the asset","    | some b => f { b with url := a.url } config (some e.1))","    | some b => f b config (some e.1))")
M(A,"oneAsset","C45: the first matching configuration applies","  let config := configs.find? (fun c => c.matchesAsset a)","  let config := configs.reverse.find? (fun c => c.matchesAsset a)")
M(A,"assetAt","C45: of two assets with one path the last counts","  assets.reverse.find? (fun a => a.path == path)","  assets.find? (fun a => a.path == path)")
M(A,"deleteAllAssets","C47: delete_all_assets clears the tree","([.clearResponses, .clearFallbacks, .treeClear], .ok ())","([.clearResponses, .clearFallbacks], .ok ())")
M(A,"deleteAllAssets","C47: delete_all_assets clears the fallbacks","([.clearResponses, .clearFallbacks, .treeClear], .ok ())","([.clearResponses, .treeClear], .ok ())")
M(A,"parseUsize","C46 C45: digits are read in base ten","    let n := d.foldl (fun acc c => acc * 10 + (c.toNat - '0'.toNat)) 0\n    if n < m.usize","    let n := d.foldl (fun acc c => acc * 16 + (c.toNat - '0'.toNat)) 0\n    if n < m.usize")
M(A,"parseRange","C46: a range that ends before it begins is refused","if b > e then none else some (b, some e)","some (b, some e)")
M(A,"parseRange","C46: the unit is bytes","  if \"bytes=\".toList.isPrefixOf v then","  if true then")
M(A,"rangeBegin","C46 C45: a malformed range is an error","    | none => .error .request","    | none => .ok none")
M(A,"encodingQuality","C48: brotli before zstd","  else if eqIgnoreCase e (str \"zstd\") then 9","  else if eqIgnoreCase e (str \"zstd\") then 11")
M(A,"encodingQuality","C48: unknown encodings before identity","  else if eqIgnoreCase e (str \"identity\") then 5\n  else 6","  else if eqIgnoreCase e (str \"identity\") then 5\n  else 4")
M(A,"encodingNames","C48: parameters are ignored","(v.splitOn ',').map (fun i => utf8 (trim ((i.splitOn ';').headD [])))","(v.splitOn ',').map (fun i => utf8 (trim i))")
M(A,"encodingNames","C48: white space is ignored","utf8 (trim ((i.splitOn ';').headD [])))","utf8 ((i.splitOn ';').headD []))")
M(A,"encodedAsset","C46: a large encoded asset is answered with its first chunk","if x.response.body.length > chunkSize then r.responses ⟨url, some e, some 0⟩ else some x","some x")
M(A,"encodedAsset","C48: the next encoding is tried","    | none => r.encodedAsset url range es","    | none => none")
M(A,"fallbackLoop","C45: the longest scope wins","    match r.scopeFallback prefs (scope ++ [slashByte]) with\n    | some x => some x\n    | none =>\n      match r.scopeFallback prefs scope with","    match r.scopeFallback prefs scope with\n    | some x => some x\n    | none =>\n      match r.scopeFallback prefs (scope ++ [slashByte]) with")
M(A,"exactAsset","C46: a large asset is answered with its first chunk","    | some x => if x.response.body.length > chunkSize then r.responses ⟨path, none, some 0⟩ else some x\n    | none => none","    | some x => if x.response.body.length ≥ chunkSize then r.responses ⟨path, none, some 0⟩ else some x\n    | none => none")
M(A,"assetForRequest","C45: the exact asset comes before fallbacks","  match r.exactAsset path prefs range with\n  | some x => some x\n  | none => r.fallbackLoop prefs ((path.splitOn slashByte).dropLast.reverse)","  match r.fallbackLoop prefs ((path.splitOn slashByte).dropLast.reverse) with\n  | some x => some x\n  | none => r.exactAsset path prefs range")
M(A,"assetForRequest","C45: all directories above the path are scopes","r.fallbackLoop prefs ((path.splitOn slashByte).dropLast.reverse)","r.fallbackLoop prefs ((path.splitOn slashByte).reverse)")
M(A,"serveAsset","C49 C45: the header names the path of the entry","addV2CertificateHeader dataCertificate x.response w x.entry.path.toExprPath))","addV2CertificateHeader dataCertificate x.response w (HttpPath.exact path).toExprPath))")
M("AssetMap","AssetTable.get","C66: get looks up the range","(t (assetKey path encoding range)).map","(t (assetKey path encoding none)).map")
M("SkipCert","skipAssetTree","C51: the entry is that of the skip expression","(.labeled (str \"<*>\") (.labeled (sha CelExpr.skip.toBytes).1 (.leaf [])))","(.labeled (str \"<$>\") (.labeled (sha CelExpr.skip.toBytes).1 (.leaf [])))")
M("SkipCert","addSkipCertificationHeader","C51: the expression header is added","{ r with headers := r.headers ++ [(certExprHeaderName, CelExpr.skip.toBytes)] }","r")
S="Serde"
M(S,"serTree","C54: labels are written before subtrees","  | .labeled l t => .seq [.u64 2, .bytes false l, serTree t]","  | .labeled l t => .seq [.u64 2, serTree t, .bytes false l]")
M(S,"serTree","C54: leaves and pruned nodes differ","  | .leaf b => .seq [.u64 3, .bytes false b]","  | .leaf b => .seq [.u64 4, .bytes false b]")
M(S,"serCertificate","C54: the delegation is written","    | some d => [(.str false (str \"delegation\"), serDelegation d)])","    | some _ => [])")
M(S,"serDelegation","C54: subnet id and certificate are not confused","(.str false (str \"certificate\"), .bytes false d.certificate)]","(.str false (str \"certificate\"), .bytes false d.subnetId)]")
M(S,"deTree","C54: forks keep their order","    some (.fork l r)","    some (.fork r l)")
M(S,"deTree","C54: digests have 32 bytes","    if h : b.length = 32 then some (.pruned ⟨b, h⟩) else none","    if h : (b.take 32).length = 32 then some (.pruned ⟨b.take 32, h⟩) else none")
M(S,"visitMap","C54: a key twice is an error","    if (got i).isSome then none\n    else visitMap","    visitMap")
M(S,"deDelegation","C54: fields are found by name","    let got ← visitMap [str \"subnet_id\", str \"certificate\"] kvs (fun _ => none)","    let got ← visitMap [str \"certificate\", str \"subnet_id\"] kvs (fun _ => none)")
M(S,"deCertificate","C54: the delegation is read","    some { tree, signature, delegation := some d }\n","    some { tree, signature, delegation := none }\n") if False else None
M(S,"deCertificate","C54: the delegation is read","    let delegation ← (got 2).elim (some none) (fun d => (deDelegation strict s d).map some)","    let delegation ← (got 2).elim (some none) (fun _ => some none)")
M(S,"hexUpper","C54: hexadecimal digits in order","[hexDigit (x.toNat / 16), hexDigit (x.toNat % 16)]","[hexDigit (x.toNat % 16), hexDigit (x.toNat / 16)]")
M(S,"deBytes","C54: a borrowing storage needs borrowed input","  | .bytes bo b => if s = .vec ∨ bo = true then some b else none","  | .bytes _ b => some b")
C="CertBuilder"
M(C,"canisterOfU64","C56: canister ids end in 1, 1","beBytes 8 n.toNat ++ [1, 1]","beBytes 8 n.toNat ++ [1]")
M(C,"mkSubnet","C56: ranges keep their ends","(canisterOfU64 r.1, canisterOfU64 r.2)","(canisterOfU64 r.1, canisterOfU64 r.1)")
M(C,"createCertificateTree","C56: the certified data is under the canister","(.sub [(canisterId, .sub [(str \"certified_data\", .leaf data)])])","(.sub [(canisterId, .sub [(str \"data\", .leaf data)])])") if False else M(C,"createCertificateTree","C56: the certified data is under its label","(str \"certified_data\", .leaf data)","(str \"data\", .leaf data)")
M(C,"createDelegationTree","C56: the delegation names the key","(str \"public_key\", .leaf key)","(str \"public_key\", .leaf time)")
M(C,"buildCertificate","C56: the root of the tree is signed","BlsSign.sign k.privateKey (stateRootMsg tree.digest)","BlsSign.sign k.privateKey tree.digest.1")
M(C,"createDelegation","C56: the delegation names its subnet","  ⟨s.subnetId, selfDescribe ++ encCertificate ⟨r.1, r.2, nested⟩⟩","  ⟨delegatee.publicKey, selfDescribe ++ encCertificate ⟨r.1, r.2, nested⟩⟩")
M(C,"createDelegation","C56: a nested delegation is included","encCertificate ⟨r.1, r.2, nested⟩⟩","encCertificate ⟨r.1, r.2, none⟩⟩")
M(C,"build","C56: with a delegation the root key is the delegating one","    | some s, none => done (some (createDelegation k0 k1 time s none)) k1 t","    | some s, none => done (some (createDelegation k0 k1 time s none)) k0 t")
M(C,"build","C56: an invalid signature can be set","⟨r.1, b.signature.getD r.2, d⟩","⟨r.1, r.2, d⟩")
M(C,"build","C56: tree and data together are an error","  | some _, some _ => .error .bothProvided","  | some t, some _ => .ok (go t)")
M(C,"build","C56: the time given is used","  let time := encodeTime (b.time.getD defaultTime)","  let time := encodeTime defaultTime")
B="Builders"
M(B,"RequestBuilder.build","C57: the default URL is /","  ⟨b.method.getD (str \"GET\"), b.url.getD (str \"/\"), b.headers, b.body, b.certificateVersion⟩","  ⟨b.method.getD (str \"GET\"), b.url.getD (str \"\"), b.headers, b.body, b.certificateVersion⟩")
M(B,"RequestBuilder.build","C57: the certificate version is kept","b.headers, b.body, b.certificateVersion⟩","b.headers, b.body, none⟩")
M(B,"withHeaders","C57: with_headers replaces the headers","def withHeaders (b : RequestBuilder) (x : List Header) : RequestBuilder := { b with headers := x }","def withHeaders (b : RequestBuilder) (x : List Header) : RequestBuilder := { b with headers := b.headers ++ x }")
M(B,"ResponseBuilder.build","C57: the default status is 200","⟨b.status.getD 200, b.headers, b.body, b.upgrade⟩","⟨b.status.getD 204, b.headers, b.body, b.upgrade⟩")
M(B,"FullResponse.toBuilder","C57: rebuilding keeps the upgrade flag","⟨some r.status, r.headers, r.body, r.upgrade⟩","⟨some r.status, r.headers, r.body, none⟩")
M(B,"FullResponse.eqv","C57: equality compares the upgrade flag","    a.body == b.body && a.upgrade == b.upgrade","    a.body == b.body")
M(B,"headerLe","C57: equality ignores the order of headers with the same name","a.1 < b.1 ∨ a.1 = b.1 ∧ a.2 ≤ b.2","a.1 ≤ b.1")
M(B,"addHeader","C57: headers are added at the end","{ r with headers := r.headers ++ [h] }","{ r with headers := h :: r.headers }")
M(B,"FullCelBuilder.withQueryParams","C57: query parameters are set","(x : List Bytes) : FullCelBuilder := { b with queryParams := x }","(x : List Bytes) : FullCelBuilder := { b with requestHeaders := x }")
M(B,"RespCert.default","C57: by default no response header is certified","def RespCert.default : RespCert := .certifiedHeaders []","def RespCert.default : RespCert := .headerExclusions []")
M(B,"statusFromWire","C57: status codes are 100 to 999","if 100 ≤ n ∧ n < 1000 then some n else none","if 100 ≤ n ∧ n < 600 then some n else none")
J="JsVerify"
M(J,"jsFlatten","C58: forks are read from left to right","  | .fork l r => jsFlatten l ++ jsFlatten r","  | .fork l r => jsFlatten r ++ jsFlatten l")
M(J,"jsValidateTime","C58: a certificate from the future is refused","if ms - offset > now then .error .timeFuture","if ms + offset > now then .error .timeFuture")
M(J,"jsValidateTime","C58: an old certificate is refused","    else if ms + offset < now then .error .timePast\n","")
M(J,"jsLebDecode","C58: LEB128 groups have seven bits","(fun n => b.toNat % 0x80 + 0x80 * n)","(fun n => b.toNat % 0x80 + 0x100 * n)")
M(J,"jsValidateTree","C58: the tree must have the certified digest","if d = tree.digest.1 then .ok () else .error .mismatch",".ok ()")
M(J,"Counter.inc","C59: the certified data follows the tree","    return ⟨n, t, t.rootHashRb.1⟩","    return ⟨n, t, s.certifiedData⟩")
M(J,"Counter.inc","C59: the new count is certified","s.tree.insert (str \"count\") (sha (beU32 n)).1","s.tree.insert (str \"count\") (sha (beU32 s.count)).1")
M(J,"counterShow","C59: the count shown is the certified one","| some h => if (sha (beU32 answer.1)).1 = h then some answer.1 else none","| some _ => some answer.1")
W="Wasm"
M(W,"utf16Decode","C61: surrogate pairs","Char.ofNat (0x10000 + (u.toNat - 0xD800) * 0x400 + (v.toNat - 0xDC00))","Char.ofNat ((u.toNat - 0xD800) * 0x400 + (v.toNat - 0xDC00))")
M(W,"utf16Decode","C61: a lone high surrogate does not swallow what follows","      else Char.ofNat 0xFFFD :: utf16Decode (v :: rest)\n","      else Char.ofNat 0xFFFD :: utf16Decode rest\n")
M(W,"jsReqEntry","C61: the property is called url","if e.1 = jsText \"url\" then","if e.1 = jsText \"uri\" then")
M(W,"asHeader","C61: name and value are not swapped","    pure (name, val)","    pure (val, name)")
M(W,"asU16","C61: numbers saturate","else if 65535 < truncRat q then 65535 else","else")
M(W,"verifiedToJs","C61: the status is called statusCode","(jsText \"statusCode\", .num (.fin s.toNat))","(jsText \"status_code\", .num (.fin s.toNat))")
M(W,"infoToJs","C61: the version is given","(jsText \"verificationVersion\", .num (.fin i.version))","(jsText \"verificationVersion\", .num (.fin 2))")
M(W,"jsErrorCode","C61: error codes are not confused","  | .exactMightExist => .exactExpressionPathMightExistInTree","  | .exactMightExist => .exactExpressionPathMismatch")
M(W,"verifyJs","C61: now and offset are not swapped","(now % 2 ^ 64).toNat, (offset % 2 ^ 64).toNat, rootKey⟩","(offset % 2 ^ 64).toNat, (now % 2 ^ 64).toNat, rootKey⟩")
T="TodoApi"
M(T,"certifyResponse","C60: the old certification is deleted","    | some old => s.tree.delete ⟨path, old.cert⟩","    | some _ => some s.tree")
M(T,"certifyResponse","C60: the certified data is updated","(key, ⟨res, cert⟩) :: responses, tree, certifiedData := tree.rootHash.1 }","(key, ⟨res, cert⟩) :: responses, tree, certifiedData := s.certifiedData }")
M(T,"todoResponse","C60: answers are JSON","(str \"content-type\", str \"application/json\")","(str \"content-type\", str \"text/plain\")")
M(T,"notAllowedMethods","C60: PUT is not allowed","[str \"HEAD\", str \"PUT\", str \"PATCH\",","[str \"HEAD\", str \"PATCH\",")
M(T,"todoCreate","C60: ids are not reused","certifyList { s with next := s.next + 1, items :=","certifyList { s with next := s.next, items :=")
M(T,"todoUpdate","C60: only given fields change","⟨id, title.getD item.title, completed.getD item.completed⟩","⟨id, title.getD item.title, completed.getD false⟩")
M(T,"todoDelete","C60: deleting removes the item","certifyList { s with items := s.items.filter (fun x => x.id ≠ id) } enum","certifyList s enum")
M(T,"todoQuery","C60: the list is certified at its exact path","| some r => some (HttpPath.exact path, r)","| some r => some (HttpPath.wildcard path, r)")
M(T,"certifyNotFound","C60: the 404 is certified for all paths","  let tree ← s.tree.insert ⟨.wildcard (str \"\"), cert⟩","  let tree ← s.tree.insert ⟨.exact (str \"\"), cert⟩")
E="AssetsExample"
M(E,"Dir.collect","C63: files in subdirectories are served","files.map (fun f => Asset.new f.1 f.2) ++ Dir.collectAll dirs","files.map (fun f => Asset.new f.1 f.2)")
M(E,"siteEncodings","C63: brotli versions end in .br","[(.brotli, str \".br\"), (.gzip, str \".gz\")]","[(.brotli, str \".gz\"), (.gzip, str \".gz\")]")
M(E,"siteConfigs","C63: every other path shows index.html with status 200","[{ scope := str \"/\", status := some 200 }]","[{ scope := str \"/\", status := some 404 }]")
M(E,"siteConfigs","C63: / shows index.html","[str \"/\"] siteEncodings,","[] siteEncodings,")
M(E,"siteConfigs","C63: the redirect is permanent","(str \"/old-url\") (str \"/\") .permanent]","(str \"/old-url\") (str \"/\") .temporary]")
M(E,"Site.init","C63: the metrics are certified","(.treeInsert metricsEntry :: effects.1)","(effects.1)")
M(E,"Site.serveMetrics","C63: the metrics are skipped","getAssetHeaders [(certExprHeaderName, CelExpr.skip.toBytes)] }","getAssetHeaders [] }")
U="TestUtils"
M(U,"AssetTree.insert","C64: the hash of the body is stored","(t.tree.insert path (sha body).1).map","(t.tree.insert path body).map")
M(U,"AssetTree.certifiedData","C64: the tree is labelled http_assets","(labeledHash (str \"http_assets\") t.tree.rootHashRb).1","t.tree.rootHashRb.1")
M(U,"versionedCertificateHeader","C64: the version is stated",":, version=\".toList ++ Nat.toDigits 10 version",":, version=\".toList ++ Nat.toDigits 10 1")
M(U,"v2Fixture","C64: the fixture's delegation covers its canister","withDelegation 123 [(0, 10)]","withDelegation 123 [(6, 10)]")
K="CustomAssets"
M(K,"customHeaders","C67: content-length is that of the body","[(str \"content-length\", decimal contentLength), (certExprHeaderName, celExpr)]","[(str \"content-length\", decimal 0), (certExprHeaderName, celExpr)]")
M(K,"certifyEncoded","C67: encoded versions are certified","    let tree ← s.tree.insert ⟨treePath, cert⟩\n    return { s with tree, encoded :=","    let tree := s.tree\n    return { s with tree, encoded :=")
M(K,"certifyEncoded","C67: an encoded version says so","customResponse ((str \"content-encoding\", encoding) :: additional) body","customResponse additional body")
M(K,"certifyCustomAsset","C67: brotli versions are certified","  certifyEncoded d s filePath treePath reqPath (str \"br\") additional","  return s")
M(K,"certifyIndex","C67: index.html is for all paths","(str \"index.html\") (.wildcard (str \"\")) (str \"\")","(str \"index.html\") (.exact (str \"\")) (str \"\")")
M(K,"customTypes","C67: scripts are text/javascript","(str \"assets/**/*.js\", str \"text/javascript\")","(str \"assets/**/*.js\", str \"text/css\")")
M(K,"CustomSite.init","C67: the root hash is certified","return { s with certifiedData := s.tree.rootHash.1 }","return { s with certifiedData := [] }")
M(K,"CustomSite.choose","C67: brotli comes before gzip","    match (if str \"br\" <:+: v then s.encoded (reqPath, str \"br\") else none) with","    match (if str \"gzip\" <:+: v then s.encoded (reqPath, str \"gzip\") else none) with")
M(K,"CustomSite.httpRequest","C67: other paths show index.html","      | none => (s.responses (str \"\")).map (fun r => (str \"\", HttpPath.wildcard (str \"\"), r))","      | none => none")
M(K,"uncertifiedResponse","C67: the uncertified page carries the skip expression","page.length CelExpr.skip.toBytes, body := page }","page.length [], body := page }")
L=[x for x in L if x]
json.dump(L,open('/tmp/mut/m2.json','w'),indent=1,ensure_ascii=False)
bad=0
for x in L:
    s=open('/verif/lean/Verif/'+x['file'].replace('.','/')+'.lean').read()
    n=s.count(x['old'])
    if n!=1: print(x['id'],x['def'],n); bad+=1
print(len(L),bad)
