import Verif.Model.CertTree
import Verif.Model.Certification
import Verif.Model.Header

/-!
# Model of the asset router

`ic-asset-certification/src/{asset,asset_config,types,asset_router}.rs`. Strings are UTF-8 bytes.
-/

namespace Verif

/-- `Asset` (asset.rs:31-36). -/
structure Asset where
  path : Bytes
  url : Bytes
  content : Bytes
deriving DecidableEq, Repr

/-- `Asset::new` with `path_to_url` (asset.rs:42-59). -/
def Asset.new (path content : Bytes) : Asset :=
  { path, url := if path.head? = some slashByte then path else slashByte :: path, content }

/-- `AssetEncoding` (asset_config.rs:409-426). -/
inductive AssetEncoding where
  | identity | brotli | zstd | gzip | deflate
deriving DecidableEq, Repr

/-- `Display for AssetEncoding` (asset_config.rs:504-516). -/
def AssetEncoding.name : AssetEncoding → Bytes
  | .identity => str "identity"
  | .brotli => str "br"
  | .zstd => str "zstd"
  | .gzip => str "gzip"
  | .deflate => str "deflate"

/-- `AssetRedirectKind` (asset_config.rs:379-407). -/
inductive RedirectKind where
  | permanent | temporary
deriving DecidableEq, Repr

/-- `AssetFallbackConfig` (asset_config.rs:361-374). -/
structure FallbackConfig where
  scope : Bytes
  status : Option UInt16
deriving DecidableEq, Repr

/-- `AssetConfig` (asset_config.rs:186-356). -/
inductive AssetConfig where
  | file (path : Bytes) (contentType : Option Bytes) (headers : List Header) (fallbackFor : List FallbackConfig)
      (aliasedBy : List Bytes) (encodings : List (AssetEncoding × Bytes))
  | pattern (pattern : Bytes) (contentType : Option Bytes) (headers : List Header)
      (encodings : List (AssetEncoding × Bytes))
  | redirect (src dst : Bytes) (kind : RedirectKind)

/-- `NormalizedAssetConfig` (asset_config.rs:518-540): the pattern is compiled to a matcher. -/
inductive NConfig where
  | file (path : Bytes) (contentType : Option Bytes) (headers : List Header) (fallbackFor : List FallbackConfig)
      (aliasedBy : List Bytes) (encodings : List (AssetEncoding × Bytes))
  | pattern (isMatch : Bytes → Bool) (contentType : Option Bytes) (headers : List Header)
      (encodings : List (AssetEncoding × Bytes))
  | redirect (src dst : Bytes) (kind : RedirectKind)

/-- The external crate `globset`: `Glob::new(p)?.compile_matcher()`; `none` if the pattern is malformed. A parameter. -/
class GlobLib where
  compile : Bytes → Option (Bytes → Bool)

/-- `AssetCertificationError` (error.rs), without the texts of the last two. `witness` is the remaining variant of
`HttpCertificationError`, which only `HttpCertificationTree::witness` returns. -/
inductive AssetError where
  | noAsset (url : Bytes)
  | http (e : HttpError)
  | witness (e : WitnessError)
  | glob
  | request
deriving DecidableEq, Repr

/-- `TryFrom<AssetConfig> for NormalizedAssetConfig` (asset_config.rs:542-578). -/
def AssetConfig.normalize [GlobLib] : AssetConfig → Except AssetError NConfig
  | .file p ct hs fb al en => .ok (.file p ct hs fb al en)
  | .pattern p ct hs en =>
    match GlobLib.compile p with
    | none => .error .glob
    | some f => .ok (.pattern f ct hs en)
  | .redirect s d k => .ok (.redirect s d k)

/-- `.map(TryInto::try_into).collect::<Result<_>>()` (asset_router.rs:278-281, 337-340): the first error wins. -/
def normalizeAll [GlobLib] : List AssetConfig → Except AssetError (List NConfig)
  | [] => .ok []
  | c :: cs =>
    match c.normalize with
    | .error e => .error e
    | .ok n => match normalizeAll cs with
      | .error e => .error e
      | .ok ns => .ok (n :: ns)

/-- `NormalizedAssetConfig::matches_asset` (asset_config.rs:580-588). -/
def NConfig.matchesAsset (a : Asset) : NConfig → Bool
  | .file p _ _ _ _ _ => p == a.path
  | .pattern f _ _ _ => f a.path
  | .redirect _ _ _ => false

/-- `RequestKey` (types.rs:9-18). -/
structure RequestKey where
  path : Bytes
  encoding : Option Bytes
  rangeBegin : Option Nat
deriving DecidableEq, Repr

/-- `CertifiedAssetResponse` (types.rs:3-7). -/
structure CertifiedResponse where
  response : HttpResponse
  entry : CertEntry
deriving DecidableEq, Repr

/-- `ASSET_CHUNK_SIZE` (asset_router.rs:129). -/
def chunkSize : Nat := 2000000

/-- `usize::to_string`. -/
def decimal (n : Nat) : Bytes := str (Nat.repr n)

/-! ## Preparing responses -/

section
variable [SHA] [UriLib]

/-- The CEL expression built at asset_router.rs:861-870. -/
def assetCel (requestHeaders : List Bytes) : CelExpr :=
  .full { headers := requestHeaders, queryParams := [] } (.headerExclusions [])

/-- The response built at asset_router.rs:857-880. -/
def assetResponse (status : UInt16) (body : Bytes) (extra : List Header) (requestHeaders : List Bytes) : HttpResponse :=
  { status, body
    headers := (str "content-length", decimal body.length) :: extra ++
      [(certExprHeaderName, (assetCel requestHeaders).toBytes)] }

/-- `HttpRequest::get(url).build()` (asset_router.rs:874; http_request.rs:123-127, 570-579). -/
def getRequest (url : Bytes) : HttpRequest := { method := str "GET", url, headers := [], body := [] }

/-- `prepare_response_and_certification` (asset_router.rs:850-885). -/
def prepareResponse (url : Bytes) (status : UInt16) (body : Bytes) (extra : List Header) (requestHeaders : List Bytes) :
    Except AssetError (HttpResponse × HttpCert) :=
  match HttpCert.mkFull { headers := requestHeaders, queryParams := [] } (.headerExclusions []) (getRequest url)
      (assetResponse status body extra requestHeaders) none with
  | .error e => .error (.http e)
  | .ok cert => .ok (assetResponse status body extra requestHeaders, cert)

/-- The headers collected at asset_router.rs:816-826. -/
def assetHeaders (headers : List Header) (contentType : Option Bytes) (encoding : Option AssetEncoding) : List Header :=
  headers ++ (contentType.map (fun ct => (str "content-type", ct))).toList ++
    (encoding.map (fun e => (str "content-encoding", e.name))).toList

/-- `cmp::min(range_begin + ASSET_CHUNK_SIZE, total_length) - 1` (asset_router.rs:831). -/
def rangeEnd (begin_ total : Nat) : Nat := min (begin_ + chunkSize) total - 1

/-- The value of the Content-Range header (asset_router.rs:834-837). -/
def contentRange (begin_ total : Nat) : Bytes :=
  str "bytes " ++ decimal begin_ ++ str "-" ++ decimal (rangeEnd begin_ total) ++ str "/" ++ decimal total

/-- `prepare_asset_response_and_certification` (asset_router.rs:805-848). -/
def prepareAssetResponse (a : Asset) (headers : List Header) (contentType : Option Bytes)
    (encoding : Option AssetEncoding) (range : Option Nat) (status : Option UInt16) :
    Except AssetError (HttpResponse × HttpCert) :=
  match range with
  | none => prepareResponse a.url (status.getD 200) a.content (assetHeaders headers contentType encoding) []
  | some b =>
    prepareResponse a.url 206 ((a.content.drop b).take (rangeEnd b a.content.length + 1 - b))
      (assetHeaders headers contentType encoding ++ [(str "content-range", contentRange b a.content.length)])
      [str "range"]

/-- `prepare_static_asset` (asset_router.rs:648-674). -/
def prepareStatic (a : Asset) (contentType : Option Bytes) (headers : List Header) (encoding : Option AssetEncoding)
    (range : Option Nat) : Except AssetError CertifiedResponse :=
  match prepareAssetResponse a headers contentType encoding range none with
  | .error e => .error e
  | .ok (r, c) => .ok { response := r, entry := ⟨.exact a.url, c⟩ }

/-- `prepare_fallback_asset` (asset_router.rs:726-751). -/
def prepareFallback (a : Asset) (headers : List Header) (contentType : Option Bytes) (fb : FallbackConfig)
    (encoding : Option AssetEncoding) : Except AssetError CertifiedResponse :=
  match prepareAssetResponse a headers contentType encoding none fb.status with
  | .error e => .error e
  | .ok (r, c) => .ok { response := r, entry := ⟨.wildcard fb.scope, c⟩ }

/-- The status of a redirect (asset_router.rs:782-785). -/
def RedirectKind.status : RedirectKind → UInt16
  | .permanent => 301
  | .temporary => 307

/-- `prepare_redirect` (asset_router.rs:777-803). -/
def prepareRedirect (src dst : Bytes) (kind : RedirectKind) : Except AssetError CertifiedResponse :=
  match prepareResponse src kind.status [] [(str "location", dst)] [] with
  | .error e => .error e
  | .ok (r, c) => .ok { response := r, entry := ⟨.exact src, c⟩ }

/-! ## Certifying and deleting

The mutating functions of the router never read its state. Each is modelled by the sequence of elementary changes it
makes, and the result it returns: after an error the changes made so far remain. -/

/-- An elementary change of the router's state. -/
inductive Effect where
  | treeInsert (e : CertEntry)
  | treeDelete (e : CertEntry)
  | treeClear
  | putResponse (k : RequestKey) (r : CertifiedResponse)
  | removeResponse (k : RequestKey)
  | clearResponses
  | putFallback (k : RequestKey) (r : CertifiedResponse)
  | removeFallback (k : RequestKey)
  | clearFallbacks

/-- What a mutating function does: its changes in order, and its result. -/
abbrev Effects := List Effect × Except AssetError Unit

/-- `a?; b`. -/
def Effects.andThen (a b : Effects) : Effects :=
  match a.2 with
  | .ok () => (a.1 ++ b.1, b.2)
  | .error e => (a.1, .error e)

/-- `let x = v?; f(x)`. -/
def Effects.need {α : Type} (v : Except AssetError α) (f : α → Effects) : Effects :=
  match v with
  | .ok x => f x
  | .error e => ([], .error e)

/-- `for x in xs { f(x)?; }`. -/
def Effects.each {α : Type} (f : α → Effects) : List α → Effects
  | [] => ([], .ok ())
  | x :: xs => (f x).andThen (Effects.each f xs)

/-- The key of a static response (`encoding_str`: asset_router.rs:131-133). -/
def assetKey (path : Bytes) (encoding : Option AssetEncoding) (range : Option Nat) : RequestKey :=
  ⟨path, encoding.map AssetEncoding.name, range⟩

/-- The values of `range_begin` in the `while` loops (asset_router.rs:587-602, 634-642) from `b` on; the first argument
bounds the number of rounds and is never exhausted (`chunkBegins_eq`). -/
def chunkBegins : Nat → Nat → Nat → List Nat
  | 0, _, _ => []
  | fuel + 1, b, len => if b < len then b :: chunkBegins fuel (b + chunkSize) len else []

/-- The chunks of a static asset: the loop with its condition (asset_router.rs:585, 632). -/
def chunksOf (len : Nat) : List Nat := if len > chunkSize then chunkBegins len 0 len else []

/-- `insert_static_asset` (asset_router.rs:575-614). -/
def insertStatic (a : Asset) (contentType : Option Bytes) (headers : List Header) (encoding : Option AssetEncoding) :
    Effects :=
  (Effects.each (fun b => Effects.need (prepareStatic a contentType headers encoding (some b)) (fun r =>
    ([.treeInsert r.entry, .putResponse (assetKey a.url encoding (some b)) r], .ok ())))
    (chunksOf a.content.length)).andThen
  (Effects.need (prepareStatic a contentType headers encoding none) (fun r =>
    ([.treeInsert r.entry, .putResponse (assetKey a.url encoding none) r], .ok ())))

/-- `delete_static_asset` (asset_router.rs:616-646). -/
def deleteStatic (a : Asset) (contentType : Option Bytes) (headers : List Header) (encoding : Option AssetEncoding) :
    Effects :=
  Effects.need (prepareStatic a contentType headers encoding none) (fun r =>
    (.treeDelete r.entry :: .removeResponse (assetKey a.url encoding none) ::
      (chunksOf r.response.body.length).map (fun b => .removeResponse (assetKey a.url encoding (some b))), .ok ()))

/-- `insert_fallback_asset` (asset_router.rs:676-699). -/
def insertFallback (a : Asset) (contentType : Option Bytes) (headers : List Header) (fb : FallbackConfig)
    (encoding : Option AssetEncoding) : Effects :=
  Effects.need (prepareFallback a headers contentType fb encoding) (fun r =>
    ([.treeInsert r.entry, .putFallback (assetKey fb.scope encoding none) r], .ok ()))

/-- `delete_fallback_asset` (asset_router.rs:701-724). -/
def deleteFallback (a : Asset) (contentType : Option Bytes) (headers : List Header) (fb : FallbackConfig)
    (encoding : Option AssetEncoding) : Effects :=
  Effects.need (prepareFallback a headers contentType fb encoding) (fun r =>
    ([.treeDelete r.entry, .removeFallback (assetKey fb.scope encoding none)], .ok ()))

/-- `insert_redirect` (asset_router.rs:753-766). -/
def insertRedirect (src dst : Bytes) (kind : RedirectKind) : Effects :=
  Effects.need (prepareRedirect src dst kind) (fun r =>
    ([.treeInsert r.entry, .putResponse ⟨src, none, none⟩ r], .ok ()))

/-- `delete_redirect` (asset_router.rs:768-775). -/
def deleteRedirect (src dst : Bytes) (kind : RedirectKind) : Effects :=
  Effects.need (prepareRedirect src dst kind) (fun r =>
    ([.treeDelete r.entry, .removeResponse ⟨src, none, none⟩], .ok ()))

/-- `certify_asset_impl` (asset_router.rs:457-510). -/
def certifyAsset (a : Asset) (config : Option NConfig) (encoding : Option AssetEncoding) : Effects :=
  match config with
  | some (.pattern _ ct hs _) => insertStatic a ct hs encoding
  | some (.file _ ct hs fbs als _) =>
    (insertStatic a ct hs encoding).andThen
      ((Effects.each (fun fb => insertFallback a ct hs fb encoding) fbs).andThen
        (Effects.each (fun al => insertStatic { a with url := al } ct hs encoding) als))
  | _ => insertStatic a none [] encoding

/-- `delete_asset_impl` (asset_router.rs:512-573). -/
def deleteAsset (a : Asset) (config : Option NConfig) (encoding : Option AssetEncoding) : Effects :=
  match config with
  | some (.pattern _ ct hs _) => deleteStatic a ct hs encoding
  | some (.file _ ct hs fbs als _) =>
    (deleteStatic a ct hs encoding).andThen
      ((Effects.each (fun fb => deleteFallback a ct hs fb encoding) fbs).andThen
        (Effects.each (fun al => deleteStatic { a with url := al } ct hs encoding) als))
  | _ => deleteStatic a none [] encoding

/-- The encodings of a configuration (asset_router.rs:290-297). -/
def configEncodings : Option NConfig → List (AssetEncoding × Bytes)
  | some (.file _ _ _ _ _ en) => en
  | some (.pattern _ _ _ en) => en
  | _ => []

/-- `HashMap::get` on `asset_map` (asset_router.rs:283-286): the last asset given with the path. -/
def assetAt (assets : List Asset) (path : Bytes) : Option Asset :=
  assets.reverse.find? (fun a => a.path == path)

/-- The body of the loop over assets (asset_router.rs:288-309, 347-369), with `f` for `certify_asset_impl` or
`delete_asset_impl`. -/
def oneAsset (f : Asset → Option NConfig → Option AssetEncoding → Effects) (assets : List Asset) (configs : List NConfig)
    (a : Asset) : Effects :=
  let config := configs.find? (fun c => c.matchesAsset a)
  (Effects.each (fun e =>
    match assetAt assets (a.path ++ e.2) with
    | none => ([], .ok ())
    | some b => f { b with url := a.url } config (some e.1)) (configEncodings config)).andThen
  (f a config none)

/-- The loop over the redirects (asset_router.rs:311-315, 371-375). -/
def eachRedirect (f : Bytes → Bytes → RedirectKind → Effects) (configs : List NConfig) : Effects :=
  Effects.each (fun c => match c with
    | .redirect s d k => f s d k
    | _ => ([], .ok ())) configs

/-- `certify_assets` (asset_router.rs:273-318). `values` is the order in which `asset_map.values()` yields the assets:
a `HashMap` iterates in an arbitrary order (see `IsValues`). -/
def certifyAssets [GlobLib] (assets values : List Asset) (configs : List AssetConfig) : Effects :=
  Effects.need (normalizeAll configs) (fun cs =>
    (Effects.each (oneAsset certifyAsset assets cs) values).andThen (eachRedirect insertRedirect cs))

/-- `delete_assets` (asset_router.rs:329-376). -/
def deleteAssets [GlobLib] (assets values : List Asset) (configs : List AssetConfig) : Effects :=
  Effects.need (normalizeAll configs) (fun cs =>
    (Effects.each (oneAsset deleteAsset assets cs) values).andThen (eachRedirect deleteRedirect cs))

/-- `delete_all_assets` (asset_router.rs:382-386). -/
def deleteAllAssets : Effects := ([.clearResponses, .clearFallbacks, .treeClear], .ok ())

end

/-! ## The router -/

/-- `AssetRouter` (asset_router.rs:113-117). The two `HashMap`s are the functions given by their `get`. -/
structure Router where
  tree : CertTree
  responses : RequestKey → Option CertifiedResponse
  fallbacks : RequestKey → Option CertifiedResponse

/-- `AssetRouter::new` (asset_router.rs:171-178). -/
def Router.new : Router := { tree := .default, responses := fun _ => none, fallbacks := fun _ => none }

/-- `HashMap::insert` and `remove`. -/
def mapSet {α : Type} (m : RequestKey → Option α) (k : RequestKey) (v : Option α) : RequestKey → Option α :=
  fun x => if x = k then v else m x

section
variable [SHA]

/-- Performing an elementary change; `none` is a panic. -/
def Router.apply (r : Router) : Effect → Option Router
  | .treeInsert e => (r.tree.insert e).map (fun t => { r with tree := t })
  | .treeDelete e => (r.tree.delete e).map (fun t => { r with tree := t })
  | .treeClear => some { r with tree := r.tree.clear }
  | .putResponse k x => some { r with responses := mapSet r.responses k (some x) }
  | .removeResponse k => some { r with responses := mapSet r.responses k none }
  | .clearResponses => some { r with responses := fun _ => none }
  | .putFallback k x => some { r with fallbacks := mapSet r.fallbacks k (some x) }
  | .removeFallback k => some { r with fallbacks := mapSet r.fallbacks k none }
  | .clearFallbacks => some { r with fallbacks := fun _ => none }

/-- Performing a sequence of elementary changes. -/
def Router.applyAll (r : Router) (es : List Effect) : Option Router := es.foldlM Router.apply r

/-- `root_hash` (asset_router.rs:390-392). -/
def Router.rootHash (r : Router) : Hash := r.tree.rootHash

end

/-! ## Serving -/

/-- `str::parse::<usize>` (Rust core library). -/
def parseUsize (m : Machine) (s : List Char) : Option Nat :=
  let d := optChar '+' s
  if d = [] then none
  else if d.all (fun c => '0'.toNat ≤ c.toNat && c.toNat ≤ '9'.toNat) then
    let n := d.foldl (fun acc c => acc * 10 + (c.toNat - '0'.toNat)) 0
    if n < m.usize then some n else none
  else none

/-- `trim_start_matches("bytes=")` removes the text as often as it occurs. -/
def trimBytesEq : List Char → List Char
  | 'b' :: 'y' :: 't' :: 'e' :: 's' :: '=' :: r => trimBytesEq r
  | s => s

/-- `parse_range_header_str` (asset_router.rs:135-168): the beginning and the end of the range. -/
def parseRange (m : Machine) (s : List Char) : Option (Nat × Option Nat) :=
  let v := trim s
  if "bytes=".toList.isPrefixOf v then
    match (trimBytesEq v).splitOn '-' with
    | [b, e] =>
      match parseUsize m b with
      | none => none
      | some b =>
        if e = [] then some (b, none)
        else
          match parseUsize m e with
          | none => none
          | some e => if b > e then none else some (b, some e)
    | _ => none
  else none

/-- The first header of a name, compared in lower case: `get_range_header` (asset_router.rs:938-945) and the loop of
`get_preferred_encodings` (asset_router.rs:947-958). -/
def firstHeader (hs : List Header) (name : Bytes) : Option Bytes :=
  (hs.find? (fun h => lower h.1 == name)).map Prod.snd

/-- `maybe_get_range_begin` (asset_router.rs:191-199). -/
def rangeBegin (m : Machine) (req : HttpRequest) : Except AssetError (Option Nat) :=
  match firstHeader req.headers (str "range") with
  | none => .ok none
  | some v =>
    match parseRange m ((chars v).getD []) with
    | none => .error .request
    | some (b, _) => .ok (some b)

/-- `default_encoding_quality` (asset_router.rs:982-1004), in tenths. -/
def encodingQuality (e : Bytes) : Nat :=
  if eqIgnoreCase e (str "br") then 10
  else if eqIgnoreCase e (str "zstd") then 9
  else if eqIgnoreCase e (str "gzip") then 8
  else if eqIgnoreCase e (str "deflate") then 7
  else if eqIgnoreCase e (str "identity") then 5
  else 6

/-- `sort_unstable_by` in decreasing order of quality: some permutation of the list in decreasing order of quality.
Which one, if there are ties, is not specified: a parameter. -/
class UnstableSort where
  sort : List (Bytes × Nat) → List (Bytes × Nat)
  perm : ∀ l, (sort l).Perm l
  sorted : ∀ l, (sort l).Pairwise (fun a b => b.2 ≤ a.2)

/-- The names in an Accept-Encoding header (asset_router.rs:961-971): what comes before the first `;` of every
comma separated item, trimmed. -/
def encodingNames (v : List Char) : List Bytes :=
  (v.splitOn ',').map (fun i => utf8 (trim ((i.splitOn ';').headD [])))

section
variable [UnstableSort]

/-- `prioritized_encodings` (asset_router.rs:960-980). -/
def prioritizedEncodings (v : List Char) : List (Bytes × Nat) :=
  UnstableSort.sort ((encodingNames v).map (fun n => (n, encodingQuality n)))

/-- `get_preferred_encodings` (asset_router.rs:947-958). -/
def preferredEncodings (req : HttpRequest) : List Bytes :=
  match firstHeader req.headers (str "accept-encoding") with
  | none => []
  | some v => (prioritizedEncodings ((chars v).getD [])).map Prod.fst

end

/-- `get_encoded_asset` (asset_router.rs:887-914). -/
def Router.encodedAsset (r : Router) (url : Bytes) (range : Option Nat) : List Bytes → Option CertifiedResponse
  | [] => none
  | e :: es =>
    match r.responses ⟨url, some e, range⟩ with
    | some x => if x.response.body.length > chunkSize then r.responses ⟨url, some e, some 0⟩ else some x
    | none => r.encodedAsset url range es

/-- `get_encoded_fallback_asset` (asset_router.rs:916-936). -/
def Router.encodedFallback (r : Router) (scope : Bytes) : List Bytes → Option CertifiedResponse
  | [] => none
  | e :: es =>
    match r.fallbacks ⟨scope, some e, none⟩ with
    | some x => some x
    | none => r.encodedFallback scope es

/-- The two lookups for one scope (asset_router.rs:429-438, 442-451). -/
def Router.scopeFallback (r : Router) (prefs : List Bytes) (scope : Bytes) : Option CertifiedResponse :=
  match r.encodedFallback scope prefs with
  | some x => some x
  | none => r.fallbacks ⟨scope, none, none⟩

/-- The `while` loop (asset_router.rs:425-454). The list is `url_scopes` with its last element first. -/
def Router.fallbackLoop (r : Router) (prefs : List Bytes) : List Bytes → Option CertifiedResponse
  | [] => none
  | s :: rest =>
    let scope := [slashByte].intercalate (s :: rest).reverse
    match r.scopeFallback prefs (scope ++ [slashByte]) with
    | some x => some x
    | none =>
      match r.scopeFallback prefs scope with
      | some x => some x
      | none => r.fallbackLoop prefs rest

/-- The direct lookups (asset_router.rs:400-420). -/
def Router.exactAsset (r : Router) (path : Bytes) (prefs : List Bytes) (range : Option Nat) : Option CertifiedResponse :=
  match r.encodedAsset path range prefs with
  | some x => some x
  | none =>
    match r.responses ⟨path, none, range⟩ with
    | some x => if x.response.body.length > chunkSize then r.responses ⟨path, none, some 0⟩ else some x
    | none => none

/-- `get_asset_for_request` (asset_router.rs:394-455); `NoAssetMatchingRequestUrl` is `none`. -/
def Router.assetForRequest (r : Router) (path : Bytes) (prefs : List Bytes) (range : Option Nat) :
    Option CertifiedResponse :=
  match r.exactAsset path prefs range with
  | some x => some x
  | none => r.fallbackLoop prefs ((path.splitOn slashByte).dropLast.reverse)

section
variable [SHA] [UriLib] [UnstableSort]

/-- `serve_asset` (asset_router.rs:221-243); the outer `none` is a panic. -/
def Router.serveAsset (r : Router) (m : Machine) (dataCertificate : Bytes) (req : HttpRequest) :
    Option (Except AssetError HttpResponse) :=
  match req.getPath with
  | .error e => some (.error (.http e))
  | .ok path =>
    match rangeBegin m req with
    | .error e => some (.error e)
    | .ok range =>
      match r.assetForRequest path (preferredEncodings req) range with
      | none => some (.error (.noAsset path))
      | some x =>
        match r.tree.witness x.entry path with
        | none => none
        | some (.error e) => some (.error (.witness e))
        | some (.ok w) => some (.ok (addV2CertificateHeader dataCertificate x.response w x.entry.path.toExprPath))

end
end Verif
