import Verif.Model.TodoApi
import Verif.Model.Asset

/-!
# Model of the example canister `examples/http-certification/custom-assets`

Line numbers refer to `examples/http-certification/custom-assets/src/backend/src/lib.rs`.
-/

namespace Verif
open HashTree

/-- `ASSETS_DIR` (lib.rs:46), an `include_dir::Dir`, flattened: the files with path (from the root of the directory) and contents, and the
paths of the subdirectories. Paths are taken to be UTF-8, so that `to_str().unwrap()` (lib.rs:128) succeeds. -/
structure Front where
  files : List (Bytes × Bytes)
  dirs : List Bytes

/-- The crate `glob` behind `Dir::find`: whether a path matches a pattern (the four patterns of lib.rs:80-83 are well-formed). -/
class PathGlob where
  hits : Bytes → Bytes → Bool

/-- `Dir::get_file` (lib.rs:111-113, 195). -/
def Front.getFile (d : Front) (path : Bytes) : Option Bytes := (d.files.find? (fun f => f.1 = path)).map Prod.snd

/-- `Dir::find(glob).unwrap().map(|entry| entry.as_file().unwrap())` (lib.rs:121-125): `none` (a trap) if a directory matches. -/
def Front.find [PathGlob] (d : Front) (glob : Bytes) : Option (List (Bytes × Bytes)) :=
  if d.dirs.any (PathGlob.hits glob) then none else some (d.files.filter (fun f => PathGlob.hits glob f.1))

/-- The first eight headers of `get_asset_headers` (lib.rs:405-412). -/
def customSecurityHeaders : List Header :=
  [(str "strict-transport-security", str "max-age=31536000; includeSubDomains"),
   (str "x-frame-options", str "DENY"),
   (str "x-content-type-options", str "nosniff"),
   (str "content-security-policy", str "default-src 'self'; form-action 'self'; object-src 'none'; frame-ancestors 'none'; upgrade-insecure-requests; block-all-mixed-content"),
   (str "referrer-policy", str "no-referrer"),
   (str "permissions-policy", str "accelerometer=(),ambient-light-sensor=(),autoplay=(),battery=(),camera=(),display-capture=(),document-domain=(),encrypted-media=(),fullscreen=(),gamepad=(),geolocation=(),gyroscope=(),layout-animations=(self),legacy-image-formats=(self),magnetometer=(),microphone=(),midi=(),oversized-images=(self),payment=(),picture-in-picture=(),publickey-credentials-get=(),speaker-selection=(),sync-xhr=(self),unoptimized-images=(self),unsized-media=(self),usb=(),screen-wake-lock=(),web-share=(),xr-spatial-tracking=()"),
   (str "cross-origin-embedder-policy", str "require-corp"),
   (str "cross-origin-opener-policy", str "same-origin")]

/-- `get_asset_headers` (lib.rs:398-419). -/
def customHeaders (additional : List Header) (contentLength : Nat) (celExpr : Bytes) : List Header :=
  customSecurityHeaders ++ [(str "content-length", decimal contentLength), (certExprHeaderName, celExpr)] ++ additional

/-- `create_asset_response` (lib.rs:421-434). -/
def customResponse (additional : List Header) (body celExpr : Bytes) : HttpResponse :=
  { status := 200, headers := customHeaders additional body.length celExpr, body }

/-- `create_uncertified_response` (lib.rs:365-396); the page with the current time is taken as given. -/
def uncertifiedResponse (page : Bytes) : HttpResponse :=
  { status := 200, headers := customHeaders [(str "content-type", str "text/html")] page.length CelExpr.skip.toBytes, body := page }

/-- The certification part of the expression of `prepare_cel_exprs` (lib.rs:58-72): all headers. -/
def customCert : RespCert := .headerExclusions []

/-- The state (lib.rs:39-44) without the constant expression, and the certified data. -/
structure CustomSite where
  tree : CertTree
  encoded : Bytes × Bytes → Option StoredResponse
  responses : Bytes → Option StoredResponse
  certifiedData : Bytes

section
variable [SHA]

/-- `certify_asset_response` (lib.rs:237-274). `none` is a trap, here and below. -/
def certifyPlain (s : CustomSite) (body : Bytes) (additional : List Header) (treePath : HttpPath) (reqPath : Bytes) : Option CustomSite := do
  let res := customResponse additional body (CelExpr.responseOnly customCert).toBytes
  let cert ← (HttpCert.mkResponseOnly customCert res none).toOption
  let tree ← s.tree.insert ⟨treePath, cert⟩
  return { s with tree, responses := fun k => if k = reqPath then some ⟨res, cert⟩ else s.responses k }

/-- `certify_asset_with_encoding` (lib.rs:187-235). -/
def certifyEncoded (d : Front) (s : CustomSite) (filePath : Bytes) (treePath : HttpPath) (reqPath encoding : Bytes)
    (additional : List Header) : Option CustomSite :=
  match d.getFile (filePath ++ str "." ++ encoding) with
  | none => some s
  | some body => do
    let res := customResponse ((str "content-encoding", encoding) :: additional) body (CelExpr.responseOnly customCert).toBytes
    let cert ← (HttpCert.mkResponseOnly customCert res none).toOption
    let tree ← s.tree.insert ⟨treePath, cert⟩
    return { s with tree, encoded := fun k => if k = (reqPath, encoding) then some ⟨res, cert⟩ else s.encoded k }

/-- `certify_asset` (lib.rs:156-185). -/
def certifyCustomAsset (d : Front) (s : CustomSite) (body filePath : Bytes) (treePath : HttpPath) (reqPath : Bytes)
    (additional : List Header) : Option CustomSite := do
  let s ← certifyPlain s body additional treePath reqPath
  let s ← certifyEncoded d s filePath treePath reqPath (str "gzip") additional
  certifyEncoded d s filePath treePath reqPath (str "br") additional

/-- `certify_index_asset` (lib.rs:102-125), with the paths of lib.rs:48-54. -/
def certifyIndex (d : Front) (s : CustomSite) : Option CustomSite := do
  let body ← d.getFile (str "index.html")
  certifyCustomAsset d s body (str "index.html") (.wildcard (str "")) (str "")
    [(str "content-type", str "text/html"), (str "cache-control", str "public, no-cache, no-store")]

/-- The request path of a file (lib.rs:129-133). -/
def frontPath (filePath : Bytes) : Bytes := if filePath.head? = some slashByte then filePath else slashByte :: filePath

/-- `certify_asset_glob` (lib.rs:119-154). -/
def certifyGlob [PathGlob] (d : Front) (s : CustomSite) (glob contentType : Bytes) : Option CustomSite := do
  let files ← d.find glob
  files.foldlM (fun s f => certifyCustomAsset d s f.2 f.1 (.exact (frontPath f.1)) (frontPath f.1)
    [(str "content-type", contentType), (str "cache-control", str "public, max-age=31536000, immutable")]) s

/-- The entry of `add_certification_skips` (lib.rs:88-100) and of the handler (lib.rs:291-299). -/
def uncertifiedEntry : CertEntry := ⟨.exact (str "/uncertified"), .mkSkip⟩

/-- The patterns and content types of lib.rs:80-83. -/
def customTypes : List (Bytes × Bytes) :=
  [(str "assets/**/*.css", str "text/css"), (str "assets/**/*.js", str "text/javascript"),
   (str "assets/**/*.ico", str "image/x-icon"), (str "assets/**/*.svg", str "image/svg+xml")]

/-- `init`, also run after an upgrade, in a fresh state (lib.rs:17-26), with `certify_all_assets` and `update_certified_data`
(lib.rs:76-86, 276-280). -/
def CustomSite.init [PathGlob] (d : Front) : Option CustomSite := do
  let tree ← CertTree.default.insert uncertifiedEntry
  let s : CustomSite := { tree, encoded := fun _ => none, responses := fun _ => none, certifiedData := [] }
  let s ← certifyIndex d s
  let s ← customTypes.foldlM (fun s t => certifyGlob d s t.1 t.2) s
  return { s with certifiedData := s.tree.rootHash.1 }

/-- The first `accept-encoding` header (lib.rs:315-321). `to_lowercase` maps no letter but `A`-`Z` to a letter of that name. -/
def customAccept (req : HttpRequest) : Option Bytes :=
  (req.headers.find? (fun h => lower h.1 = str "accept-encoding")).map Prod.snd

/-- The choice of the encoding (lib.rs:323-346); `contains` is an infix of the UTF-8 bytes. -/
def CustomSite.choose (s : CustomSite) (reqPath : Bytes) (plain : StoredResponse) (accept : Option Bytes) : StoredResponse :=
  match accept with
  | none => plain
  | some v =>
    match (if str "br" <:+: v then s.encoded (reqPath, str "br") else none) with
    | some r => r
    | none =>
      match (if str "gzip" <:+: v then s.encoded (reqPath, str "gzip") else none) with
      | some r => r
      | none => plain

/-- `http_request` with `asset_handler` (lib.rs:28-31, 283-363). `dataCert` is what the system gives to a query, `page` the body of
the uncertified response. -/
def CustomSite.httpRequest [UriLib] (s : CustomSite) (dataCert page : Bytes) (req : HttpRequest) : Option HttpResponse := do
  let path ← req.getPath.toOption
  let (reqPath, treePath, plain) ←
    if path = str "/uncertified" then
      some (str "/uncertified", HttpPath.exact (str "/uncertified"), (⟨uncertifiedResponse page, .mkSkip⟩ : StoredResponse))
    else match s.responses path with
      | some r => some (path, HttpPath.exact path, r)
      | none => (s.responses (str "")).map (fun r => (str "", HttpPath.wildcard (str ""), r))
  let chosen := s.choose reqPath plain (customAccept req)
  let w ← (s.tree.witness ⟨treePath, chosen.cert⟩ path).bind Except.toOption
  return addV2CertificateHeader dataCert chosen.response w treePath.toExprPath

end
end Verif
