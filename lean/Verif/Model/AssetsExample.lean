import Verif.Model.Asset

/-!
# Model of the example canister `examples/http-certification/assets`

Line numbers refer to `examples/http-certification/assets/src/backend/src/lib.rs`.
-/

namespace Verif
open HashTree

/-- `include_dir::Dir` (used at lib.rs:62): the files, with path (from the root of the directory) and contents, and the
subdirectories. Paths are taken to be UTF-8, so that `to_string_lossy` (lib.rs:71) changes nothing. -/
inductive Dir where
  | mk (files : List (Bytes × Bytes)) (dirs : List Dir)

mutual
/-- `collect_assets` (lib.rs:65-77). -/
def Dir.collect : Dir → List Asset
  | .mk files dirs => files.map (fun f => Asset.new f.1 f.2) ++ Dir.collectAll dirs

/-- The loop over the subdirectories (lib.rs:74-76). -/
def Dir.collectAll : List Dir → List Asset
  | [] => []
  | d :: ds => d.collect ++ Dir.collectAll ds
end

/-- The default headers of `get_asset_headers` (lib.rs:225-234). -/
def securityHeaders : List Header :=
  [(str "strict-transport-security", str "max-age=31536000; includeSubDomains"),
   (str "x-frame-options", str "DENY"),
   (str "x-content-type-options", str "nosniff"),
   (str "content-security-policy", str "default-src 'self'; img-src 'self' data:; form-action 'self'; object-src 'none'; frame-ancestors 'none'; upgrade-insecure-requests; block-all-mixed-content"),
   (str "referrer-policy", str "no-referrer"),
   (str "permissions-policy", str "accelerometer=(),ambient-light-sensor=(),autoplay=(),battery=(),camera=(),display-capture=(),document-domain=(),encrypted-media=(),fullscreen=(),gamepad=(),geolocation=(),gyroscope=(),layout-animations=(self),legacy-image-formats=(self),magnetometer=(),microphone=(),midi=(),oversized-images=(self),payment=(),picture-in-picture=(),publickey-credentials-get=(),speaker-selection=(),sync-xhr=(self),unoptimized-images=(self),unsized-media=(self),usb=(),screen-wake-lock=(),web-share=(),xr-spatial-tracking=()"),
   (str "cross-origin-embedder-policy", str "require-corp"),
   (str "cross-origin-opener-policy", str "same-origin")]

/-- `get_asset_headers` (lib.rs:223-239). -/
def getAssetHeaders (additional : List Header) : List Header := securityHeaders ++ additional

/-- `IMMUTABLE_ASSET_CACHE_CONTROL` (lib.rs:63) as the header at lib.rs:103-106, 112-115, 121-124, 130-133. -/
def immutableCache : Header := (str "cache-control", str "public, max-age=31536000, immutable")

/-- `AssetEncoding::default_config` (ic-asset-certification/src/asset_config.rs:473-483). -/
def AssetEncoding.defaultConfig (e : AssetEncoding) : AssetEncoding × Bytes :=
  (e, match e with
    | .identity => []
    | .brotli => str ".br"
    | .zstd => str ".zst"
    | .gzip => str ".gz"
    | .deflate => str ".zz")

/-- `AssetEncoding::custom_config` (asset_config.rs:499-501). -/
def AssetEncoding.customConfig (e : AssetEncoding) (extension : Bytes) : AssetEncoding × Bytes := (e, extension)

/-- The encodings (lib.rs:82-85) with their default file extensions. -/
def siteEncodings : List (AssetEncoding × Bytes) := [AssetEncoding.brotli.defaultConfig, AssetEncoding.gzip.defaultConfig]

/-- The configurations (lib.rs:87-143). -/
def siteConfigs : List AssetConfig :=
  [.file (str "index.html") (some (str "text/html"))
     (getAssetHeaders [(str "cache-control", str "public, no-cache, no-store")])
     [{ scope := str "/", status := some 200 }] [str "/"] siteEncodings,
   .pattern (str "**/*.js") (some (str "text/javascript")) (getAssetHeaders [immutableCache]) siteEncodings,
   .pattern (str "**/*.css") (some (str "text/css")) (getAssetHeaders [immutableCache]) siteEncodings,
   .pattern (str "**/*.ico") (some (str "image/x-icon")) (getAssetHeaders [immutableCache]) [],
   .pattern (str "**/*.svg") (some (str "image/svg+xml")) (getAssetHeaders [immutableCache]) [],
   .redirect (str "/old-url") (str "/") .permanent]

section
variable [SHA]

/-- The entry for the metrics (lib.rs:153-156, 195-198). -/
def metricsEntry : CertEntry := ⟨.exact (str "/metrics"), .mkSkip⟩

/-- The state: the router, with the tree it shares with the canister (lib.rs:50-60), and the certified data. -/
structure Site where
  router : Router
  certifiedData : Bytes

variable [UriLib] [GlobLib]

/-- `certify_all_assets` (lib.rs:80-171), run by `init` and by `post_upgrade` (lib.rs:28-36) in a fresh state. `none` is a
trap. `values` is the order in which the router visits the assets (C45). -/
def Site.init (dir : Dir) (values : List Asset) : Option Site :=
  let effects := certifyAssets dir.collect values siteConfigs
  match effects.2 with
  | .error _ => none
  | .ok () =>
    match Router.new.applyAll (.treeInsert metricsEntry :: effects.1) with
    | some r => some { router := r, certifiedData := r.rootHash.1 }
    | none => none

/-- Installation and upgrades. The state is not stable: every upgrade starts afresh (lib.rs:33-36); one that traps is undone. -/
def Site.run (history : List (Dir × List Asset)) : Option Site :=
  history.foldl (fun s d => match Site.init d.1 d.2 with | some s' => some s' | none => s) none

/-- `serve_metrics` (lib.rs:174-210). The body, JSON of two counts and of the balance of the canister, is taken as given;
`unwrap` and the other failures are `none`. -/
def Site.serveMetrics (s : Site) (dataCertificate body : Bytes) : Option HttpResponse :=
  match s.router.tree.witness metricsEntry (str "/metrics") with
  | some (.ok w) =>
    let r := addV2CertificateHeader dataCertificate { status := 200, headers := [], body } w metricsEntry.path.toExprPath
    some { r with headers := r.headers ++ getAssetHeaders [(certExprHeaderName, CelExpr.skip.toBytes)] }
  | _ => none

/-- `http_request` with `serve_asset` (lib.rs:38-48, 212-221). `dataCertificate` is what the system gives to a query; `none` is a
trap. -/
def Site.httpRequest [UnstableSort] (s : Site) (m : Machine) (dataCertificate metrics : Bytes) (req : HttpRequest) :
    Option HttpResponse :=
  match req.getPath with
  | .error _ => none
  | .ok path =>
    if path = str "/metrics" then s.serveMetrics dataCertificate metrics
    else
      match s.router.serveAsset m dataCertificate req with
      | some (.ok r) => some r
      | _ => none

end
end Verif
