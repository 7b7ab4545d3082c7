import Verif.Model.CertTree
import Verif.Model.Certification
import Verif.Model.Header

/-!
# Model of the helpers that switch certification off for a whole canister

`ic-http-certification/src/utils/skip_certification.rs`.
-/

namespace Verif
open HashTree

section
variable [SHA]

/-- `skip_certification_asset_tree` (skip_certification.rs:77-88). -/
def skipAssetTree : HashTree :=
  .labeled (str "http_expr") (.labeled (str "<*>") (.labeled (sha CelExpr.skip.toBytes).1 (.leaf [])))

/-- `skip_certification_certified_data` (skip_certification.rs:73-75). -/
def skipCertifiedData : Hash := skipAssetTree.digest

/-- `add_skip_certification_header` (skip_certification.rs:47-59). `add_header` pushes at the end
(http/http_response.rs). -/
def addSkipCertificationHeader (dataCertificate : Bytes) (r : HttpResponse) : HttpResponse :=
  let r := addV2CertificateHeader dataCertificate r skipAssetTree (HttpPath.wildcard (str "")).toExprPath
  { r with headers := r.headers ++ [(certExprHeaderName, CelExpr.skip.toBytes)] }

end
end Verif
