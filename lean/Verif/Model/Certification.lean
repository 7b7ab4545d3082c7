import Verif.Model.CertTree
import Verif.Model.Cel

/-!
# Model of the constructors of `HttpCertification`

`ic-http-certification/src/tree/certification.rs`.
-/

namespace Verif

/-- The loop of `validate_response` (certification.rs:119-143); the flag is `found_header`. `str::to_lowercase` is
modelled by ASCII lowercasing: no other character lowercases to a letter of `ic-certificateexpression`. -/
def validateExprHeaderLoop (cel : Bytes) : List Header → Bool → Except HttpError Bool
  | [], found => .ok found
  | (name, value) :: hs, found =>
    if lower name == lower certExprHeaderName then
      if value == cel then
        if found then .error (.multipleExpressionHeaders cel)
        else validateExprHeaderLoop cel hs true
      else .error (.expressionHeaderMismatch cel value)
    else validateExprHeaderLoop cel hs found

/-- `validate_response` (certification.rs:116-152). -/
def validateExprHeader (r : HttpResponse) (cel : Bytes) : Except HttpError Unit := do
  let found ← validateExprHeaderLoop cel r.headers false
  if found then return () else .error (.expressionHeaderMissing cel)

section
variable [SHA]

/-- `HttpCertification::skip` (certification.rs:44-49). -/
def HttpCert.mkSkip : HttpCert := .skip (sha CelExpr.skip.toBytes)

/-- `HttpCertification::response_only` (certification.rs:53-69). -/
def HttpCert.mkResponseOnly (c : RespCert) (r : HttpResponse) (bodyHash : Option Hash) : Except HttpError HttpCert := do
  let cel := (CelExpr.responseOnly c).toBytes
  validateExprHeader r cel
  return .responseOnly (sha cel) (responseHash r c bodyHash)

/-- `HttpCertification::full` (certification.rs:73-91). -/
def HttpCert.mkFull [UriLib] (q : ReqCert) (c : RespCert) (req : HttpRequest) (r : HttpResponse)
    (bodyHash : Option Hash) : Except HttpError HttpCert := do
  let cel := (CelExpr.full q c).toBytes
  validateExprHeader r cel
  let rh ← requestHash req q
  return .full (sha cel) rh (responseHash r c bodyHash)

end
end Verif
