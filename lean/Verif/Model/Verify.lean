import Verif.Model.CertVerify
import Verif.Model.Certification

/-!
# Model of response verification

`ic-response-verification/src/verification/{verify_request_response_pair,body}.rs` and
`validation/{common,v1,v2}_validation.rs`.
-/

namespace Verif

/-- External decompression (`flate2`): `none` if reading fails. A parameter. -/
class Inflate where
  gunzip : Bytes → Option Bytes
  inflate : Bytes → Option Bytes

/-- `VerifiedResponse` (types/verified_response.rs:16-24). -/
structure VerifiedResponse where
  statusCode : Option UInt16
  headers : List Header
  body : Bytes
deriving DecidableEq, Repr

/-- `VerificationInfo` (types/verification_result.rs:18-25). -/
structure VerificationInfo where
  response : Option VerifiedResponse
  version : Nat
deriving DecidableEq, Repr

/-- `headers.get(name)` on the map of the response headers by lower case name, built at
verify_request_response_pair.rs:40-44: the last header of that name. `to_lowercase` is Unicode; only the Kelvin sign
lowercases to an ASCII letter, `k`, which occurs in none of the names looked up, so that comparison up to ASCII case
is the same. -/
def headerGet (hs : List Header) (name : Bytes) : Option Bytes :=
  hs.foldl (fun acc h => if lower h.1 == lower name then some h.2 else acc) none

section
variable [SHA]

/-- `validate_tree` (common_validation.rs:3-23). -/
def validateTree (canisterId : Bytes) (c : Certificate) (t : HashTree) : Bool :=
  match c.tree.lookupPath [str "canister", canisterId, str "certified_data"] with
  | .found w => w == t.digest.1
  | _ => false

/-- `validate_body` (v1_validation.rs:3-22). -/
def validateBody (t : HashTree) (path : Bytes) (bodySha : Hash) : Bool :=
  match t.lookupPath [str "http_assets", path] with
  | .found v => bodySha.1 == v
  | _ =>
    match t.lookupPath [str "http_assets", str "/index.html"] with
    | .found v => bodySha.1 == v
    | _ => false

/-- `path_might_exist_in_tree` (v2_validation.rs:18-20). -/
def mightExist (t : HashTree) (p : List Bytes) : Bool :=
  match t.lookupSubtree p with
  | .absent => false
  | _ => true

/-- `path_exists_in_tree` (v2_validation.rs:22-24). -/
def existsIn (t : HashTree) (p : List Bytes) : Bool :=
  match t.lookupSubtree p with
  | .found _ => true
  | _ => false

/-- `validate_expr_path` (v2_validation.rs:34-146). -/
def validateExprPath (exprPath : List Bytes) (requestPath : Bytes) (t : HashTree) : Out RvError Unit :=
  if ¬ exprPath.head? = some pathPrefix then .err .unexpectedPrefix
  else if ¬ (exprPath.getLast? = some exactTerm ∨ exprPath.getLast? = some wildTerm) then .err .unexpectedSuffix
  else
    let req := pathPrefix :: pathParts requestPath
    if exprPath = req ++ [exactTerm] then
      if existsIn t exprPath then .ok () else .err .exactNotFound
    else if exprPath.getLast? = some exactTerm then .err .exactMismatch
    else if mightExist t (req ++ [exactTerm]) then .err .exactMightExist
    else if ¬ isWildcardValid exprPath.dropLast req then .err .wildcardMismatch
    else
      match moreSpecificWildcards req exprPath with
      | none => .crash
      | some ws =>
        if ws.any (fun w => mightExist t (pathPrefix :: w)) then .err .moreSpecificMightExist
        else if existsIn t exprPath then .ok ()
        else .err .wildcardNotFound

/-- `validate_expr_hash` (v2_validation.rs:148-161). -/
def validateExprHash (exprPath : List Bytes) (exprHash : Hash) (t : HashTree) : Option HashTree :=
  match t.lookupSubtree (exprPath ++ [exprHash.1]) with
  | .found n => some n
  | _ => none

/-- `validate_hashes` (v2_validation.rs:163-192). The request hash is given exactly for full certifications. -/
def validateHashes (exprHash : Hash) (requestHash : Option Hash) (responseHash : Hash) (exprPath : List Bytes)
    (t : HashTree) (cel : CelExpr) : Bool :=
  match validateExprHash exprPath exprHash t with
  | none => false
  | some e =>
    let first : Bytes :=
      match cel, requestHash with
      | .full _ _, some h => h.1
      | _, _ => []
    match e.lookupSubtree [first, responseHash.1] with
    | .found r => r == .leaf []
    | _ => false

variable [UriLib] [Bls] [Inflate]

/-- `decode_body` (body.rs:7-13). -/
def decodeBody (body : Bytes) (encoding : Option Bytes) : Out RvError Bytes :=
  if encoding = some (str "gzip") then .ofOption .io (Inflate.gunzip body)
  else if encoding = some (str "deflate") then .ofOption .io (Inflate.inflate body)
  else .ok body

/-- The arguments of the verifier that do not change between calls: the machine, whether overflow checks are on, the
canister, the clock, the allowed offset and the root key. -/
structure Env where
  machine : Machine
  checks : Bool
  canisterId : Bytes
  now : Nat
  offset : Nat
  rootKey : Bytes

/-- `Certificate::verify` with the error converted. -/
def Env.verifyCert (env : Env) (c : Certificate) : Out RvError Unit :=
  match certVerify env.machine env.checks c env.canisterId env.rootKey env.now env.offset with
  | .ok () => .ok ()
  | .err e => .err (.certificate e)
  | .crash => .crash

/-- `v1_verification` (verify_request_response_pair.rs:120-170). -/
def v1Verification (env : Env) (req : HttpRequest) (res : HttpResponse) (tree : HashTree) (c : Certificate)
    (encoding : Option Bytes) : Out RvError VerificationInfo :=
  env.verifyCert c >>= fun _ =>
  Out.ofExcept .http req.getPath >>= fun path =>
  decodeBody res.body encoding >>= fun decoded =>
  if ¬ validateTree env.canisterId c tree then .err .invalidTree
  else
    let valid := validateBody tree path (sha decoded)
    let valid := if encoding.isSome ∧ ¬ valid then validateBody tree path (sha res.body) else valid
    if ¬ valid then .err .invalidBody
    else .ok { response := some { statusCode := none, headers := [], body := res.body }, version := 1 }

/-- `v2_verification` (verify_request_response_pair.rs:186-272). -/
def v2Verification (env : Env) (req : HttpRequest) (res : HttpResponse) (tree : HashTree) (c : Certificate)
    (exprPath : List Bytes) (exprHash : Hash) (cel : CelExpr) : Out RvError VerificationInfo :=
  Out.ofExcept .http req.getPath >>= fun path =>
  env.verifyCert c >>= fun _ =>
  if ¬ validateTree env.canisterId c tree then .err .invalidTree
  else
    validateExprPath exprPath path tree >>= fun _ =>
    match cel with
    | .skip =>
      if (validateExprHash exprPath exprHash tree).isSome then .ok { response := none, version := 2 }
      else .err .invalidExpressionPath
    | .responseOnly rc => finish none rc
    | .full qc rc => Out.ofExcept .http (requestHash req qc) >>= fun h => finish (some h) rc
where
  /-- verify_request_response_pair.rs:231-271. -/
  finish (reqHash : Option Hash) (rc : RespCert) : Out RvError VerificationInfo :=
    let bodyHash := sha res.body
    let rh := filterResponseHeaders res rc
    let headersHash := responseHeadersHash res.status.toUInt64 rh
    let respHash := sha (headersHash.1 ++ bodyHash.1)
    if validateHashes exprHash reqHash respHash exprPath tree cel then
      match rh.certificate with
      | none => .err .missingCertification
      | some v =>
        .ok { response := some { statusCode := some res.status, headers := rh.headers ++ [(certHeaderName, v)],
                                 body := res.body }, version := 2 }
    else .err .invalidHashes

/-- `verify_request_response_pair` (verify_request_response_pair.rs:30-106). Header values are Rust strings, so
`chars` succeeds on them. -/
def verifyPair (env : Env) (req : HttpRequest) (res : HttpResponse) (minVersion : Nat) : Out RvError VerificationInfo :=
  match headerGet res.headers certHeaderName with
  | none => .err .missingCertification
  | some headerText =>
    headerFrom env.machine ((chars headerText).getD []) >>= fun h =>
    if h.version < minVersion then .err .versionMismatch
    else if h.version = 1 then
      v1Verification env req res h.tree h.certificate (headerGet res.headers (str "content-encoding"))
    else if h.version = 2 then
      match headerGet res.headers certExprHeaderName with
      | none => .err .missingCertification
      | some expr =>
        match h.exprPath with
        | none => .err .missingExpressionPath
        | some exprPath =>
          Out.ofRun .cel (parseCelOn env.machine.celStack expr) >>= fun cel =>
          v2Verification env req res h.tree h.certificate exprPath (sha expr) cel
    else .err .unsupportedVersion

end
end Verif
