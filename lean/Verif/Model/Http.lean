import Verif.Model.Rih
import Verif.Model.HttpPath

/-!
# Model of HTTP requests and responses and of their hashes

`ic-http-certification/src/http/{http_request,http_response}.rs`, `cel/cel_types.rs`,
`hash/{request_hash,response_hash}.rs`. Strings are UTF-8 bytes.
-/

namespace Verif

/-- `u8::to_ascii_lowercase`. -/
def lowerByte (b : UInt8) : UInt8 := if 0x41 ≤ b ∧ b ≤ 0x5A then b + 0x20 else b

/-- `str::to_ascii_lowercase` on UTF-8 bytes (bytes of non-ASCII characters are ≥ 0x80 and unchanged). -/
def lower (b : Bytes) : Bytes := b.map lowerByte

/-- `str::eq_ignore_ascii_case`. -/
def eqIgnoreCase (a b : Bytes) : Bool := lower a == lower b

/-- `HeaderField = (String, String)` (http/header_field.rs). -/
abbrev Header := Bytes × Bytes

/-- `HttpRequest` (http_request.rs:89-105) without `certificate_version`, which no modelled function reads. The
method is its text (`Method::as_str`). -/
structure HttpRequest where
  method : Bytes
  url : Bytes
  headers : List Header
  body : Bytes
deriving DecidableEq, Repr

/-- `HttpResponse` (http_response.rs:66-79) without `upgrade`. -/
structure HttpResponse where
  status : UInt16
  headers : List Header
  body : Bytes
deriving DecidableEq, Repr

/-- External libraries used on URLs: `http::Uri::from_str` (giving the path and the optional query of the URL,
`none` if it does not parse) and `urlencoding::decode` (`none` if the result is not UTF-8). Parameters. -/
class UriLib where
  parse : Bytes → Option (Bytes × Option Bytes)
  decode : Bytes → Option Bytes

/-- `HttpCertificationError`, the variants that modelled functions return (error.rs). -/
inductive HttpError where
  | malformedUrl (url : Bytes)
  | urlDecoding (path : Bytes)
  | expressionHeaderMissing (expected : Bytes)
  | expressionHeaderMismatch (expected actual : Bytes)
  | multipleExpressionHeaders (expected : Bytes)
deriving DecidableEq, Repr

section
variable [UriLib]

/-- `HttpRequest::get_path` (http_request.rs:338-347). -/
def HttpRequest.getPath (r : HttpRequest) : Except HttpError Bytes :=
  match UriLib.parse r.url with
  | none => .error (.malformedUrl r.url)
  | some (path, _) =>
    match UriLib.decode path with
    | none => .error (.urlDecoding path)
    | some p => .ok p

/-- `HttpRequest::get_query` (http_request.rs:359-364). -/
def HttpRequest.getQuery (r : HttpRequest) : Except HttpError (Option Bytes) :=
  match UriLib.parse r.url with
  | none => .error (.malformedUrl r.url)
  | some (_, q) => .ok q

end

/-- `DefaultRequestCertification` (cel_types.rs). -/
structure ReqCert where
  headers : List Bytes
  queryParams : List Bytes
deriving DecidableEq, Repr

/-- `DefaultResponseCertification` (cel_types.rs). -/
inductive RespCert where
  | certifiedHeaders (hs : List Bytes)
  | headerExclusions (hs : List Bytes)
deriving DecidableEq, Repr

/-- `CelExpression` / `DefaultCelExpression` (cel_types.rs). -/
inductive CelExpr where
  | skip
  | responseOnly (response : RespCert)
  | full (request : ReqCert) (response : RespCert)
deriving DecidableEq, Repr

/-- `get_filtered_headers` (request_hash.rs:35-60). -/
def filteredReqHeaders (headers : List Header) (c : ReqCert) : List (Bytes × RValue) :=
  headers.filterMap (fun h =>
    if c.headers.any (fun i => eqIgnoreCase i h.1) then some (lower h.1, RValue.string h.2) else none)

/-- `get_filtered_query` (request_hash.rs:62-84). `split('=').take(1)` of a string is never empty, so the
`unwrap_or(false)` branch is unreachable; here the head of the split. -/
def filteredQuery (query : Bytes) (c : ReqCert) : Bytes :=
  let frags := (query.splitOn 0x26).filter (fun frag =>
    match (frag.splitOn 0x3D).head? with
    | some name => c.queryParams.any (fun i => eqIgnoreCase i name)
    | none => false)
  [0x26].intercalate frags

/-- The map hashed by `request_hash` (request_hash.rs:12-24). -/
def requestMap (r : HttpRequest) (c : ReqCert) (query : Option Bytes) : List (Bytes × RValue) :=
  filteredReqHeaders r.headers c ++ [(str ":ic-cert-method", RValue.string r.method)] ++
    (match query with
      | some q => [(str ":ic-cert-query", RValue.string (filteredQuery q c))]
      | none => [])

/-- `request_hash` (request_hash.rs:8-33). -/
def requestHash [SHA] [UriLib] (r : HttpRequest) (c : ReqCert) : Except HttpError Hash :=
  match r.getQuery with
  | .error e => .error e
  | .ok q => .ok (sha ((rih (requestMap r c q)).1 ++ (sha r.body).1))

/-- `CERTIFICATE_HEADER_NAME` (response_hash.rs:6). -/
def certHeaderName : Bytes := str "IC-Certificate"
/-- `CERTIFICATE_EXPRESSION_HEADER_NAME` (response_hash.rs:9). -/
def certExprHeaderName : Bytes := str "IC-CertificateExpression"

/-- `ResponseHeaders` (response_hash.rs:15-20). -/
structure ResponseHeaders where
  headers : List Header
  certificate : Option Bytes
deriving DecidableEq, Repr

/-- The closure `headers_filter` (response_hash.rs:28-43). -/
def RespCert.filter : RespCert → Bytes → Bool
  | .certifiedHeaders hs, name => hs.any (fun i => eqIgnoreCase i name)
  | .headerExclusions hs, name => !hs.any (fun i => eqIgnoreCase i name)

/-- `filter_response_headers` (response_hash.rs:24-84): the `filter_map` closure also stores the last
IC-Certificate value seen. -/
def filterResponseHeaders (r : HttpResponse) (c : RespCert) : ResponseHeaders :=
  { headers := r.headers.filterMap (fun h =>
      if eqIgnoreCase h.1 certHeaderName then none
      else if eqIgnoreCase h.1 certExprHeaderName then some (lower h.1, h.2)
      else if c.filter h.1 then some (lower h.1, h.2)
      else none)
    certificate := r.headers.foldl (fun acc h => if eqIgnoreCase h.1 certHeaderName then some h.2 else acc) none }

/-- `RESPONSE_STATUS_PSEUDO_HEADER_NAME` (response_hash.rs:11). -/
def statusPseudo : Bytes := str ":ic-cert-status"

/-- The map hashed by `response_headers_hash` (response_hash.rs:89-104). -/
def responseMap (status : UInt64) (rh : ResponseHeaders) : List (Bytes × RValue) :=
  rh.headers.map (fun h => (h.1, RValue.string h.2)) ++ [(statusPseudo, RValue.number status)]

/-- `response_headers_hash` (response_hash.rs:89-107). -/
def responseHeadersHash [SHA] (status : UInt64) (rh : ResponseHeaders) : Hash := rih (responseMap status rh)

/-- `response_hash` (response_hash.rs:115-130). -/
def responseHash [SHA] (r : HttpResponse) (c : RespCert) (bodyHash : Option Hash) : Hash :=
  let bh := bodyHash.getD (sha r.body)
  sha ((responseHeadersHash r.status.toUInt64 (filterResponseHeaders r c)).1 ++ bh.1)

end Verif
