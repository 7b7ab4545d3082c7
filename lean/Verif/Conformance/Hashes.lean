import Verif.Conformance.Util
import Verif.Model.Http

/-! # The tests of packages/ic-http-certification/src/hash/{request_hash,response_hash}.rs -/

namespace Verif.Conformance
open Verif
attribute [local instance] realSHA
set_option maxRecDepth 100000

/-- Everything after `scheme://authority` of an absolute URL; a relative URL as it is. -/
def afterAuthority (u : Bytes) : Bytes :=
  match u.splitOn 0x2F with
  | scheme :: [] :: authority :: _ =>
    if scheme.getLast? = some 0x3A then
      u.drop (scheme.length + 2 + (authority.takeWhile (fun c => c != 0x3F && c != 0x23)).length)
    else u
  | _ => u

/-- `urlencoding::decode` on ASCII text. -/
def percentDecode : Bytes → Bytes
  | 0x25 :: a :: b :: r => (hexDigit (Char.ofNat a.toNat) * 16 + hexDigit (Char.ofNat b.toNat)).toUInt8 :: percentDecode r
  | a :: r => a :: percentDecode r
  | [] => []

/-- What `http::Uri` makes of the URLs of the tests: the fragment is dropped, then path and query are separated; an
empty path is `/`. -/
@[instance_reducible] def testUri : UriLib where
  parse u :=
    let rest := (afterAuthority u).takeWhile (· != 0x23)
    let path := rest.takeWhile (· != 0x3F)
    let query := rest.drop path.length
    some (if path = [] then [0x2F] else path, if query = [] then none else some (query.drop 1))
  decode b := some (percentDecode b)

attribute [local instance] testUri

def strs' (l : List String) : List Bytes := l.map str

/-- `create_request` (request_hash.rs:149-158). -/
def hashRequest (url : String) : HttpRequest where
  method := str "POST"
  url := str url
  headers := [(str "Accept-Language", str "en"), (str "Accept-Language", str "en-US"), (str "Host", str "https://ic0.app")]
  body := [0, 1, 2, 3, 4, 5, 6]

def reqHash (url : String) (headers query : List String) : Option Bytes :=
  match requestHash (hashRequest url) { headers := strs' headers, queryParams := strs' query } with
  | .ok h => some h.1
  | .error _ => none

/-- `request_hash_without_query` (request_hash.rs:92-103). -/
example : reqHash "https://ic0.app" ["host"] [] =
    some (hex "10796453466efb3e333891136b8a5931269f77e40ead9d437fcee94a02fa833c") := by decide +kernel

/-- `request_hash_with_query`, `request_hash_query_order_matters`, `request_hash_query_with_fragment_does_not_change`
(request_hash.rs:105-147). -/
example :
    reqHash "https://ic0.app?q=hello+world&name=foo&name=bar&color=purple" ["host"] ["q", "name"] =
      some (hex "3ade1c9054f05bc8bcebd3fd7b884078a6e67c63e5ac4a639fa46a47f5a955c9") ∧
    reqHash "https://ic0.app?q=hello+world&name=bar&name=foo&color=purple" ["host"] ["q", "name"] ≠
      some (hex "3ade1c9054f05bc8bcebd3fd7b884078a6e67c63e5ac4a639fa46a47f5a955c9") ∧
    reqHash "https://ic0.app?q=hello+world&name=foo&name=bar&color=purple#index.html" ["host"] ["q", "name"] =
      some (hex "3ade1c9054f05bc8bcebd3fd7b884078a6e67c63e5ac4a639fa46a47f5a955c9") := by decide +kernel

/-- The expressions of response_hash.rs:139-164, after `remove_whitespace`. -/
def exclusionsCel : Bytes := str "default_certification(ValidationArgs{certification:Certification{" ++ str
  "no_request_certification:Empty{},response_certification:ResponseCertification{" ++ str
  "response_header_exclusions:ResponseHeaderList{headers:[\"Content-Security-Policy\"]}}}})"
def certifiedCel : Bytes := str "default_certification(ValidationArgs{certification:Certification{" ++ str
  "no_request_certification:Empty{},response_certification:ResponseCertification{" ++ str
  "certified_response_headers:ResponseHeaderList{headers:[\"Accept-Encoding\",\"Cache-Control\"]}}}})"

def certificateText : Bytes := str "certificate=:SGVsbG8gQ2VydGlmaWNhdGUh:,tree=:SGVsbG8gVHJlZSE=:"

/-- `create_response` (response_hash.rs:435-452). -/
def hashResponse (cel : Bytes) : HttpResponse where
  status := 200
  headers := [(str "IC-Certificate", certificateText), (str "IC-CertificateExpression", cel),
    (str "Accept-Encoding", str "gzip"), (str "Cache-Control", str "no-cache"), (str "Cache-Control", str "no-store"),
    (str "Content-Security-Policy", str "default-src 'self'")]
  body := [72, 101, 108, 108, 111, 32, 87, 111, 114, 108, 100, 33]

def certifiedBoth : RespCert := .certifiedHeaders (strs' ["Accept-Encoding", "Cache-Control"])
def certifiedOne : RespCert := .certifiedHeaders (strs' ["Accept-Encoding"])
def excludedBoth : RespCert := .headerExclusions (strs' ["Accept-Encoding", "Cache-Control"])
def excludedCsp : RespCert := .headerExclusions (strs' ["Content-Security-Policy"])

/-- `response_with_certified_headers_without_excluded_headers` and `response_with_certified_headers`
(response_hash.rs:166-208). -/
example :
    (filterResponseHeaders (hashResponse certifiedCel) certifiedOne).headers =
      [(str "ic-certificateexpression", certifiedCel), (str "accept-encoding", str "gzip")] ∧
    (filterResponseHeaders (hashResponse certifiedCel) certifiedBoth).headers =
      [(str "ic-certificateexpression", certifiedCel), (str "accept-encoding", str "gzip"),
       (str "cache-control", str "no-cache"), (str "cache-control", str "no-store")] := by decide +kernel

/-- `response_hash_with_certified_headers`, `response_hash_with_header_exclusions`,
`response_headers_hash_with_certified_headers`, `response_headers_hash_with_header_exclusions`,
`response_hash_with_body_hash_override` (response_hash.rs:210-433). -/
example :
    (responseHash (hashResponse certifiedCel) certifiedBoth none).1 =
      hex "3393250e3cedc30408dcb7e8963898c3d7549b8a0b76496b82fdfeae99c2ac78" ∧
    (responseHash (hashResponse exclusionsCel) excludedBoth none).1 =
      hex "a2ffb50ef8971650c2fb46c0a2788b7d5ac5a027d635175e8e06b419ce6c4cda" ∧
    (responseHeadersHash 200 (filterResponseHeaders (hashResponse certifiedCel) certifiedBoth)).1 =
      hex "eac859a99d5bd7b71f46dbacecff4aaa0a7a7131802c136a77a76c8e018af5f7" ∧
    (responseHeadersHash 200 (filterResponseHeaders (hashResponse exclusionsCel) excludedBoth)).1 =
      hex "d618f70bf2578d5a672374ffbaade3910e858384f42d01ac2863946ab596bcac" ∧
    (responseHash (hashResponse certifiedCel) certifiedBoth
        (some (hexHash "5462fc394013080effc31d578ec3fff8b44cdf24738b38a77ce4afacbc93a7f5"))).1 =
      hex "1afc744a377cb8785d1078f53f9bbc9160d86b7a05f490e42c89366326eaef20" := by decide +kernel

/-- The four tests `…_without_excluded_headers` (response_hash.rs:227-414): headers that are not certified do not
change the hash. -/
example :
    filterResponseHeaders (hashResponse certifiedCel) certifiedOne =
      filterResponseHeaders { hashResponse certifiedCel with
        headers := [(str "IC-Certificate", certificateText), (str "IC-CertificateExpression", certifiedCel),
          (str "Accept-Encoding", str "gzip")] } certifiedOne ∧
    filterResponseHeaders (hashResponse exclusionsCel) excludedCsp =
      filterResponseHeaders { hashResponse exclusionsCel with
        headers := [(str "IC-Certificate", certificateText), (str "IC-CertificateExpression", exclusionsCel),
          (str "Accept-Encoding", str "gzip"), (str "Cache-Control", str "no-cache"),
          (str "Cache-Control", str "no-store")] } excludedCsp := by decide +kernel

end Verif.Conformance
