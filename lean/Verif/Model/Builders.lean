import Verif.Model.Certification

/-!
# Model of the request, response and CEL builders

`ic-http-certification/src/http/{http_request,http_response}.rs`, `cel/{cel_builder,cel_types}.rs`. Here requests and
responses carry all their fields, also `certificate_version` and `upgrade`; `.plain` gives the records used elsewhere.
`Cow` is the data it holds.
-/

namespace Verif

/-- `HttpRequest` (http_request.rs:89-105) with all fields. -/
structure FullRequest where
  method : Bytes
  url : Bytes
  headers : List Header
  body : Bytes
  certificateVersion : Option UInt16
deriving DecidableEq, Repr

/-- `HttpUpdateRequest` (http_request.rs:640-652). -/
structure UpdateRequest where
  method : Bytes
  url : Bytes
  headers : List Header
  body : Bytes
deriving DecidableEq, Repr

/-- `HttpResponse` (http_response.rs:66-79) with all fields. -/
structure FullResponse where
  status : UInt16
  headers : List Header
  body : Bytes
  upgrade : Option Bool
deriving DecidableEq, Repr

/-- `HttpUpdateResponse` (http_response.rs:494-503). -/
structure UpdateResponse where
  status : UInt16
  headers : List Header
  body : Bytes
deriving DecidableEq, Repr

/-- The record used in the rest of the model. -/
def FullRequest.plain (r : FullRequest) : HttpRequest := ⟨r.method, r.url, r.headers, r.body⟩
/-- The record used in the rest of the model. -/
def UpdateRequest.plain (r : UpdateRequest) : HttpRequest := ⟨r.method, r.url, r.headers, r.body⟩
/-- The record used in the rest of the model. -/
def FullResponse.plain (r : FullResponse) : HttpResponse := ⟨r.status, r.headers, r.body⟩

/-- `StatusCodeWrapper::deserialize` (http_response.rs:26-37) after `u16::deserialize`: `StatusCode::from_u16` accepts 100
to 999. `idl_serialize` (http_response.rs:18-23) writes the number. -/
def statusFromWire (n : UInt16) : Option UInt16 := if 100 ≤ n ∧ n < 1000 then some n else none

/-- `HttpRequestBuilder` (http_request.rs:392-398). -/
structure RequestBuilder where
  method : Option Bytes
  url : Option Bytes
  headers : List Header
  body : Bytes
  certificateVersion : Option UInt16

namespace RequestBuilder
/-- `HttpRequestBuilder::new` (http_request.rs:424-426), the derived `Default`. -/
def new : RequestBuilder := ⟨none, none, [], [], none⟩
/-- `with_method` (http_request.rs:445-449). -/
def withMethod (b : RequestBuilder) (x : Bytes) : RequestBuilder := { b with method := some x }
/-- `with_url` (http_request.rs:468-472). -/
def withUrl (b : RequestBuilder) (x : Bytes) : RequestBuilder := { b with url := some x }
/-- `with_headers` (http_request.rs:490-494). -/
def withHeaders (b : RequestBuilder) (x : List Header) : RequestBuilder := { b with headers := x }
/-- `with_body` (http_request.rs:513-517). -/
def withBody (b : RequestBuilder) (x : Bytes) : RequestBuilder := { b with body := x }
/-- `with_certificate_version` (http_request.rs:537-541). -/
def withCertificateVersion (b : RequestBuilder) (x : UInt16) : RequestBuilder := { b with certificateVersion := some x }
/-- `build` (http_request.rs:570-578). -/
def build (b : RequestBuilder) : FullRequest :=
  ⟨b.method.getD (str "GET"), b.url.getD (str "/"), b.headers, b.body, b.certificateVersion⟩
/-- `build_update` (http_request.rs:604-611). -/
def buildUpdate (b : RequestBuilder) : UpdateRequest :=
  ⟨b.method.getD (str "GET"), b.url.getD (str "/"), b.headers, b.body⟩
end RequestBuilder

/-- `HttpRequest::get` and its siblings (http_request.rs:123-211): a builder with method and URL. -/
def FullRequest.startWith (method url : Bytes) : RequestBuilder := (RequestBuilder.new.withMethod method).withUrl url

/-- `From<HttpRequest> for HttpUpdateRequest` (http_request.rs:763-772). -/
def FullRequest.toUpdate (r : FullRequest) : UpdateRequest := ⟨r.method, r.url, r.headers, r.body⟩

/-- `HttpResponseBuilder` (http_response.rs:244-249). -/
structure ResponseBuilder where
  status : Option UInt16
  headers : List Header
  body : Bytes
  upgrade : Option Bool

namespace ResponseBuilder
/-- `HttpResponseBuilder::new` (http_response.rs:272-274), the derived `Default`. -/
def new : ResponseBuilder := ⟨none, [], [], none⟩
/-- `with_status_code` (http_response.rs:291-295). -/
def withStatus (b : ResponseBuilder) (x : UInt16) : ResponseBuilder := { b with status := some x }
/-- `with_headers` (http_response.rs:312-316). -/
def withHeaders (b : ResponseBuilder) (x : List Header) : ResponseBuilder := { b with headers := x }
/-- `with_body` (http_response.rs:334-338). -/
def withBody (b : ResponseBuilder) (x : Bytes) : ResponseBuilder := { b with body := x }
/-- `with_upgrade` (http_response.rs:356-360). -/
def withUpgrade (b : ResponseBuilder) (x : Bool) : ResponseBuilder := { b with upgrade := some x }
/-- `build` (http_response.rs:385-392). -/
def build (b : ResponseBuilder) : FullResponse := ⟨b.status.getD 200, b.headers, b.body, b.upgrade⟩
/-- `build_update` (http_response.rs:416-422). -/
def buildUpdate (b : ResponseBuilder) : UpdateResponse := ⟨b.status.getD 200, b.headers, b.body⟩
end ResponseBuilder

/-- `From<HttpResponse> for HttpResponseBuilder` (http_response.rs:425-434). -/
def FullResponse.toBuilder (r : FullResponse) : ResponseBuilder := ⟨some r.status, r.headers, r.body, r.upgrade⟩
/-- `From<HttpResponse> for HttpUpdateResponse` (http_response.rs:601-609). -/
def FullResponse.toUpdate (r : FullResponse) : UpdateResponse := ⟨r.status, r.headers, r.body⟩
/-- `HttpResponse::add_header` (http_response.rs:179-181). -/
def FullResponse.addHeader (r : FullResponse) (h : Header) : FullResponse := { r with headers := r.headers ++ [h] }

/-- `Ord` of pairs of strings. -/
def headerLe (a b : Header) : Prop := a.1 < b.1 ∨ a.1 = b.1 ∧ a.2 ≤ b.2

instance : DecidableRel headerLe := fun _ _ => inferInstanceAs (Decidable (_ ∨ _))

/-- `PartialEq for HttpResponse` (http_response.rs:436-449): headers are sorted first. -/
def FullResponse.eqv (a b : FullResponse) : Bool :=
  a.status == b.status && a.headers.insertionSort headerLe == b.headers.insertionSort headerLe &&
    a.body == b.body && a.upgrade == b.upgrade

/-- `Default for DefaultResponseCertification` (cel_types.rs:178-182). -/
def RespCert.default : RespCert := .certifiedHeaders []

/-- `DefaultResponseOnlyCelBuilder` (cel_builder.rs:36-38). -/
structure ResponseOnlyBuilder where
  response : RespCert

/-- `DefaultFullCelExpressionBuilder` (cel_builder.rs:65-69). -/
structure FullCelBuilder where
  requestHeaders : List Bytes
  queryParams : List Bytes
  response : RespCert

/-- `DefaultCelBuilder::response_only_certification` (cel_builder.rs:21-23). -/
def ResponseOnlyBuilder.new : ResponseOnlyBuilder := ⟨.default⟩
/-- `with_response_certification` (cel_builder.rs:45-52). -/
def ResponseOnlyBuilder.withResponse (_ : ResponseOnlyBuilder) (c : RespCert) : ResponseOnlyBuilder := ⟨c⟩
/-- `build` (cel_builder.rs:55-59), as a CEL expression. -/
def ResponseOnlyBuilder.build (b : ResponseOnlyBuilder) : CelExpr := .responseOnly b.response

namespace FullCelBuilder
/-- `DefaultCelBuilder::full_certification` (cel_builder.rs:28-30). -/
def new : FullCelBuilder := ⟨[], [], .default⟩
/-- `with_request_headers` (cel_builder.rs:76-80). -/
def withRequestHeaders (b : FullCelBuilder) (x : List Bytes) : FullCelBuilder := { b with requestHeaders := x }
/-- `with_request_query_parameters` (cel_builder.rs:86-93). -/
def withQueryParams (b : FullCelBuilder) (x : List Bytes) : FullCelBuilder := { b with queryParams := x }
/-- `with_response_certification` (cel_builder.rs:99-106). -/
def withResponse (b : FullCelBuilder) (x : RespCert) : FullCelBuilder := { b with response := x }
/-- `build` (cel_builder.rs:109-117), as a CEL expression. -/
def build (b : FullCelBuilder) : CelExpr := .full ⟨b.requestHeaders, b.queryParams⟩ b.response
end FullCelBuilder

end Verif
