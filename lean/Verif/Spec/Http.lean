import Verif.Model.Http
import Verif.Spec.Rih

/-!
# Specification vocabulary for request and response hashes: what is certified
-/

namespace Verif

/-- Two header (or parameter) names are the same up to ASCII case. -/
def SameName (a b : Bytes) : Prop := lower a = lower b

instance (a b : Bytes) : Decidable (SameName a b) := by unfold SameName; infer_instance

/-- The certified request headers: those with a listed name; the name in lower case, the value verbatim. -/
def certifiedReqHeaders (c : ReqCert) (hs : List Header) : List Header :=
  (hs.filter (fun h => ∃ n ∈ c.headers, SameName n h.1)).map (fun h => (lower h.1, h.2))

/-- The name of a query fragment `name=value` is what precedes the first `=`. -/
def paramName (frag : Bytes) : Bytes := frag.takeWhile (· ≠ 0x3D)

/-- The certified query parameters, in the order they occur, as `name=value` fragments. -/
def certifiedParams (c : ReqCert) (query : Bytes) : List Bytes :=
  (query.splitOn 0x26).filter (fun f => ∃ n ∈ c.queryParams, SameName n (paramName f))

/-- Which response header names the certification covers: never IC-Certificate; always
IC-CertificateExpression; otherwise by the inclusion or exclusion list. -/
def RespCert.Certifies (c : RespCert) (name : Bytes) : Prop :=
  ¬ SameName name (str "ic-certificate") ∧ (SameName name (str "ic-certificateexpression") ∨
    match c with
    | .certifiedHeaders l => ∃ n ∈ l, SameName n name
    | .headerExclusions l => ¬ ∃ n ∈ l, SameName n name)

instance (c : RespCert) (name : Bytes) : Decidable (c.Certifies name) := by
  unfold RespCert.Certifies; cases c <;> infer_instance

/-- The certified response headers, name in lower case, value verbatim, in the order received. -/
def certifiedRespHeaders (c : RespCert) (hs : List Header) : List Header :=
  (hs.filter (fun h => c.Certifies h.1)).map (fun h => (lower h.1, h.2))

/-- All strings hashed by `request_hash` (the query being `q`). -/
def requestHashed [SHA] (r : HttpRequest) (c : ReqCert) (q : Option Bytes) : List Bytes :=
  ((rih (requestMap r c q)).1 ++ (sha r.body).1) :: r.body :: rihHashed (requestMap r c q)

/-- All strings hashed by `response_hash`. -/
def responseHashed [SHA] (r : HttpResponse) (c : RespCert) : List Bytes :=
  ((responseHeadersHash r.status.toUInt64 (filterResponseHeaders r c)).1 ++ (sha r.body).1) :: r.body ::
    rihHashed (responseMap r.status.toUInt64 (filterResponseHeaders r c))

end Verif
