import Verif.Model.AssetsExample
import Verif.Model.CustomAssets
import Verif.Model.TodoApi

/-!
# Properties C63, C67 and C60: the security headers, as the examples promise them
-/

namespace Verif.Props
open Verif

/-- The headers that both sites promise, but for the content security policy: HTTPS for a year, no framing, no sniffing of types, no
referrer, none of the device interfaces, isolation from other origins. -/
def promisedHeaders : List Header :=
  [(str "strict-transport-security", str "max-age=31536000; includeSubDomains"),
   (str "x-frame-options", str "DENY"),
   (str "x-content-type-options", str "nosniff"),
   (str "referrer-policy", str "no-referrer"),
   (str "permissions-policy", str "accelerometer=(),ambient-light-sensor=(),autoplay=(),battery=(),camera=(),display-capture=(),document-domain=(),encrypted-media=(),fullscreen=(),gamepad=(),geolocation=(),gyroscope=(),layout-animations=(self),legacy-image-formats=(self),magnetometer=(),microphone=(),midi=(),oversized-images=(self),payment=(),picture-in-picture=(),publickey-credentials-get=(),speaker-selection=(),sync-xhr=(self),unoptimized-images=(self),unsized-media=(self),usb=(),screen-wake-lock=(),web-share=(),xr-spatial-tracking=()"),
   (str "cross-origin-embedder-policy", str "require-corp"),
   (str "cross-origin-opener-policy", str "same-origin")]

/-- **C63**, **C67**: what the two sites call their security headers contains the promised ones and the content security policy. -/
theorem C63_security {hs : List Header} (h : securityHeaders ⊆ hs) : promisedHeaders ⊆ hs ∧
    (str "content-security-policy",
      str "default-src 'self'; img-src 'self' data:; form-action 'self'; object-src 'none'; frame-ancestors 'none'; upgrade-insecure-requests; block-all-mixed-content") ∈ hs :=
  ⟨fun x hx => h (by revert x; simp [promisedHeaders, securityHeaders]), h (by simp [securityHeaders])⟩

theorem C67_security {hs : List Header} (h : customSecurityHeaders ⊆ hs) : promisedHeaders ⊆ hs ∧
    (str "content-security-policy",
      str "default-src 'self'; form-action 'self'; object-src 'none'; frame-ancestors 'none'; upgrade-insecure-requests; block-all-mixed-content") ∈ hs :=
  ⟨fun x hx => h (by revert x; simp [promisedHeaders, customSecurityHeaders]), h (by simp [customSecurityHeaders])⟩

/-- **C67**: the uncertified page of the custom-assets example is HTML of the length announced, with the promised headers and the
expression for responses without certification, and nothing else. -/
theorem C67_uncertified_headers (page : Bytes) :
    ((uncertifiedResponse page).headers).Perm (customSecurityHeaders ++ [(str "content-type", str "text/html"),
      (str "content-length", decimal page.length), (str "IC-CertificateExpression", CelExpr.skip.toBytes)]) ∧
    promisedHeaders ⊆ (uncertifiedResponse page).headers := by
  have h : ((uncertifiedResponse page).headers).Perm (customSecurityHeaders ++ [(str "content-type", str "text/html"),
      (str "content-length", decimal page.length), (str "IC-CertificateExpression", CelExpr.skip.toBytes)]) := by
    unfold uncertifiedResponse customHeaders
    exact List.perm_iff_count.2 (fun a => by simp [List.count_append, List.count_cons, certExprHeaderName]; omega)
  exact ⟨h, (C67_security (fun x hx => h.symm.subset (List.mem_append_left _ hx))).1⟩

/-- **C60**: every response of the todo example is JSON and carries the promised headers: HTTPS, no sniffing, no referrer, no storing. -/
theorem C60_security (status : UInt16) (body : Bytes) :
    (todoResponse status body).headers =
      [(str "content-type", str "application/json"),
       (str "strict-transport-security", str "max-age=31536000; includeSubDomains"),
       (str "x-content-type-options", str "nosniff"), (str "referrer-policy", str "no-referrer"),
       (str "cache-control", str "no-store, max-age=0"), (str "pragma", str "no-cache")] := rfl

/-- **C60**: the texts of the error answers, and the methods answered with them. -/
theorem C60_errors :
    notAllowedBody = str "{\"err\":{\"code\":405,\"message\":\"Method not allowed\"}}" ∧
    notFoundBody = str "{\"err\":{\"code\":404,\"message\":\"Not found\"}}" ∧
    notAllowedMethods = [str "HEAD", str "PUT", str "PATCH", str "OPTIONS", str "TRACE", str "CONNECT"] ∧
    catchAllMethods = [str "GET", str "HEAD", str "PUT", str "OPTIONS", str "TRACE", str "CONNECT"] := ⟨rfl, rfl, rfl, rfl⟩

end Verif.Props
