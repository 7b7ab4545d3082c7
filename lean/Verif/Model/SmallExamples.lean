import Verif.Model.SkipCert
import Verif.Model.CustomAssets
import Verif.Model.Candid

/-!
# Model of the example canisters `skip-certification` and `upgrade-to-update-call`

`examples/http-certification/skip-certification/src/backend/src/lib.rs` and
`examples/http-certification/upgrade-to-update-call/src/rust-backend/src/lib.rs`.
-/

namespace Verif

/-- The page of `create_response` (skip-certification lib.rs:26-43); `time()` is a `u64`. -/
def skipPage (time : Nat) : Bytes :=
  str "\n            <html>\n                <head>\n                    <title>ICP Skip Certification</title>\n" ++
  str "                </head>\n\n                <body>\n                    <h1>ICP Skip Certification</h1>\n" ++
  str "                    <p>This is an example of an IC canister that skips certification.</p>\n" ++
  str "                    <p>Current timestamp: " ++ decimal time ++
  str "<b>\n                </body>\n            </html>\n        "

/-- `create_response` (skip-certification lib.rs:25-62); the eight security headers are those of the custom-assets example,
word for word. -/
def skipResponse (time : Nat) : FullResponse :=
  (((ResponseBuilder.new.withStatus 200).withHeaders
    (customSecurityHeaders ++ [(str "content-length", decimal (skipPage time).length), (str "content-type", str "text/html")])).withBody
      (skipPage time)).build

section
variable [SHA]

/-- `init` (skip-certification lib.rs:10-13): the certified data it sets. -/
def skipCanisterInit : Bytes := skipCertifiedData.1

/-- `http_request` (skip-certification lib.rs:15-22); `data_certificate()` is `None` outside of query calls, and then
`unwrap` traps. -/
def skipCanisterRequest (dataCertificate : Option Bytes) (time : Nat) : Option HttpResponse :=
  dataCertificate.map (fun c => addSkipCertificationHeader c (skipResponse time).plain)

end

/-- `http_request` of upgrade-to-update-call (lib.rs:4-7). -/
def upgradeQuery : FullResponse := (ResponseBuilder.new.withUpgrade true).build

/-- `http_request_update` of upgrade-to-update-call (lib.rs:9-15); `IM_A_TEAPOT` is 418. -/
def upgradeUpdate : UpdateResponse := ((ResponseBuilder.new.withStatus 418).withBody (str "I'm a teapot")).buildUpdate

/-- `http_request` of the Motoko canister (upgrade-to-update-call/src/motoko-backend/main.mo:34-41): the record of type `HttpResponse`
(main.mo:22-27) as a Candid value, in the order of the ids. -/
def motokoQuery : CVal :=
  .record [(fBody, .blob (str "")), (fHeaders, .vec []), (fUpgrade, .opt (some (.bool true))), (fStatusCode, .nat16 200)]

/-- `http_request_update` of the Motoko canister (main.mo:43-49), of type `HttpUpdateResponse` (main.mo:29-33). -/
def motokoUpdate : CVal :=
  .record [(fBody, .blob (str "I'm a teapot")), (fHeaders, .vec []), (fStatusCode, .nat16 418)]

end Verif
