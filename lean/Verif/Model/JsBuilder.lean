import Verif.Model.CertBuilder

/-!
# Model of the JavaScript `CertificateBuilder`

packages/ic-certification-testing-wasm/src/certificate_builder.rs. A JavaScript `bigint` argument of type `u64` is a
`UInt64`: wasm-bindgen takes the low 64 bits before the code runs. `withDelegation` fails if one of the ranges is not an object
`{low, high}` of two such numbers; here the ranges are given as such objects.
-/

namespace Verif

/-- `CanisterIdRange` (ic-certification-testing/src/certificate_builder.rs:28-32). -/
structure JsRange where
  low : UInt64
  high : UInt64
deriving DecidableEq

/-- `CertificateBuilder` (ic-certification-testing-wasm/src/certificate_builder.rs:19-22). -/
structure JsCertBuilder where
  builder : CertBuilder

namespace JsCertBuilder

/-- `constructor` (certificate_builder.rs:26-33), for a canister id whose text is valid. -/
def new (canisterId certifiedData : Bytes) : JsCertBuilder := ⟨.new canisterId certifiedData⟩

/-- `withDelegation` (certificate_builder.rs:35-50). -/
def withDelegation [SubnetIds] (b : JsCertBuilder) (subnet : UInt64) (ranges : List JsRange) : JsCertBuilder :=
  ⟨b.builder.withDelegation subnet (ranges.map fun r => (r.low, r.high))⟩

/-- `withTime` (certificate_builder.rs:52-59): milliseconds; `u128::from(time) * 1_000_000` cannot overflow. -/
def withTime (b : JsCertBuilder) (time : UInt64) : JsCertBuilder := ⟨b.builder.withTime (time.toNat * 1000000)⟩

/-- `withInvalidSignature` (certificate_builder.rs:61-66). -/
def withInvalidSignature (b : JsCertBuilder) : JsCertBuilder := ⟨b.builder.withInvalidSignature⟩

/-- `build` (certificate_builder.rs:68-76); the certificate object is given as the certificate it shows. -/
def build [SHA] [TreeLib] [BlsSign] (b : JsCertBuilder) (k0 k1 k2 : KeyPair) := b.builder.build k0 k1 k2

end JsCertBuilder
end Verif
