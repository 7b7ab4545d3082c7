import Verif.Model.CertVerify

/-!
# Model of `CertificateBuilder` (package `ic-certification-testing`)

`ic-certification-testing/src/{certificate_builder,certificate,tree,signature,encoding}.rs`. External: key generation
(the key pairs drawn are an input), BLS signing, and the conversion of a labelled tree to a hash tree by
`ic-crypto-tree-hash`. Errors of key generation and signing are not modelled.
-/

namespace Verif

/-- `ic_crypto_tree_hash::LabeledTree<Vec<u8>>`. -/
inductive LTree where
  | leaf (b : Bytes)
  | sub (children : List (Bytes × LTree))

/-- `get_mixed_hash_tree` (tree.rs:6-21): done by `ic-crypto-tree-hash`, a parameter. -/
class TreeLib where
  mixed : LTree → HashTree

/-- `sign_message` of `ic-crypto-internal-threshold-sig-bls12381`, a parameter. -/
class BlsSign where
  sign : (sk msg : Bytes) → Bytes

/-- `PrincipalId::new_subnet_test_id` of `ic-types`, a parameter. -/
class SubnetIds where
  testId : UInt64 → Bytes

/-- `KeyPair` (signature.rs:22-26). -/
structure KeyPair where
  publicKey : Bytes
  privateKey : Bytes

/-- `CanisterId::from_u64` of `ic-types`: eight big-endian bytes, then 1, 1. -/
def canisterOfU64 (n : UInt64) : Bytes := beBytes 8 n.toNat ++ [1, 1]

/-- `SubnetData` (certificate_builder.rs:38-42). -/
structure SubnetData where
  subnetId : Bytes
  ranges : List (Bytes × Bytes)

/-- `CertificateBuilder` (certificate_builder.rs:52-61). -/
structure CertBuilder where
  time : Option Nat
  canister : Option (Bytes × Bytes)
  subnet : Option SubnetData
  nestedSubnet : Option SubnetData
  signature : Option Bytes
  customTree : Option LTree

/-- `create_subnet_data` (certificate_builder.rs:259-271). -/
def mkSubnet [SubnetIds] (subnetId : UInt64) (ranges : List (UInt64 × UInt64)) : SubnetData :=
  ⟨SubnetIds.testId subnetId, ranges.map (fun r => (canisterOfU64 r.1, canisterOfU64 r.2))⟩

namespace CertBuilder

/-- `CertificateBuilder::new` (certificate_builder.rs:65-83), with the canister id already parsed from its text. -/
def new (canisterId certifiedData : Bytes) : CertBuilder := ⟨none, some (canisterId, certifiedData), none, none, none, none⟩

/-- `from_custom_tree` (certificate_builder.rs:86-95). -/
def fromCustomTree (t : LTree) : CertBuilder := ⟨none, none, none, none, none, some t⟩

/-- `with_delegation` (certificate_builder.rs:99-107). -/
def withDelegation [SubnetIds] (b : CertBuilder) (id : UInt64) (ranges : List (UInt64 × UInt64)) : CertBuilder :=
  { b with subnet := some (mkSubnet id ranges) }

/-- `with_nested_delegation` (certificate_builder.rs:111-119). -/
def withNestedDelegation [SubnetIds] (b : CertBuilder) (id : UInt64) (ranges : List (UInt64 × UInt64)) : CertBuilder :=
  { b with nestedSubnet := some (mkSubnet id ranges) }

/-- `with_time` (certificate_builder.rs:122-126). -/
def withTime (b : CertBuilder) (t : Nat) : CertBuilder := { b with time := some t }

/-- The text used as invalid signature (certificate_builder.rs:130-131). -/
def invalidSig : Bytes := str "invalid sig -----padding to get to 48 bytes-----"

/-- `with_invalid_signature` (certificate_builder.rs:129-135). -/
def withInvalidSignature (b : CertBuilder) : CertBuilder := { b with signature := some invalidSig }

end CertBuilder

/-- `CertificationTestError` (error.rs), the two cases raised by `build` itself. -/
inductive BuildError where
  | bothProvided
  | noneProvided
deriving DecidableEq, Repr

/-- `CertificateData` (certificate_builder.rs:20-29). -/
structure CertData where
  certificate : Certificate
  rootKey : Bytes
  cbor : Bytes

/-- `create_certificate_tree` (certificate.rs:5-17). -/
def createCertificateTree (canisterId data time : Bytes) : LTree :=
  .sub [(str "canister", .sub [(canisterId, .sub [(str "certified_data", .leaf data)])]), (str "time", .leaf time)]

/-- `create_delegation_tree` (certificate.rs:19-36). -/
def createDelegationTree (key time : Bytes) (s : SubnetData) : LTree :=
  .sub [(str "subnet", .sub [(s.subnetId, .sub [(str "canister_ranges", .leaf (selfDescribe ++ encRanges s.ranges)),
      (str "public_key", .leaf key)])]), (str "time", .leaf time)]

/-- `leb_encode_timestamp` (encoding.rs:11-18): `timestamp as u64`. -/
def encodeTime (t : Nat) : Bytes := lebU64 t.toUInt64

/-- `DEFAULT_CERTIFICATE_TIME` (certificate_builder.rs:17). -/
def defaultTime : Nat := 1651142233000005031

section
variable [SHA] [TreeLib] [BlsSign]

/-- `build_certificate` (certificate_builder.rs:273-281) with `get_tree_signature` (signature.rs:52-69). -/
def buildCertificate (k : KeyPair) (t : LTree) : HashTree × Bytes :=
  let tree := TreeLib.mixed t
  (tree, BlsSign.sign k.privateKey (stateRootMsg tree.digest))

/-- `create_delegation_data` (certificate_builder.rs:232-257): the delegation signed by the new key `k`. -/
def createDelegation (delegatee k : KeyPair) (time : Bytes) (s : SubnetData) (nested : Option Delegation) : Delegation :=
  let r := buildCertificate k (createDelegationTree delegatee.publicKey time s)
  ⟨s.subnetId, selfDescribe ++ encCertificate ⟨r.1, r.2, nested⟩⟩

/-- `CertificateBuilder::build` (certificate_builder.rs:138-230). `k0`, `k1`, `k2` are the key pairs generated, in
order of generation. -/
def CertBuilder.build (b : CertBuilder) (k0 k1 k2 : KeyPair) : Except BuildError CertData :=
  let time := encodeTime (b.time.getD defaultTime)
  let done (d : Option Delegation) (root : KeyPair) (t : LTree) : CertData :=
    let r := buildCertificate k0 t
    let c : Certificate := ⟨r.1, b.signature.getD r.2, d⟩
    ⟨c, root.publicKey, selfDescribe ++ encCertificate c⟩
  let go (t : LTree) : CertData :=
    match b.subnet, b.nestedSubnet with
    | some s, some n =>
      let nd := createDelegation k0 k1 time n none
      done (some (createDelegation k1 k2 time s (some nd))) k1 t
    | some s, none => done (some (createDelegation k0 k1 time s none)) k1 t
    | none, _ => done none k0 t
  match b.customTree, b.canister with
  | some t, none => .ok (go t)
  | none, some c => .ok (go (createCertificateTree c.1 c.2 time))
  | some _, some _ => .error .bothProvided
  | none, none => .error .noneProvided

end
end Verif
