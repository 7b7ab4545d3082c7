import Verif.Model.RbTree
import Verif.Model.Header
import Verif.Model.CertBuilder
import Verif.Model.CertTree

/-!
# Model of `ic-response-verification-test-utils`

`AssetTree` is the tree of a canister that certifies its assets with version 1 of the protocol: bodies under `http_assets`, by path.
-/

namespace Verif
open HashTree

section
variable [SHA]

/-- `AssetTree` (asset_tree.rs:7-9): hashes of bodies by path. -/
structure AssetTree where
  tree : Rb Bytes

/-- `AssetTree::new` (asset_tree.rs:25-29). -/
def AssetTree.new : AssetTree := ⟨.nil⟩

/-- `AssetTree::insert` (asset_tree.rs:31-35), with `hash` (hash.rs:4-7). `none` is a panic. -/
def AssetTree.insert (t : AssetTree) (path body : Bytes) : Option AssetTree :=
  (t.tree.insert path (sha body).1).map AssetTree.mk

/-- `AssetTree::default` (asset_tree.rs:11-20). -/
def AssetTree.default : Option AssetTree := AssetTree.new.insert (str "/") (str "Hello World!")

/-- The witness of `serialize_to_cbor` (asset_tree.rs:38-40). -/
def AssetTree.witness (t : AssetTree) (path : Option Bytes) : Option HashTree :=
  (t.tree.witness (path.getD (str "/"))).map (HashTree.labeled (str "http_assets"))

/-- `AssetTree::serialize_to_cbor` (asset_tree.rs:37-43); `cbor_encode` (encoding.rs:21-26). -/
def AssetTree.serialize (t : AssetTree) (path : Option Bytes) : Option Bytes :=
  (t.witness path).map (fun w => selfDescribe ++ encTree w)

/-- `AssetTree::get_certified_data` (asset_tree.rs:45-49). -/
def AssetTree.certifiedData (t : AssetTree) : Bytes := (labeledHash (str "http_assets") t.tree.rootHashRb).1

/-- `create_certificate_header` (certificate.rs:10-15). -/
def certificateHeader (certificate tree : Bytes) : List Char :=
  "certificate=:".toList ++ b64Encode true certificate ++ ":, tree=:".toList ++ b64Encode true tree ++ ":".toList

/-- `create_versioned_certificate_header` (certificate.rs:17-31). -/
def versionedCertificateHeader (certificate tree exprPath : Bytes) (version : Nat) : List Char :=
  "certificate=:".toList ++ b64Encode true certificate ++ ":, tree=:".toList ++ b64Encode true tree ++
  ":, expr_path=:".toList ++ b64Encode true exprPath ++ ":, version=".toList ++ Nat.toDigits 10 version

/-- `create_v2_tree_fixture` (v2_certificate_fixture.rs:11-26): the CBOR of the witness, and the certified data. `none` is a panic. -/
def v2TreeFixture (reqPath : Bytes) (e : CertEntry) : Option (Bytes × Bytes) := do
  let t ← CertTree.default.insert e
  match t.witness e reqPath with
  | some (.ok w) => some (selfDescribe ++ encTree w, t.rootHash.1)
  | _ => none

/-- `create_v2_header` (v2_certificate_fixture.rs:60-70). -/
def v2FixtureHeader (e : CertEntry) (certificateCbor treeCbor : Bytes) : List Char :=
  versionedCertificateHeader certificateCbor treeCbor (selfDescribe ++ encStrings e.path.toExprPath) 2

variable [TreeLib] [BlsSign] [SubnetIds]

/-- `V2Fixture` (v2_certificate_fixture.rs:72-76). -/
structure V2Fixture where
  rootKey : Bytes
  header : List Char
  canisterId : Bytes

/-- `create_v2_fixture` (v2_certificate_fixture.rs:78-101) with `create_v2_certificate_fixture` (34-58). `k0`, `k1`, `k2` are the
key pairs generated. -/
def v2Fixture (reqPath : Bytes) (e : CertEntry) (currentTime : Nat) (k0 k1 k2 : KeyPair) : Option V2Fixture := do
  let (treeCbor, data) ← v2TreeFixture reqPath e
  match (((CertBuilder.new (canisterOfU64 5) data).withTime currentTime).withDelegation 123 [(0, 10)]).build k0 k1 k2 with
  | .error _ => none
  | .ok d => some ⟨d.rootKey, v2FixtureHeader e d.cbor treeCbor, canisterOfU64 5⟩

end
end Verif
