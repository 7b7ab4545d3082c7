import Verif.Model.CertVerify
import Verif.Spec.HashTree

/-!
# Specification vocabulary for certificate verification
-/

namespace Verif

/-- The order of principals: shorter first, then byte by byte. -/
def PrincipalLe (a b : Bytes) : Prop := a.length < b.length ∨ (a.length = b.length ∧ a ≤ b)

/-- The DER encoding of a BLS public key. -/
def IsDerKey (der pk : Bytes) : Prop := der = derPrefix ++ pk ∧ pk.length = 96

/-- The certificate's tree is signed with the DER-encoded key. -/
def SignedBy [SHA] [Bls] (c : Certificate) (der : Bytes) : Prop :=
  ∃ pk, IsDerKey der pk ∧ Bls.verify pk c.signature (0x0d :: str "ic-state-root" ++ c.tree.digest.1) = some true

/-- The delegation lets the subnet with this key speak for the canister, on the authority of the root key. -/
structure Delegates [SHA] [Bls] (m : Machine) (d : Delegation) (canisterId rootKey subnetKey : Bytes) : Prop where
  holds : ∃ inner ranges rangesCbor lo hi,
    certificateFromCbor m d.certificate = some (.ok inner) ∧ inner.delegation = none ∧ SignedBy inner rootKey ∧
    inner.tree.HasLeaf [str "subnet", d.subnetId, str "canister_ranges"] rangesCbor ∧
    rangesFromCbor m rangesCbor = some (.ok ranges) ∧ (lo, hi) ∈ ranges ∧
    PrincipalLe lo canisterId ∧ PrincipalLe canisterId hi ∧
    inner.tree.HasLeaf [str "subnet", d.subnetId, str "public_key"] subnetKey

/-- The certificate's time is `t` nanoseconds. -/
def CertTime (c : Certificate) (t : Nat) : Prop := ∃ v, c.tree.HasLeaf [str "time"] v ∧ lebRead v = some t

/-- `t` is at most `off` away from `now`. -/
def InWindow (t now off : Nat) : Prop := t ≤ now + off ∧ now ≤ t + off

end Verif
