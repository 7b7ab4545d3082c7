import Verif.Spec.CertVerify
import Verif.Spec.Verify
import Verif.Spec.CertTree

/-!
# Specification vocabulary: a network that certifies the data of a canister over time
-/

namespace Verif

/-- What the subnets of a network do, as far as one canister is concerned. -/
structure Network where
  /-- `signed key S`: the subnet with this DER-encoded public key signed the root hash of its state tree `S`. -/
  signed : Bytes → HashTree → Prop
  /-- The public keys of the subnets that are, or were at some time, in charge of the canister. -/
  inCharge : Bytes → Prop
  /-- The certified data of the canister at a time (in nanoseconds). -/
  data : Nat → Bytes

section
variable [SHA] [Bls]

/-- The subnets are honest: state trees are complete; the root subnet names as the subnet for a range with the canister in it only
one that is in charge; and a state tree that shows certified data of the canister shows those of the time it shows. -/
structure Network.Honest (net : Network) (m : Machine) (canisterId rootKey : Bytes) : Prop where
  complete : ∀ key S, net.signed key S → S.WellFormed
  delegates : ∀ S subnet rangesCbor ranges lo hi key, net.signed rootKey S →
    S.HasLeaf [str "subnet", subnet, str "canister_ranges"] rangesCbor →
    rangesFromCbor m rangesCbor = some (.ok ranges) → (lo, hi) ∈ ranges →
    PrincipalLe lo canisterId → PrincipalLe canisterId hi →
    S.HasLeaf [str "subnet", subnet, str "public_key"] key → net.inCharge key
  truthful : ∀ key S v t d, key = rootKey ∨ net.inCharge key → net.signed key S →
    S.HasLeaf [str "time"] v → lebRead v = some t →
    S.HasLeaf [str "canister", canisterId, str "certified_data"] d → d = net.data t

/-- The signature of the certificate is no forgery: if it is valid for the root key or the key of a subnet in charge, then this subnet
signed a state tree with the root hash of the certificate. -/
def Network.Genuine (net : Network) (rootKey : Bytes) (c : Certificate) : Prop :=
  ∀ key, key = rootKey ∨ net.inCharge key → SignedBy c key → ∃ S, net.signed key S ∧ S.digest = c.tree.digest

/-- Neither the signature of the certificate nor the one in its delegation is a forgery. -/
structure Network.NoForgery (net : Network) (m : Machine) (rootKey : Bytes) (c : Certificate) : Prop where
  outer : net.Genuine rootKey c
  inner : ∀ d i, c.delegation = some d → certificateFromCbor m d.certificate = some (.ok i) → net.Genuine rootKey i

/-- The trees of a certificate, or of the certificate in its delegation, and one that was really signed have the same root hash although
they contradict each other: there is a collision of the hash function. -/
inductive Network.Collision (net : Network) (m : Machine) (c : Certificate) : Prop
  | outer {key S} : net.signed key S → S.digest = c.tree.digest → CollisionIn c.tree.hashed S.hashed → Network.Collision net m c
  | inner {d i key S} : c.delegation = some d → certificateFromCbor m d.certificate = some (.ok i) →
      net.signed key S → S.digest = i.tree.digest → CollisionIn i.tree.hashed S.hashed → Network.Collision net m c

/-- A canister that certifies the root hash of a certification tree, on which it has done the operations `hist t` until time `t`. -/
def CertifiesTree (net : Network) (hist : Nat → List CtOp) : Prop :=
  ∀ t, ∃ T, ctRun (hist t) = some T ∧ net.data t = T.rootHash.1

end
end Verif
