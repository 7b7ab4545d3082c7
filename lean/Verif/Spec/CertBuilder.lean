import Verif.Model.CertBuilder
import Verif.Spec.CertVerify
import Verif.Spec.Cbor

/-!
# Specification vocabulary for the certificate builder
-/

namespace Verif

/-- The leaf at a path of a labelled tree. -/
def LTree.leafAt : List Bytes → LTree → Option Bytes
  | [], .leaf b => some b
  | [], .sub _ => none
  | _ :: _, .leaf _ => none
  | k :: p, .sub cs =>
    match cs.find? (fun e => e.1 = k) with
    | none => none
    | some e => leafAt p e.2

/-- Labels strictly increasing at every level, as in the `FlatMap` of `ic-crypto-tree-hash`. -/
inductive LTree.Ordered : LTree → Prop
  | leaf (b : Bytes) : Ordered (.leaf b)
  | sub (cs : List (Bytes × LTree)) : cs.Pairwise (fun a b => a.1 < b.1) → (∀ e ∈ cs, e.2.Ordered) → Ordered (.sub cs)

/-- The hash tree is a well-formed full tree with exactly the leaves of the labelled tree. -/
def Represents (h : HashTree) (t : LTree) : Prop :=
  h.WellFormed ∧ ∀ p v, h.HasLeaf p v ↔ t.leafAt p = some v

/-- A key pair whose signatures verify under its DER-encoded public key, and under which the text of
`with_invalid_signature` does not verify. -/
structure KeyPair.Good [Bls] [BlsSign] (k : KeyPair) : Prop where
  valid : ∃ pk, IsDerKey k.publicKey pk ∧
    (∀ msg, Bls.verify pk (BlsSign.sign k.privateKey msg) msg = some true) ∧
    ∀ msg, Bls.verify pk CertBuilder.invalidSig msg = some false

/-- The contract of the external conversion to hash trees. -/
def TreeLib.Lawful [TreeLib] : Prop := ∀ t : LTree, t.Ordered → Represents (TreeLib.mixed t) t

/-- The certificate is small enough for the machine: lengths fit `usize`, and its tree is not too deep for the stack. -/
structure Certificate.Holdable (m : Machine) (c : Certificate) : Prop where
  tree : c.tree.Fits m
  height : c.tree.height + 4 ≤ m.stack
  signature : m.Fits c.signature.length
  delegation : ∀ d, c.delegation = some d → m.Fits d.subnetId.length ∧ m.Fits d.certificate.length

/-- One call of the builder's interface. -/
inductive BuilderCall where
  | delegation (subnet : UInt64) (ranges : List (UInt64 × UInt64))
  | nested (subnet : UInt64) (ranges : List (UInt64 × UInt64))
  | time (t : Nat)
  | invalidSignature
deriving DecidableEq

/-- What the call does. -/
def BuilderCall.run [SubnetIds] (b : CertBuilder) : BuilderCall → CertBuilder
  | .delegation s r => b.withDelegation s r
  | .nested s r => b.withNestedDelegation s r
  | .time t => b.withTime t
  | .invalidSignature => b.withInvalidSignature

/-- The builder after a history of calls. -/
def builderRun [SubnetIds] (b : CertBuilder) (calls : List BuilderCall) : CertBuilder := calls.foldl BuilderCall.run b

/-- The time set last, if any. -/
def timeSet (calls : List BuilderCall) : Option Nat :=
  calls.reverse.findSome? (fun c => match c with | .time t => some t | _ => none)

/-- The delegation set last, if any. -/
def delegationSet (calls : List BuilderCall) : Option (UInt64 × List (UInt64 × UInt64)) :=
  calls.reverse.findSome? (fun c => match c with | .delegation s r => some (s, r) | _ => none)

/-- The nested delegation set last, if any. -/
def nestedSet (calls : List BuilderCall) : Option (UInt64 × List (UInt64 × UInt64)) :=
  calls.reverse.findSome? (fun c => match c with | .nested s r => some (s, r) | _ => none)

end Verif
