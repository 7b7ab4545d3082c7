import Verif.Spec.CborGrammar
import Verif.Spec.Base64

/-!
# The wire formats of the public specifications

The CBOR of hash trees and certificates (IC interface specification, "Encoding of certificates") and the `IC-Certificate` header (HTTP gateway
protocol specification), in deterministic CBOR: every head in its shortest form (RFC 8949, section 4.2.1).
-/

namespace Verif.Interface

/-- `h` is the shortest head for the number. -/
def Head (major n : Nat) (h : Bytes) : Prop :=
  (∃ w, IsHead major h w n) ∧ ∀ h' w', IsHead major h' w' n → h.length ≤ h'.length

/-- A byte string (major type 2) or text (major type 3) with this content. -/
def StringCbor (major : Nat) (content out : Bytes) : Prop := ∃ h, Head major content.length h ∧ out = h ++ content

/-- `[0]`, `[1, left, right]`, `[2, label, tree]`, `[3, value]`, `[4, hash]`. -/
inductive TreeCbor : HashTree → Bytes → Prop
  | empty {a k} : Head 4 1 a → Head 0 0 k → TreeCbor .empty (a ++ k)
  | fork {a k l r x y} : Head 4 3 a → Head 0 1 k → TreeCbor l x → TreeCbor r y → TreeCbor (.fork l r) (a ++ k ++ x ++ y)
  | labeled {a k l t x y} : Head 4 3 a → Head 0 2 k → StringCbor 2 l x → TreeCbor t y → TreeCbor (.labeled l t) (a ++ k ++ x ++ y)
  | leaf {a k v x} : Head 4 2 a → Head 0 3 k → StringCbor 2 v x → TreeCbor (.leaf v) (a ++ k ++ x)
  | pruned {a k h x} : Head 4 2 a → Head 0 4 k → StringCbor 2 h.1 x → TreeCbor (.pruned h) (a ++ k ++ x)

/-- An array of texts. -/
def TextsCbor (l : List Bytes) (out : Bytes) : Prop :=
  ∃ a xs, Head 4 l.length a ∧ List.Forall₂ (StringCbor 3) l xs ∧ out = a ++ xs.flatten

/-- `{subnet_id: bytes, certificate: bytes}`. -/
def DelegationCbor (d : Delegation) (out : Bytes) : Prop :=
  ∃ a k1 x1 k2 x2, Head 5 2 a ∧ StringCbor 3 (str "subnet_id") k1 ∧ StringCbor 2 d.subnetId x1 ∧
    StringCbor 3 (str "certificate") k2 ∧ StringCbor 2 d.certificate x2 ∧ out = a ++ k1 ++ x1 ++ k2 ++ x2

/-- `{tree: tree, signature: bytes}`, with `delegation` if there is one. -/
inductive CertificateCbor (c : Certificate) : Bytes → Prop
  | plain {a k1 x1 k2 x2} : c.delegation = none → Head 5 2 a → StringCbor 3 (str "tree") k1 → TreeCbor c.tree x1 →
      StringCbor 3 (str "signature") k2 → StringCbor 2 c.signature x2 → CertificateCbor c (a ++ k1 ++ x1 ++ k2 ++ x2)
  | delegated {d a k1 x1 k2 x2 k3 x3} : c.delegation = some d → Head 5 3 a → StringCbor 3 (str "tree") k1 → TreeCbor c.tree x1 →
      StringCbor 3 (str "signature") k2 → StringCbor 2 c.signature x2 →
      StringCbor 3 (str "delegation") k3 → DelegationCbor d x3 → CertificateCbor c (a ++ k1 ++ x1 ++ k2 ++ x2 ++ k3 ++ x3)

/-- The tag that marks self-described CBOR (RFC 8949, section 3.4.6). -/
def selfDescribed (b : Bytes) : Bytes := [0xd9, 0xd9, 0xf7] ++ b

/-- `s` is the base64 of the bytes with padding: as long as a multiple of four. -/
def Padded (s : List Char) (b : Bytes) : Prop := IsBase64 s b ∧ s.length % 4 = 0

/-- The version 2 header `certificate=:…:, tree=:…:, expr_path=:…:, version=2`. -/
def CertificateHeader (certificate : Bytes) (tree : HashTree) (path : List Bytes) (text : List Char) : Prop :=
  ∃ c t p treeCbor pathCbor, Padded c certificate ∧ TreeCbor tree treeCbor ∧ Padded t (selfDescribed treeCbor) ∧
    TextsCbor path pathCbor ∧ Padded p (selfDescribed pathCbor) ∧
    text = "certificate=:".toList ++ c ++ ":, tree=:".toList ++ t ++ ":, expr_path=:".toList ++ p ++ ":, version=2".toList

end Verif.Interface
