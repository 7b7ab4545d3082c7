import Verif.Spec.Cbor

/-!
# What a CBOR document is

A grammar of definite-length CBOR (RFC 8949, section 3), as liberal as the reader is: arguments of any width, tags and simple values
before an item are skipped, an array may hold more items than are used. A map may hold fewer pairs than it declares, unless the
document is `strict` (then it follows the RFC there).
-/

namespace Verif

/-- `h` is the head of an item of the major type, with an argument `n` written in `w` bits. -/
inductive IsHead (major : Nat) : (h : Bytes) → (w n : Nat) → Prop
  | short {e : UInt8} {n : Nat} : e.toNat = 32 * major + n → n ≤ 23 → IsHead major [e] 8 n
  | long {e : UInt8} {arg : Bytes} {k : Nat} : e.toNat = 32 * major + 24 + k → k ≤ 3 → arg.length = 2 ^ k →
      IsHead major (e :: arg) (8 * 2 ^ k) (bigEndian arg)

/-- The numbers of the kinds of node (the IC interface specification, "Encoding of certificates"). -/
def CborTag.number : CborTag → Nat
  | .empty => 0 | .fork => 1 | .labelled => 2 | .leaf => 3 | .pruned => 4

mutual
/-- The bytes are an item with the value. -/
inductive Describes (m : Machine) (strict : Bool) : Bytes → CborValue → Prop
  | tag {h t} : IsHead 0 h 8 (CborTag.number t) → Describes m strict h (.tag t)
  | unsigned {h w n} : IsHead 0 h w n → (w = 8 → 4 < n) → Describes m strict h (.unsigned ⟨w, n⟩)
  | negative {h w n} : IsHead 1 h w n → n < 2 ^ (w - 1) → Describes m strict h (.signed w (-1 - n))
  /-- numbers below the range of the width wrap around -/
  | wrapped {h w n} : IsHead 1 h w n → 2 ^ (w - 1) ≤ n → Describes m strict h (.signed w (2 ^ w - 1 - n))
  | bytes {h w n b} : IsHead 2 h w n → b.length = n % m.usize → Describes m strict (h ++ b) (.bytes b)
  | text {h w n b} : IsHead 3 h w n → b.length = n % m.usize → Describes m strict (h ++ b) (.bytes b)
  | array {h w n b vs} : IsHead 4 h w n → vs.length = n % m.usize → DescribesAll m strict b vs → Describes m strict (h ++ b) (.array vs)
  | map {h w n b kvs} : IsHead 5 h w n → kvs.length ≤ n % m.usize →
      (strict = true → kvs.length = n % m.usize) → DescribesPairs m strict b kvs → Describes m strict (h ++ b) (.map kvs)
  | tagged {h w n b v} : IsHead 6 h w n → Describes m strict b v → Describes m strict (h ++ b) v
  | simple {h w n b v} : IsHead 7 h w n → Describes m strict b v → Describes m strict (h ++ b) v
/-- The bytes are the items, one after the other. -/
inductive DescribesAll (m : Machine) (strict : Bool) : Bytes → List CborValue → Prop
  | nil : DescribesAll m strict [] []
  | cons {a b v vs} : Describes m strict a v → DescribesAll m strict b vs → DescribesAll m strict (a ++ b) (v :: vs)
/-- The bytes are the keys (texts) and values, one after the other. -/
inductive DescribesPairs (m : Machine) (strict : Bool) : Bytes → List (Bytes × CborValue) → Prop
  | nil : DescribesPairs m strict [] []
  | cons {a b c k v kvs} : Describes m strict a (.bytes k) → (chars k).isSome → Describes m strict b v → DescribesPairs m strict c kvs →
      DescribesPairs m strict (a ++ b ++ c) ((k, v) :: kvs)
end

/-- The item is a hash tree (the IC interface specification, "Encoding of certificates"), possibly with further items in its
arrays. -/
inductive TreeOf : CborValue → HashTree → Prop
  | empty {x} : TreeOf (.array (.tag .empty :: x)) .empty
  | fork {a b l r x} : TreeOf a l → TreeOf b r → TreeOf (.array (.tag .fork :: a :: b :: x)) (.fork l r)
  | labeled {k a t x} : TreeOf a t → TreeOf (.array (.tag .labelled :: .bytes k :: a :: x)) (.labeled k t)
  | leaf {b x} : TreeOf (.array (.tag .leaf :: .bytes b :: x)) (.leaf b)
  | pruned {h : Hash} {x} : TreeOf (.array (.tag .pruned :: .bytes h.1 :: x)) (.pruned h)

/-- The last value given for the key is `v`. -/
def LastValue (kvs : List (Bytes × CborValue)) (key : Bytes) (v : CborValue) : Prop :=
  ∃ pre post, kvs = pre ++ (key, v) :: post ∧ ∀ x ∈ post, x.1 ≠ key

/-- The item is a certificate. A delegation that is not a map counts as none. -/
def CertificateOf (v : CborValue) (c : Certificate) : Prop :=
  ∃ kvs tree, v = .map kvs ∧ LastValue kvs (str "tree") tree ∧ TreeOf tree c.tree ∧
    LastValue kvs (str "signature") (.bytes c.signature) ∧
    match c.delegation with
    | none => ∀ d, ¬ LastValue kvs (str "delegation") (.map d)
    | some d => ∃ dkvs, LastValue kvs (str "delegation") (.map dkvs) ∧ LastValue dkvs (str "subnet_id") (.bytes d.subnetId) ∧
        LastValue dkvs (str "certificate") (.bytes d.certificate)

/-- The item is a list of pairs of principals. -/
inductive RangesOf : List CborValue → List (Bytes × Bytes) → Prop
  | nil : RangesOf [] []
  | cons {a b x vs l} : a.length ≤ 29 → b.length ≤ 29 → RangesOf vs l →
      RangesOf (.array (.bytes a :: .bytes b :: x) :: vs) ((a, b) :: l)

end Verif
