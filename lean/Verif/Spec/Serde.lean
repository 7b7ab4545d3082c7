import Verif.Model.Serde

/-!
# Specification vocabulary for the serde implementations: which serde values spell which objects
-/

namespace Verif

/-- The value is a byte string: as bytes or text lent out of the input, or, if it is copied anyway, as any bytes, text
or sequence of numbers below 256. -/
inductive IsBytes : SdStorage → Sd → Bytes → Prop
  | bytes {s b} : IsBytes s (.bytes true b) b
  | text {s b} : IsBytes s (.str true b) b
  | ownedBytes {bo b} : IsBytes .vec (.bytes bo b) b
  | ownedText {bo b} : IsBytes .vec (.str bo b) b
  | numbers {b : Bytes} : IsBytes .vec (.seq (b.map (fun x => .u64 x.toNat))) b

/-- `hash-tree ::= [0] | [1 hash-tree hash-tree] | [2 bytes hash-tree] | [3 bytes] | [4 hash]`
(the format documented at hash_tree/mod.rs:637-640). -/
inductive IsTree (s : SdStorage) : Sd → HashTree → Prop
  | empty : IsTree s (.seq [.u64 0]) .empty
  | fork {l r lt rt} : IsTree s l lt → IsTree s r rt → IsTree s (.seq [.u64 1, l, r]) (.fork lt rt)
  | labeled {l t b tt} : IsBytes s l b → IsTree s t tt → IsTree s (.seq [.u64 2, l, t]) (.labeled b tt)
  | leaf {d b} : IsBytes s d b → IsTree s (.seq [.u64 3, d]) (.leaf b)
  | pruned {d} {h : Hash} : IsBytes .slice d h.1 → IsTree s (.seq [.u64 4, d]) (.pruned h)

/-- The key is the name of the field, or its number. -/
inductive IsKey (names : List Bytes) : Sd → Nat → Prop
  | number {i} : i < names.length → IsKey names (.u64 i) i
  | text {i bo} (h : i < names.length) : IsKey names (.str bo names[i]) i
  | bytes {i bo} (h : i < names.length) : IsKey names (.bytes bo names[i]) i

/-- A map whose keys are names of different fields. -/
def IsRecord (names : List Bytes) (kvs : List (Sd × Sd)) : Prop :=
  (∀ e ∈ kvs, ∃ i, IsKey names e.1 i) ∧ kvs.Pairwise (fun a b => ∀ i, IsKey names a.1 i → ¬ IsKey names b.1 i)

/-- The value of the `i`-th field of a map. -/
def FieldIs (names : List Bytes) (kvs : List (Sd × Sd)) (i : Nat) (v : Sd) : Prop := ∃ e ∈ kvs, IsKey names e.1 i ∧ e.2 = v

def delegationFields : List Bytes := [str "subnet_id", str "certificate"]
def certificateFields : List Bytes := [str "tree", str "signature", str "delegation"]

/-- A delegation: a sequence of its two parts, or a map with exactly these two fields, in any order. -/
inductive IsDelegation (strict : Bool) (s : SdStorage) : Sd → Delegation → Prop
  | seq {a b rest d} : IsBytes s a d.subnetId → IsBytes s b d.certificate → (strict = true → rest = []) →
      IsDelegation strict s (.seq (a :: b :: rest)) d
  | map {kvs a b d} : IsRecord delegationFields kvs → FieldIs delegationFields kvs 0 a → FieldIs delegationFields kvs 1 b →
      IsBytes s a d.subnetId → IsBytes s b d.certificate → IsDelegation strict s (.map kvs) d

/-- A certificate: a sequence of two or three parts, or a map with exactly the fields tree, signature and (optionally)
delegation, in any order. -/
inductive IsCertificate (strict : Bool) (s : SdStorage) : Sd → Certificate → Prop
  | seq2 {a b c} : IsTree s a c.tree → IsBytes s b c.signature → c.delegation = none →
      IsCertificate strict s (.seq [a, b]) c
  | seq3 {a b x rest c d} : IsTree s a c.tree → IsBytes s b c.signature → IsDelegation strict s x d →
      c.delegation = some d → (strict = true → rest = []) → IsCertificate strict s (.seq (a :: b :: x :: rest)) c
  | map2 {kvs a b c} : IsRecord certificateFields kvs → FieldIs certificateFields kvs 0 a →
      FieldIs certificateFields kvs 1 b → (∀ x, ¬ FieldIs certificateFields kvs 2 x) →
      IsTree s a c.tree → IsBytes s b c.signature → c.delegation = none → IsCertificate strict s (.map kvs) c
  | map3 {kvs a b x c d} : IsRecord certificateFields kvs → FieldIs certificateFields kvs 0 a →
      FieldIs certificateFields kvs 1 b → FieldIs certificateFields kvs 2 x →
      IsTree s a c.tree → IsBytes s b c.signature → IsDelegation strict s x d → c.delegation = some d →
      IsCertificate strict s (.map kvs) c

mutual
/-- The value as a format that lends strings out of the input (serde_cbor on a slice) hands it to the visitor. -/
def Sd.lent : Sd → Sd
  | .bytes _ b => .bytes true b
  | .str _ b => .str true b
  | .seq xs => .seq (Sd.lentSeq xs)
  | .map kvs => .map (Sd.lentMap kvs)
  | .u64 n => .u64 n
  | .other => .other
def Sd.lentSeq : List Sd → List Sd
  | [] => []
  | x :: xs => x.lent :: Sd.lentSeq xs
def Sd.lentMap : List (Sd × Sd) → List (Sd × Sd)
  | [] => []
  | x :: xs => Sd.lentPair x :: Sd.lentMap xs
def Sd.lentPair : Sd × Sd → Sd × Sd
  | (k, v) => (k.lent, v.lent)
end

end Verif
