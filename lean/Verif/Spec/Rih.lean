import Verif.Model.Rih

/-!
# Specification vocabulary for the representation-independent hash
-/

namespace Verif
namespace RValue

section
variable [SHA]

/-- The bytes a value stands for at top level: text and bytes stand for themselves, a number for its LEB128
encoding, an array for the concatenated hashes of its elements. -/
def raw : RValue → Bytes
  | .string b => b
  | .bytes b => b
  | .number n => lebU64 n
  | .array es => es.flatMap (fun e => e.hash.1)

mutual
/-- All strings hashed while hashing a value. -/
def hashedIn : RValue → List Bytes
  | .string b => [b]
  | .bytes b => [b]
  | .number n => [lebU64 n]
  | .array es => (es.flatMap (fun e => e.hash.1)) :: hashedInAll es
def hashedInAll : List RValue → List Bytes
  | [] => []
  | e :: es => hashedIn e ++ hashedInAll es
end

/-- Is it an array? -/
def isArray : RValue → Bool
  | .array _ => true
  | _ => false

/-- When the encoding identifies two values: two non-arrays with the same raw bytes (for instance a string and
the same bytes), two arrays of the same length with identified elements, or an array and a non-array whose bytes
happen to be the concatenated element hashes. -/
inductive Same : RValue → RValue → Prop
  | flat {a b} : (a.isArray = false ∨ b.isArray = false) → a.raw = b.raw → Same a b
  | array {as bs} : List.Forall₂ Same as bs → Same (.array as) (.array bs)

end
end RValue

/-- All strings hashed by `representation_independent_hash`. -/
def rihHashed [SHA] (map : List (Bytes × RValue)) : List Bytes :=
  ((map.map (fun e => (sha e.1, e.2.hash))).insertionSort pairLe).flatMap pairBytes ::
    map.flatMap (fun e => e.1 :: e.2.hashedIn)

end Verif
