import Verif.Conformance.HashTree

/-! # The tests of packages/ic-cbor/src/{cbor_parser,cbor_parse_hash_tree,cbor_parse_certificate}.rs -/

namespace Verif.Conformance
open Verif HashTree
attribute [local instance] realSHA
set_option maxRecDepth 100000

mutual
/-- Equality of CBOR values (maps compared as lists of pairs). -/
def sameCbor : CborValue → CborValue → Bool
  | .unsigned a, .unsigned b => a == b
  | .signed w a, .signed w' b => w == w' && a == b
  | .bytes a, .bytes b => a == b
  | .tag a, .tag b => a == b
  | .array xs, .array ys => sameCbors xs ys
  | .map xs, .map ys => sameKvs xs ys
  | _, _ => false
def sameCbors : List CborValue → List CborValue → Bool
  | [], [] => true
  | x :: xs, y :: ys => sameCbor x y && sameCbors xs ys
  | _, _ => false
def sameKvs : List (Bytes × CborValue) → List (Bytes × CborValue) → Bool
  | [], [] => true
  | (k, x) :: xs, (k', y) :: ys => k == k' && sameCbor x y && sameKvs xs ys
  | _, _ => false
end

/-- `parse_cbor(hex).unwrap()` is the given value. -/
def parsesTo (s : String) (v : CborValue) : Bool :=
  match parseCbor machine (hex s) with
  | some (.ok w) => sameCbor w v
  | _ => false

def u8 (n : Nat) : CborValue := .unsigned { width := 8, val := n }

/-- `decodes_arrays`, `decodes_nested_arrays`, `decodes_array_with_nested_map`, `decodes_map_with_nested_array`
(cbor_parser.rs:265-347). -/
example :
    parsesTo "83070809" (.array [u8 7, u8 8, u8 9]) = true ∧
    parsesTo "8307820809820A0B" (.array [u8 7, .array [u8 8, u8 9], .array [u8 10, u8 11]]) = true ∧
    parsesTo "826161a161626163" (.array [.bytes (str "a"), .map [(str "b", .bytes (str "c"))]]) = true ∧
    parsesTo "A26161076162820809" (.map [(str "a", u8 7), (str "b", .array [u8 8, u8 9])]) = true := by decide +kernel

def principalText : Bytes := str "rdmx6-jaaaa-aaaaa-aaadq-cai"

/-- `can_parse_cbor_principals_array` (cbor_parser.rs:349-363): `cbor_encode` of one pair of principals, which
candid's `Principal` serialises as a byte string. -/
example : (match rangesFromCbor machine ([0x81, 0x82] ++ encBytes principalText ++ encBytes principalText) with
    | some (.ok rs) => rs == [(principalText, principalText)]
    | _ => false) = true := by decide +kernel

/-- A byte slice as serde writes it without `serde_bytes`: an array of numbers. -/
def asNumbers (b : Bytes) : Bytes := (Sd.seq (b.map (fun x => .u64 x.toNat))).cbor

/-- `fails_to_parse_cbor_principals_array` (cbor_parser.rs:365-376). -/
example : (match rangesFromCbor machine ([0x81, 0x82] ++ asNumbers principalText ++ asNumbers principalText) with
    | some (.error .malformedRanges) => true
    | _ => false) = true := by decide +kernel

/-- Serialise, parse and give back the tree (`cbor_encode` then `HashTree::from_cbor(..).expect(..)`). -/
def reread (t : HashTree) : Option HashTree :=
  match treeFromCbor machine (serTree t).cbor with
  | some (.ok t') => some t'
  | _ => none

/-- `works_with_simple_tree`, `spec_example`, `spec_example_pruned` and `can_lookup_paths_1` to `_8`
(cbor_parse_hash_tree.rs:108-530): the parsed tree is the original, whose digests and look-ups are those of
`Verif.Conformance.HashTree`. -/
example :
    (reread (.fork (.labeled (str "label 1") .empty) (.fork (.pruned (fill 1)) (.leaf [1, 2, 3, 4, 5, 6])))).map
      (fun t => t.digest.1) = some (hex "69cf325d0f20505b261821a7e77ff72fb9a8753a7964f0b587553bfb44e72532") ∧
    reread specTree = some specTree ∧ reread specPruned = some specPruned ∧
    [tree1, tree2, tree3, tree4, tree5, tree6, tree7, tree8].map reread =
      [tree1, tree2, tree3, tree4, tree5, tree6, tree7, tree8].map some := by decide +kernel

end Verif.Conformance
