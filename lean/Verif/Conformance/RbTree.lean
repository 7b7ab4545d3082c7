import Verif.Conformance.Util
import Verif.Model.Nested
import Verif.Spec.Toy

/-! # The tests of packages/ic-certification/src/rb_tree/tests.rs and nested_rb_tree.rs

The tests that do not assert a concrete digest are evaluated with the toy hash function (`Verif.Spec.Toy`), which is
faster. -/

namespace Verif.Conformance
open Verif HashTree
set_option maxRecDepth 100000

/-- `n.to_be_bytes()` of a `u64`, and `n.to_le_bytes()`. -/
def be8 (n : Nat) : Bytes := (List.range 8).reverse.map (fun i => (n / 256 ^ i % 256).toUInt8)
def le8 (n : Nat) : Bytes := (be8 n).reverse

/-- `get_labels` and `get_leaf_values` (rb_tree/tests.rs:10-47). -/
def labels : HashTree → List Bytes
  | .labeled l _ => [l]
  | .fork l r => labels l ++ labels r
  | _ => []
def leaves : HashTree → List Bytes
  | .leaf b => [b]
  | .fork l r => leaves l ++ leaves r
  | .labeled _ t => leaves t
  | _ => []

section
attribute [local instance] toySHA

/-- `test_witness` (rb_tree/tests.rs:49-140). -/
def oddTree : Option (Rb Bytes) := Rb.fromIter ((List.range 10).map (fun i => (be8 (1 + 2 * i), le8 (1 + 2 * i))))

def sameDigest (t : Rb Bytes) : Option HashTree → Bool
  | some w => decide (w.digest = t.rootHashRb)
  | none => false

example : (oddTree.map fun t =>
    (List.range 10).all (fun i =>
      t.get (be8 (1 + 2 * i)) == some (le8 (1 + 2 * i)) &&
      sameDigest t (t.witness (be8 (1 + 2 * i))) && sameDigest t (t.keysWithPrefix (be8 (1 + 2 * i)))) &&
    (List.range 10).all (fun i => (List.range 10).all (fun j => j < i ||
      (sameDigest t (t.keyRange (be8 (2 * i)) (be8 (2 * j))) && sameDigest t (t.valueRange (be8 (2 * i)) (be8 (2 * j)))))) &&
    (List.range 11).all (fun i => sameDigest t (t.witness (be8 (2 * i))))) = some true := by decide +kernel

/-- The deletion loop of `test_witness`. -/
def deleteLoop : List Nat → Rb Bytes → Bool
  | [], _ => true
  | i :: is, t =>
    match t.delete (be8 (1 + 2 * i)) with
    | none => false
    | some t' => t.get (be8 (1 + 2 * i)) == some (le8 (1 + 2 * i)) && (t'.get (be8 (1 + 2 * i))).isNone &&
        (List.range 10).all (fun j => sameDigest t' (t'.witness (be8 (1 + 2 * j)))) && deleteLoop is t'

example : oddTree.map (deleteLoop (List.range 10)) = some true := by decide +kernel

/-- `test_key_bounds` (rb_tree/tests.rs:142-159). -/
example : ((Rb.fromIter [([1], [10]), ([3], [30])]).map fun (t : Rb Bytes) =>
    ([0, 1, 2, 3, 4].map (fun k => t.lowerBound [k]), [0, 1, 2, 3, 4].map (fun k => t.upperBound [k]))) =
    some ([none, some (.exact [1]), some (.neighbor [1]), some (.exact [3]), some (.neighbor [3])],
      [some (.neighbor [1]), some (.exact [1]), some (.neighbor [3]), some (.exact [3]), none]) := by decide +kernel

/-- `test_prefix_neighbor` (rb_tree/tests.rs:161-179). -/
example : ((Rb.fromIter [(str "a/b", [0]), (str "a/b/c", [1]), (str "a/b/d", [2]), (str "a/c/d", [3])]).map
      fun (t : Rb Bytes) => ["a/b/c", "a/b", "a/c/d", "a"].map (fun p => t.rightPrefixNeighbor (str p))) =
    some [some (.neighbor (str "a/b/d")), some (.neighbor (str "a/c/d")), none, none] := by decide +kernel

/-- `simple_delete_test` (rb_tree/tests.rs:181-199). -/
example : (do
    let t : Rb Bytes ← Rb.fromIter [(str "x", str "a"), (str "y", str "b"), (str "z", str "c")]
    let t1 ← t.delete (str "x")
    let t2 ← t1.delete (str "y")
    let t3 ← t2.delete (str "z")
    return (["x", "y", "z"].map (fun k => t1.get (str k)), ["y", "z"].map (fun k => t2.get (str k)), t3.get (str "z"))) =
    some ([none, some (str "b"), some (str "c")], [none, some (str "c")], none) := by decide +kernel

/-- `simple_delete_test_2` (rb_tree/tests.rs:201-210). -/
example : (do
    let t : Rb Bytes ← Rb.fromIter [(str "x", str "y"), (str "z", str "w")]
    let t1 ← t.delete (str "z")
    return (t1.get (str "z"), t1.get (str "x"))) = some (none, some (str "y")) := by decide +kernel

/-- `map_model_test` (rb_tree/tests.rs:212-240), with the keys removed in an order other than that of insertion (the
test uses the unspecified order of a `HashMap`). -/
def removeAll : List Nat → Rb Bytes → Bool
  | [], _ => true
  | i :: is, t =>
    match t.delete (be8 i) with
    | none => false
    | some t' => (t.get (be8 i)).isSome && (t'.get (be8 i)).isNone &&
        is.all (fun k => t'.get (be8 k) == some (be8 k)) && removeAll is t'

example : ((Rb.fromIter ((List.range 100).map (fun i => (be8 i, be8 i)))).map fun (t : Rb Bytes) =>
    (List.range 100).all (fun k => t.get (be8 k) == some (be8 k)) &&
    removeAll ((List.range 100).map (fun i => (i * 37 + 11) % 100)) t) = some true := by decide +kernel

/-- The tree of `test_witness_key_range` and `test_witness_value_range` (rb_tree/tests.rs:272-275). -/
def bdf : Option (Rb Bytes) := Rb.fromIter [(str "b", str "x"), (str "d", str "y"), (str "f", str "z")]

def keyLabels (t : Rb Bytes) (a b : String) : Option (List Bytes) := (t.keyRange (str a) (str b)).map labels
def valueBoth (t : Rb Bytes) (a b : String) : Option (List Bytes × List Bytes) :=
  (t.valueRange (str a) (str b)).map (fun w => (labels w, leaves w))
def strs (ss : List String) : List Bytes := ss.map str

/-- `test_witness_key_range` (rb_tree/tests.rs:270-306). -/
example : (bdf.map fun t =>
    [keyLabels t "a" "a", keyLabels t "a" "b", keyLabels t "a" "c", keyLabels t "a" "f", keyLabels t "a" "z",
     keyLabels t "b" "b", keyLabels t "b" "c", keyLabels t "b" "f", keyLabels t "b" "z",
     keyLabels t "d" "e", keyLabels t "d" "f", keyLabels t "d" "z", keyLabels t "y" "z",
     (t.keyRange (str "a") (str "z")).map leaves]) =
    some ([["b"], ["b"], ["b", "d"], ["b", "d", "f"], ["b", "d", "f"], ["b"], ["b", "d"], ["b", "d", "f"],
      ["b", "d", "f"], ["d", "f"], ["d", "f"], ["d", "f"], ["f"], []].map (fun l => some (strs l))) := by decide +kernel

/-- `test_witness_value_range` (rb_tree/tests.rs:308-335). -/
example : (bdf.map fun t =>
    [valueBoth t "a" "a", valueBoth t "a" "b", valueBoth t "f" "z", valueBoth t "g" "z", valueBoth t "a" "z"]) =
    some ([(["b"], []), (["b"], ["x"]), (["f"], ["z"]), (["f"], []), (["b", "d", "f"], ["x", "y", "z"])].map
      (fun l => some (strs l.1, strs l.2))) := by decide +kernel

/-- `test_iter` (rb_tree/tests.rs:337-353). -/
example : [1, 2, 7, 40, 100].all (fun n =>
    match Rb.fromIter ((List.range n).map (fun k => (be8 k, be8 (k + 10)))) with
    | some t => t.iter.collect 20 101 == some ((List.range n).map (fun k => (be8 k, be8 (k + 10))))
    | none => false) = true := by decide +kernel

/-- `test_equality` (rb_tree/tests.rs:355-371), the assertions on `==`. -/
example : (do
    let t1 : Rb Bytes ← Rb.fromIter ((List.range 100).reverse.map (fun k => (be8 k, be8 (k + 10))))
    let t2 ← Rb.fromIter ((List.range 100).map (fun k => (be8 k, be8 (k + 10))))
    let t3 ← t1.insert (be8 200) (be8 210)
    return (Rb.Iter.eq 20 102 t1.iter t2.iter, Rb.Iter.eq 20 102 t3.iter t2.iter)) =
    some (some true, some false) := by decide +kernel

/-- `nested_tree_operation` (nested_rb_tree.rs:205-299): the paths queried, in the order of the test. -/
def queried : List (List Bytes) := [["one", "two"], ["one", "three"], ["one", "two", "three"], ["one", "three", "two"], ["one"]].map strs
def observe (t : NTree Bytes) : List (Option Bytes) × List Bool × List Bool :=
  (queried.map (NTree.get · t), queried.map (NTree.containsLeaf · t), queried.map (NTree.containsPath · t))

example : (do
    let t ← (NTree.default (V := Bytes)).insert (strs ["one", "two"]) [2]
    let t ← t.insert (strs ["one", "three"]) [3]
    let t1 ← t.delete (strs ["one", "two", "three"])
    let t2 ← t1.delete (strs ["one", "three"])
    let t3 ← t2.delete (strs ["one"])
    return [observe t, observe t1, observe t2, observe t3]) =
    some [([some [2], some [3], none, none, none], [true, true, false, false, false], [true, true, false, false, true]),
      ([some [2], some [3], none, none, none], [true, true, false, false, false], [true, true, false, false, true]),
      ([some [2], none, none, none, none], [true, false, false, false, false], [true, false, false, false, true]),
      ([none, none, none, none, none], [false, false, false, false, false], [false, false, false, false, false])] := by
  decide +kernel

/-- `delete_removes_empty_subpaths` (nested_rb_tree.rs:301-387). -/
def leafPaths : List (List Bytes) :=
  [["one", "two", "three", "four"], ["one", "two", "three", "five"], ["one", "two", "six"], ["one", "seven"]].map strs
def innerPaths : List (List Bytes) :=
  [["one", "two", "three", "four"], ["one", "two", "three", "five"], ["one", "two", "three"], ["one", "two", "six"],
    ["one", "two"], ["one", "seven"], ["one"]].map strs
def present (t : NTree Bytes) : List Bool × List Bool := (leafPaths.map (NTree.containsLeaf · t), innerPaths.map (NTree.containsPath · t))

example : (do
    let t ← (NTree.default (V := Bytes)).insert (strs ["one", "two", "three", "four"]) [4]
    let t ← t.insert (strs ["one", "two", "three", "five"]) [5]
    let t ← t.insert (strs ["one", "two", "six"]) [6]
    let t ← t.insert (strs ["one", "seven"]) [7]
    let t1 ← t.delete (strs ["one", "two", "three", "four"])
    let t2 ← t1.delete (strs ["one", "two", "three", "five"])
    let t3 ← t2.delete (strs ["one", "two", "six"])
    let t4 ← t3.delete (strs ["one", "seven"])
    return [t, t1, t2, t3, t4].map present) =
    some [([true, true, true, true], [true, true, true, true, true, true, true]),
      ([false, true, true, true], [false, true, true, true, true, true, true]),
      ([false, false, true, true], [false, false, false, true, true, true, true]),
      ([false, false, false, true], [false, false, false, false, false, true, true]),
      ([false, false, false, false], [false, false, false, false, false, false, false])] := by decide +kernel

end

section
attribute [local instance] realSHA

/-- `merge_hash_trees_merge_witness` (nested_rb_tree.rs:389-424). -/
example : (do
    let t ← (NTree.default (V := Bytes)).insert (strs ["one", "two"]) [1]
    let t ← t.insert (strs ["one", "three"]) [2]
    let t ← t.insert (strs ["two", "two"]) [3]
    let t ← t.insert (strs ["two", "three"]) [4]
    let a ← t.witness (strs ["one", "two"])
    let b ← t.witness (strs ["two", "three"])
    let m ← mergeHashTrees a b
    let l ← mergeHashTrees .empty m
    let r ← mergeHashTrees m .empty
    return ([["one", "two"], ["one", "three"], ["two", "three"], ["two", "two"]].map (fun p => m.lookupPath (strs p)),
      decide (l = m), decide (r = m))) =
    some ([.found [1], .unknown, .found [4], .unknown], true, true) := by decide +kernel

def prunedA : HashTree := .pruned (fill 0)
def prunedB : HashTree := .pruned (fill 1)
def labeledA : HashTree := .labeled (str "foo") prunedA
def labeledB : HashTree := .labeled (str "bar") prunedA
def leafA : HashTree := .leaf (fill 0).1
def leafB : HashTree := .leaf (fill 1).1
def forkA : HashTree := .fork leafA leafB

/-- `merge_hash_trees_operation` (nested_rb_tree.rs:426-451). -/
example :
    [mergeHashTrees .empty labeledA, mergeHashTrees labeledA .empty, mergeHashTrees .empty leafA,
      mergeHashTrees leafA .empty, mergeHashTrees prunedA prunedA, mergeHashTrees prunedA labeledA,
      mergeHashTrees labeledA prunedA, mergeHashTrees prunedA leafA, mergeHashTrees leafA prunedA,
      mergeHashTrees .empty prunedA, mergeHashTrees prunedA .empty, mergeHashTrees .empty .empty,
      mergeHashTrees forkA forkA, mergeHashTrees leafA leafA] =
    [labeledA, labeledA, leafA, leafA, prunedA, labeledA, labeledA, leafA, leafA, .empty, .empty, .empty, forkA,
      leafA].map some := by decide +kernel

/-- `merge_hash_trees_inconsistent_structure` (nested_rb_tree.rs:453-473): each case panics. -/
example :
    [mergeHashTrees prunedA prunedB, mergeHashTrees labeledA labeledB, mergeHashTrees leafA leafB,
      mergeHashTrees leafA forkA, mergeHashTrees forkA leafA, mergeHashTrees labeledA forkA,
      mergeHashTrees forkA labeledA] = List.replicate 7 none := by decide +kernel

end
end Verif.Conformance
