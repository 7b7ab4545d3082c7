import Verif.Model.RbTree

/-!
# Model of `ic-certification/src/nested_rb_tree.rs`

As in `Model/RbTree.lean`, keys are `Bytes` and a panic is `none`.
-/

namespace Verif

/-- `enum NestedTree` (nested_rb_tree.rs:9-13). -/
inductive NTree (V : Type) where
  | leaf (v : V)
  | nested (t : Rb (NTree V))

namespace NTree
variable {V : Type}

/-- `Default for NestedTree` (nested_rb_tree.rs:15-19). -/
def default : NTree V := .nested .nil

section
variable [SHA] [AsHashTree V]

/-- `AsHashTree::root_hash for NestedTree` (nested_rb_tree.rs:34-39); `RbTree::root_hash` (rb_tree/mod.rs:60-65)
reads the stored hash of the root node. -/
def nRootHash : NTree V → Hash
  | .leaf v => rootHash v
  | .nested .nil => HashTree.digest .empty
  | .nested (.node _ _ _ _ _ h) => h

mutual
/-- `AsHashTree::as_hash_tree for NestedTree` (nested_rb_tree.rs:41-46). -/
def nHashTree : NTree V → HashTree
  | .leaf v => asHashTree v
  | .nested t => rbHashTree t
/-- `RbTree::as_hash_tree` at the nested value type: same function as `Rb.asHashTreeRb` (rb_tree/mod.rs:66-68,
160-169), written out because the two types are mutually nested (`rbHashTree_eq` in
`Lemmas/Nested.lean` states that it is the same). -/
def rbHashTree : Rb (NTree V) → HashTree
  | .nil => .empty
  | .node _ l k v r _ => Rb.threeWayFork (rbHashTree l) (.labeled k (nHashTree v)) (rbHashTree r)
end

instance : AsHashTree (NTree V) where
  rootHash := nRootHash
  asHashTree := nHashTree

/-- `NestedTree::get` (nested_rb_tree.rs:50-64). -/
def get : List Bytes → NTree V → Option V
  | [], .leaf v => some v
  | [], .nested _ => none
  | _ :: _, .leaf _ => none
  | key :: rest, .nested t => match t.get key with
    | none => none
    | some child => get rest child

/-- `NestedTree::contains_leaf` (nested_rb_tree.rs:67-79). -/
def containsLeaf : List Bytes → NTree V → Bool
  | [], .leaf _ => true
  | [], .nested _ => false
  | _ :: _, .leaf _ => false
  | key :: rest, .nested t => match t.get key with
    | none => false
    | some child => containsLeaf rest child

/-- `NestedTree::contains_path` (nested_rb_tree.rs:82-94). -/
def containsPath : List Bytes → NTree V → Bool
  | [], _ => true
  | _ :: _, .leaf _ => false
  | key :: rest, .nested t => match t.get key with
    | none => false
    | some child => containsPath rest child

/-- `NestedTree::clear` (nested_rb_tree.rs:144-146). -/
def clear (_ : NTree V) : NTree V := default

/-- `NestedTree::insert` (nested_rb_tree.rs:96-115). The code calls itself with the same path after `clear` and
after `tree.insert(key, default)`; both self-calls are unrolled here. If the freshly inserted key
were not found the code would recurse forever: that case is `none`. -/
def insert : List Bytes → V → NTree V → Option (NTree V)
  | [], v, _ => some (.leaf v)
  | key :: rest, v, self =>
    let tree : Rb (NTree V) := match self with
      | .leaf _ => .nil
      | .nested t => t
    match tree.get key with
    | some _ => (tree.modify key (fun child => insert rest v child)).map .nested
    | none =>
      match tree.insert key default with
      | none => none
      | some tree' =>
        match tree'.get key with
        | some _ => (tree'.modify key (fun child => insert rest v child)).map .nested
        | none => none

/-- `NestedTree::delete` (nested_rb_tree.rs:117-142). -/
def delete : List Bytes → NTree V → Option (NTree V)
  | [], self => some self.clear
  | _ :: _, .leaf v => some (.leaf v)
  | key :: rest, .nested tree =>
    match tree.modify key (fun child => delete rest child) with
    | none => none
    | some tree' =>
      match tree'.get key with
      | some (.nested .nil) => (tree'.delete key).map .nested
      | _ => some (.nested tree')

/-- `NestedTree::witness` (nested_rb_tree.rs:148-159). -/
def witness : List Bytes → NTree V → Option HashTree
  | [], self => some (nHashTree self)
  | _ :: _, .leaf v => some (asHashTree v)
  | key :: rest, .nested tree => tree.nestedWitness key (fun child => witness rest child)

end
end NTree

/-- `merge_hash_trees` (nested_rb_tree.rs:162-198). -/
def mergeHashTrees : HashTree → HashTree → Option HashTree
  | .pruned l, .pruned r => if l = r then some (.pruned l) else none
  | .pruned _, r => some r
  | l, .pruned _ => some l
  | .fork l1 l2, .fork r1 r2 => do
    let a ← mergeHashTrees l1 r1
    let b ← mergeHashTrees l2 r2
    some (.fork a b)
  | .labeled la l, .labeled lb r =>
    if la = lb then (mergeHashTrees l r).map (.labeled la) else none
  | .empty, .empty => some .empty
  | .empty, r => some r
  | l, .empty => some l
  | .leaf l, .leaf r => if l = r then some (.leaf l) else none
  | _, _ => none

end Verif
