import Verif.Model.HashTree

/-!
# Model of `ic-certification/src/rb_tree/mod.rs`

Conventions: the key type `K: AsRef<[u8]>` is erased to `Bytes` (all comparisons in the code are on
`as_ref()` bytes). `Option<Box<Node>>` is `Rb` with `nil` for `None`. A panic (`unwrap` on `None`, a failing
`debug_assert!`) is `none` in `Option`, so "no panic" covers debug builds as well as release builds.
-/

namespace Verif

/-- `enum Color` (rb_tree/mod.rs:9-13). -/
inductive Color where
  | red
  | black
deriving DecidableEq, Repr

/-- `Color::flip` (mod.rs:20-25). -/
def Color.flip : Color → Color
  | .red => .black
  | .black => .red

/-- `struct Node` under `Option<Box<_>>` (mod.rs:86-103), including the stored `subtree_hash`. -/
inductive Rb (V : Type) where
  | nil
  | node (c : Color) (l : Rb V) (k : Bytes) (v : V) (r : Rb V) (h : Hash)
deriving Repr

/-- `trait AsHashTree` (mod.rs:28-36). -/
class AsHashTree (V : Type) where
  rootHash : V → Hash
  asHashTree : V → HashTree

export AsHashTree (rootHash asHashTree)

/-- `impl AsHashTree for Vec<u8>` (mod.rs:38-46); `impl AsHashTree for Hash` (mod.rs:48-56) is the same
function on the underlying bytes. -/
instance [SHA] : AsHashTree Bytes where
  rootHash b := leafHash b
  asHashTree b := .leaf b

namespace Rb
variable {V : Type}

/-- `fn is_red` (mod.rs:901-904). -/
def isRed : Rb V → Bool
  | .nil => false
  | .node c _ _ _ _ _ => c == .red

/-- `h.left` (of a non-empty node reference). -/
def left : Rb V → Rb V
  | .nil => .nil
  | .node _ l _ _ _ _ => l

/-- `h.right`. -/
def right : Rb V → Rb V
  | .nil => .nil
  | .node _ _ _ _ r _ => r

/-- assignment `n.color = c` (mod.rs:760, 865, 869). -/
def setColor (c : Color) : Rb V → Rb V
  | .nil => .nil
  | .node _ l k v r h => .node c l k v r h

/-- `n.color.flip_assign()` on a child reference. -/
def flipColor : Rb V → Rb V
  | .nil => .nil
  | .node c l k v r h => .node c.flip l k v r h

section
variable [SHA] [AsHashTree V]

/-- `Node::data_hash` (mod.rs:119-121). -/
def dataHash (k : Bytes) (v : V) : Hash := labeledHash k (rootHash v)

/-- `Node::compute_subtree_hash` (mod.rs:175-184). -/
def computeHash (l : Rb V) (k : Bytes) (v : V) (r : Rb V) : Hash :=
  let h := dataHash k v
  match l, r with
  | .nil, .nil => h
  | .node _ _ _ _ _ lh, .nil => forkHash lh h
  | .nil, .node _ _ _ _ _ rh => forkHash h rh
  | .node _ _ _ _ _ lh, .node _ _ _ _ _ rh => forkHash lh (forkHash h rh)

/-- A node whose `subtree_hash` has just been recomputed: `update_subtree_hash` (mod.rs:171-173). -/
def mk (c : Color) (l : Rb V) (k : Bytes) (v : V) (r : Rb V) : Rb V :=
  .node c l k v r (computeHash l k v r)

/-- `AsHashTree for RbTree :: root_hash` (mod.rs:58-64). -/
def rootHashRb : Rb V → Hash
  | .nil => HashTree.empty.digest
  | .node _ _ _ _ _ h => h

/-- `Node::new` (mod.rs:106-117). -/
def newNode (k : Bytes) (v : V) : Rb V := .node .red .nil k v .nil (labeledHash k (rootHash v))

/-! ### Rebalancing -/

/-- `fn rotate_right` (mod.rs:921-937). -/
def rotateRight : Rb V → Option (Rb V)
  | .node c (.node .red ll lk lv lr _) k v r _ => some (mk c ll lk lv (mk .red lr k v r))
  | _ => none

/-- `fn rotate_left` (mod.rs:939-954). -/
def rotateLeft : Rb V → Option (Rb V)
  | .node c l k v (.node .red rl rk rv rr _) _ => some (mk c (mk .red l k v rl) rk rv rr)
  | _ => none

/-- `fn flip_colors` (mod.rs:956-960); stored hashes are untouched. -/
def flipColors : Rb V → Option (Rb V)
  | .node c (.node lc ll lk lv lr lh) k v (.node rc rl rk rv rr rh) h =>
    some (.node c.flip (.node lc.flip ll lk lv lr lh) k v (.node rc.flip rl rk rv rr rh) h)
  | _ => none

/-- `fn balance` (mod.rs:906-919). -/
def balance (h : Rb V) : Option (Rb V) := do
  let h ← if h.right.isRed && !h.left.isRed then rotateLeft h else some h
  let h ← if h.left.isRed && h.left.left.isRed then rotateRight h else some h
  if h.left.isRed && h.right.isRed then flipColors h else some h

/-! ### get / insert / modify -/

/-- `RbTree::get` (mod.rs:359-370); the `while let` loop as recursion. -/
def get (key : Bytes) : Rb V → Option V
  | .nil => none
  | .node _ l k v r _ =>
    match cmpB key k with
    | .eq => some v
    | .lt => l.get key
    | .gt => r.get key

/-- `insert`'s inner `go` (mod.rs:735-758). -/
def insertGo (key : Bytes) (val : V) : Rb V → Option (Rb V)
  | .nil => some (newNode key val)
  | .node c l k v r _ =>
    match cmpB key k with
    | .eq => balance (mk c l k val r)
    | .lt => do
      let l' ← l.insertGo key val
      balance (mk c l' k v r)
    | .gt => do
      let r' ← r.insertGo key val
      balance (mk c l k v r')

/-- `RbTree::insert` (mod.rs:733-769), without the `#[cfg(test)]` assertion. -/
def insert (t : Rb V) (key : Bytes) (val : V) : Option (Rb V) := do
  let t' ← t.insertGo key val
  some (t'.setColor .black)

/-- `RbTree::modify` (mod.rs:372-397). The closure may itself panic (it does tree operations on nested
trees), hence `V → Option V`. -/
def modify (key : Bytes) (f : V → Option V) : Rb V → Option (Rb V)
  | .nil => some .nil
  | .node c l k v r _ =>
    match cmpB key k with
    | .eq => do let v' ← f v; some (mk c l k v' r)
    | .lt => do let l' ← l.modify key f; some (mk c l' k v r)
    | .gt => do let r' ← r.modify key f; some (mk c l k v r')

/-! ### delete -/

/-- `delete`'s `move_red_left` (mod.rs:773-783). -/
def moveRedLeft (h : Rb V) : Option (Rb V) := do
  let h ← flipColors h
  match h with
  | .node c l k v r hh =>
    if r.left.isRed then
      let r' ← rotateRight r
      let h ← rotateLeft (.node c l k v r' hh)
      flipColors h
    else some (.node c l k v r hh)
  | .nil => none

/-- `delete`'s `move_red_right` (mod.rs:785-794). -/
def moveRedRight (h : Rb V) : Option (Rb V) := do
  let h ← flipColors h
  if h.left.left.isRed then
    let h ← rotateRight h
    flipColors h
  else some h

/-- `min` followed by the two `mem::swap`s (mod.rs:797-804, 847-849): walks the left spine of a non-empty
tree, returns the key and value found at the minimum and the tree in which they have been replaced
by `(key, val)`. No hash is updated, exactly as in the code. -/
def swapMin (key : Bytes) (val : V) : Rb V → Option (Bytes × V × Rb V)
  | .nil => none
  | .node c .nil k v r h => some (k, v, .node c .nil key val r h)
  | .node c (.node lc ll lk lv lr lh) k v r h => do
    let (k', v', l') ← swapMin key val (.node lc ll lk lv lr lh)
    some (k', v', .node c l' k v r h)

/-- `delete_min` (mod.rs:806-820). The recursive call is on a rotated tree, so recursion is on fuel; running
out of fuel is `none`, like a panic, and is shown never to happen. -/
def deleteMin : Nat → Rb V → Option (Rb V)
  | 0, _ => none
  | _ + 1, .nil => none
  | n + 1, .node c l k v r h =>
    match l with
    | .nil => match r with
      | .nil => some .nil
      | _ => none
    | _ => do
      let h' ← if !l.isRed && !l.left.isRed then moveRedLeft (.node c l k v r h)
        else some (.node c l k v r h)
      match h' with
      | .nil => none
      | .node c l k v r _ => do
        let l' ← deleteMin n l
        balance (mk c l' k v r)

/-- number of nodes -/
def size : Rb V → Nat
  | .nil => 0
  | .node _ l _ _ r _ => l.size + r.size + 1

/-- `delete`'s `go` (mod.rs:822-857), with fuel as for `deleteMin`. -/
def deleteGo (key : Bytes) : Nat → Rb V → Option (Rb V)
  | 0, _ => none
  | _ + 1, .nil => none
  | n + 1, .node c l k v r h =>
    if ltB key k then
      match l with
      | .nil => none
      | _ => do
        let h' ← if !l.isRed && !l.left.isRed then moveRedLeft (.node c l k v r h)
          else some (.node c l k v r h)
        match h' with
        | .nil => none
        | .node c l k v r _ => do
          let l' ← deleteGo key n l
          balance (mk c l' k v r)
    else do
      let h1 ← if l.isRed then rotateRight (.node c l k v r h) else some (.node c l k v r h)
      match h1 with
      | .nil => none
      | .node c1 l1 k1 v1 r1 hh1 =>
        match r1 with
        | .nil =>
          -- `key == h.key && h.right.is_none()`; otherwise the next line unwraps `None`
          if key == k1 then (match l1 with | .nil => some .nil | _ => none) else none
        | _ => do
          let h2 ← if !r1.isRed && !r1.left.isRed then moveRedRight (.node c1 l1 k1 v1 r1 hh1)
            else some (.node c1 l1 k1 v1 r1 hh1)
          match h2 with
          | .nil => none
          | .node c2 l2 k2 v2 r2 _ =>
            if key == k2 then do
              let (k3, v3, r3) ← swapMin k2 v2 r2
              let r4 ← deleteMin n r3
              balance (mk c2 l2 k3 v3 r4)
            else do
              let r3 ← deleteGo key n r2
              balance (mk c2 l2 k2 v2 r3)

/-- `RbTree::delete` (mod.rs:771-880), including the final `debug_assert!(self.get(key).is_none())`. -/
def delete (t : Rb V) (key : Bytes) : Option (Rb V) :=
  match t.get key with
  | none => some t
  | some _ => do
    let t1 := if !t.left.isRed && !t.right.isRed then t.setColor .red else t
    let t2 ← deleteGo key t.size t1
    let t3 := t2.setColor .black
    match t3.get key with
    | none => some t3
    | some _ => none

/-! ### Witnesses -/

/-- `fn three_way_fork` (mod.rs:883-899). -/
def threeWayFork : HashTree → HashTree → HashTree → HashTree
  | .empty, m, .empty => m
  | l, m, .empty => .fork l m
  | .empty, m, r => .fork m r
  | .pruned lh, .pruned mh, .pruned rh => .pruned (forkHash lh (forkHash mh rh))
  | l, .pruned mh, .pruned rh => .fork l (.pruned (forkHash mh rh))
  | l, m, r => .fork l (.fork m r)

/-- `left_hash_tree` / `right_hash_tree` (mod.rs:123-135) applied to the child reference. -/
def childHashTree : Rb V → HashTree
  | .nil => .empty
  | .node _ _ _ _ _ h => .pruned h

/-- `Node::data_tree` (mod.rs:148-150). -/
def dataTree (k : Bytes) (v : V) : HashTree := .labeled k (asHashTree v)

/-- `Node::witness_tree` (mod.rs:156-158). -/
def witnessTree (k : Bytes) (v : V) : HashTree := .labeled k (.pruned (rootHash v))

/-- `Node::full_witness_tree` (mod.rs:160-169). The function pointer `f` is only ever `data_tree` or
`witness_tree`, which look at key and value only. -/
def fullWitnessTree (f : Bytes → V → HashTree) : Rb V → HashTree
  | .nil => .empty
  | .node _ l k v r _ => threeWayFork (l.fullWitnessTree f) (f k v) (r.fullWitnessTree f)

/-- `AsHashTree for RbTree :: as_hash_tree` (mod.rs:66-68). -/
def asHashTreeRb (t : Rb V) : HashTree := t.fullWitnessTree dataTree

end

/-- `enum KeyBound` (mod.rs:71-84). -/
inductive KeyBound where
  | exact (k : Bytes)
  | neighbor (k : Bytes)
deriving DecidableEq, Repr

/-- `AsRef for KeyBound` (mod.rs:77-84). -/
def KeyBound.key : KeyBound → Bytes
  | .exact k => k
  | .neighbor k => k

/-- `fn lower_bound` (mod.rs:639-654). -/
def lowerBound (key : Bytes) : Rb V → Option KeyBound
  | .nil => none
  | .node _ l k _ r _ =>
    match cmpB k key with
    | .lt => match r.lowerBound key with
      | some b => some b
      | none => some (.neighbor k)
    | .eq => some (.exact k)
    | .gt => l.lowerBound key

/-- `fn upper_bound` (mod.rs:656-671). -/
def upperBound (key : Bytes) : Rb V → Option KeyBound
  | .nil => none
  | .node _ l k _ r _ =>
    match cmpB k key with
    | .lt => r.upperBound key
    | .eq => some (.exact k)
    | .gt => match l.upperBound key with
      | some b => some b
      | none => some (.neighbor k)

/-- `is_prefix_of` (mod.rs:674-679). -/
def isPrefixOf (p x : Bytes) : Bool :=
  if p.length > x.length then false else x.take p.length == p

/-- `fn right_prefix_neighbor` (mod.rs:673-694). -/
def rightPrefixNeighbor (pre : Bytes) : Rb V → Option KeyBound
  | .nil => none
  | .node _ l k _ r _ =>
    match cmpB k pre with
    | .gt =>
      if isPrefixOf pre k then r.rightPrefixNeighbor pre
      else match l.rightPrefixNeighbor pre with
        | some b => some b
        | none => some (.neighbor k)
    | _ => r.rightPrefixNeighbor pre

section
variable [SHA] [AsHashTree V]

/-- the `match lo { Exact => f(n), Neighbor => n.witness_tree() }` blocks (mod.rs:511-514, 548-551). -/
def boundTree (f : Bytes → V → HashTree) (b : KeyBound) (k : Bytes) (v : V) : HashTree :=
  match b with
  | .exact _ => f k v
  | .neighbor _ => witnessTree k v

/-- `fn witness_range_above` (mod.rs:496-531). -/
def witnessAbove (lo : KeyBound) (f : Bytes → V → HashTree) : Rb V → HashTree
  | .nil => .empty
  | .node _ l k v r _ =>
    match cmpB k lo.key with
    | .eq => threeWayFork l.childHashTree (boundTree f lo k v) (r.fullWitnessTree f)
    | .lt => threeWayFork l.childHashTree (.pruned (dataHash k v)) (r.witnessAbove lo f)
    | .gt => threeWayFork (l.witnessAbove lo f) (f k v) (r.fullWitnessTree f)

/-- `fn witness_range_below` (mod.rs:533-568). -/
def witnessBelow (hi : KeyBound) (f : Bytes → V → HashTree) : Rb V → HashTree
  | .nil => .empty
  | .node _ l k v r _ =>
    match cmpB k hi.key with
    | .eq => threeWayFork (l.fullWitnessTree f) (boundTree f hi k v) r.childHashTree
    | .gt => threeWayFork (l.witnessBelow hi f) (.pruned (dataHash k v)) r.childHashTree
    | .lt => threeWayFork (l.fullWitnessTree f) (f k v) (r.witnessBelow hi f)

/-- `fn witness_range_between`'s `go` (mod.rs:582-636). -/
def witnessBetween (lo hi : KeyBound) (f : Bytes → V → HashTree) : Rb V → HashTree
  | .nil => .empty
  | .node _ l k v r h =>
    match cmpB lo.key k, cmpB k hi.key with
    | .lt, .lt => threeWayFork (l.witnessBetween lo hi f) (f k v) (r.witnessBetween lo hi f)
    | .eq, .eq =>
      threeWayFork l.childHashTree
        (match lo, hi with
          | .exact _, _ => f k v
          | _, .exact _ => f k v
          | _, _ => witnessTree k v)
        r.childHashTree
    | _, .eq => threeWayFork (l.witnessBetween lo hi f) (boundTree f hi k v) r.childHashTree
    | .eq, _ => threeWayFork l.childHashTree (boundTree f lo k v) (r.witnessBetween lo hi f)
    | .lt, .gt => threeWayFork (l.witnessBetween lo hi f) (.pruned (dataHash k v)) r.childHashTree
    | .gt, .lt => threeWayFork l.childHashTree (.pruned (dataHash k v)) (r.witnessBetween lo hi f)
    | _, _ => .pruned h

/-- `fn range_witness` (mod.rs:399-411), with the `debug_assert!(lo <= hi)` of `witness_range_between`
(mod.rs:576-581) as a panic. -/
def rangeWitness (t : Rb V) (lo hi : Option KeyBound) (f : Bytes → V → HashTree) : Option HashTree :=
  match lo, hi with
  | none, none => some (t.fullWitnessTree f)
  | some l, none => some (t.witnessAbove l f)
  | none, some r => some (t.witnessBelow r f)
  | some l, some r => if ltB r.key l.key then none else some (t.witnessBetween l r f)

/-- `range_witness` in a release build, where `debug_assert!` is compiled out. -/
def rangeWitnessRelease (t : Rb V) (lo hi : Option KeyBound) (f : Bytes → V → HashTree) : HashTree :=
  match lo, hi with
  | none, none => t.fullWitnessTree f
  | some l, none => t.witnessAbove l f
  | none, some r => t.witnessBelow r f
  | some l, some r => t.witnessBetween l r f

/-- `lookup_and_build_witness` (mod.rs:696-731); `subtree_with` (mod.rs:152-154). The closure may panic
(`V → Option HashTree`), so the result is `Option (Option HashTree)`: outer `none` = panic. -/
def lookupWitness (key : Bytes) (f : V → Option HashTree) : Rb V → Option (Option HashTree)
  | .nil => some none
  | .node _ l k v r _ =>
    match cmpB key k with
    | .eq => do
      let w ← f v
      some (some (threeWayFork l.childHashTree (.labeled k w) r.childHashTree))
    | .lt => do
      match ← l.lookupWitness key f with
      | none => some none
      | some s => some (some (threeWayFork s (.pruned (dataHash k v)) r.childHashTree))
    | .gt => do
      match ← r.lookupWitness key f with
      | none => some none
      | some s => some (some (threeWayFork l.childHashTree (.pruned (dataHash k v)) s))

/-- `RbTree::nested_witness` (mod.rs:422-434). -/
def nestedWitness (t : Rb V) (key : Bytes) (f : V → Option HashTree) : Option HashTree := do
  match ← t.lookupWitness key f with
  | some w => some w
  | none => t.rangeWitness (t.lowerBound key) (t.upperBound key) witnessTree

/-- `RbTree::witness` (mod.rs:413-420). -/
def witness (t : Rb V) (key : Bytes) : Option HashTree :=
  t.nestedWitness key (fun v => some (asHashTree v))

/-- `RbTree::keys` (mod.rs:436-441). -/
def keys (t : Rb V) : HashTree := t.fullWitnessTree witnessTree

/-- `RbTree::key_range` (mod.rs:443-452). -/
def keyRange (t : Rb V) (first last : Bytes) : Option HashTree :=
  t.rangeWitness (t.lowerBound first) (t.upperBound last) witnessTree

/-- `RbTree::value_range` (mod.rs:454-462). -/
def valueRange (t : Rb V) (first last : Bytes) : Option HashTree :=
  t.rangeWitness (t.lowerBound first) (t.upperBound last) dataTree

/-- `RbTree::keys_with_prefix` (mod.rs:464-472). -/
def keysWithPrefix (t : Rb V) (pre : Bytes) : Option HashTree :=
  t.rangeWitness (t.lowerBound pre) (t.rightPrefixNeighbor pre) witnessTree

end

/-! ### Iteration -/

/-- `Node::visit` / `RbTree::for_each` (mod.rs:137-146, 488-494): the sequence of calls made to the closure. -/
def forEach : Rb V → List (Bytes × V)
  | .nil => []
  | .node _ l k v r _ => l.forEach ++ (k, v) :: r.forEach

/-- `enum Visit` (mod.rs:187-192). -/
inductive Visit where
  | pre
  | inn
  | post
deriving DecidableEq, Repr

/-- `struct Iter` (mod.rs:194-203). The code compares node *pointers*; a node is represented here together
with its address, the path of child selectors (`true` = left) leading to it from the root, most
recent first. The vector `parents` is a list with the last element first. -/
structure Iter (V : Type) where
  visit : Visit
  parents : List (List Bool × Rb V)

/-- `RbTree::iter` (mod.rs:474-486). -/
def iter (t : Rb V) : Iter V :=
  match t with
  | .nil => ⟨.pre, []⟩
  | n => ⟨.pre, [([], n)]⟩

/-- address of `parent.left`, if there is one (mod.rs:236-239) -/
def leftAddr : List Bool × Rb V → Option (List Bool)
  | (a, .node _ (.node ..) _ _ _ _) => some (true :: a)
  | _ => none

/-- `Iter::step` (mod.rs:214-251). -/
def Iter.step (it : Iter V) : Bool × Iter V :=
  match it.parents with
  | [] => (false, it)
  | (a, tip) :: rest =>
    match it.visit with
    | .pre =>
      match tip.left with
      | .nil => (true, ⟨.inn, it.parents⟩)
      | l => (true, ⟨.pre, (true :: a, l) :: it.parents⟩)
    | .inn =>
      match tip.right with
      | .nil => (true, ⟨.post, it.parents⟩)
      | r => (true, ⟨.pre, (false :: a, r) :: it.parents⟩)
    | .post =>
      match rest with
      | [] => (true, ⟨.post, rest⟩)
      | parent :: _ =>
        if leftAddr parent = some a then (true, ⟨.inn, rest⟩) else (true, ⟨.post, rest⟩)

/-- `Iterator::next` (mod.rs:257-264), with fuel for the `while` loop (`none` = out of fuel):
returns the item, if any, and the new iterator state. -/
def Iter.next : Nat → Iter V → Option (Option (Bytes × V) × Iter V)
  | 0, _ => none
  | n + 1, it =>
    match it.step with
    | (false, it') => some (none, it')
    | (true, it') =>
      if it'.visit = .inn then
        match it'.parents with
        | (_, .node _ _ k v _ _) :: _ => some (some (k, v), it')
        | _ => some (none, it')
      else it'.next n

/-- draining the iterator: repeated `next` until it returns `None`; `fuel` bounds each `next` and the number
of items -/
def Iter.collect (fuel : Nat) : Nat → Iter V → Option (List (Bytes × V))
  | 0, _ => none
  | n + 1, it =>
    match it.next fuel with
    | none => none
    | some (none, _) => some []
    | some (some x, it') => (Iter.collect fuel n it').map (x :: ·)

/-- `Iterator::eq` on two iterators (used by `PartialEq for RbTree`, mod.rs:274-282): items are drawn
alternately and compared until one iterator ends or a difference shows. `fuel`/`n` as in `collect`. -/
def Iter.eq [DecidableEq V] (fuel : Nat) : Nat → Iter V → Iter V → Option Bool
  | 0, _, _ => none
  | n + 1, a, b =>
    match a.next fuel with
    | none => none
    | some (none, _) => (b.next fuel).map (fun r => r.1.isNone)
    | some (some x, a') =>
      match b.next fuel with
      | none => none
      | some (none, _) => some false
      | some (some y, b') => if x = y then Iter.eq fuel n a' b' else some false

/-- `FromIterator for RbTree` (mod.rs:311-326). -/
def fromIter [SHA] [AsHashTree V] (xs : List (Bytes × V)) : Option (Rb V) :=
  xs.foldlM (fun t x => t.insert x.1 x.2) .nil

end Rb
end Verif
