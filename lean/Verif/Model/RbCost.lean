import Verif.Model.CertTree

/-!
# `RbTree` and `NestedTree` updates that count their hashing

The functions of `Model/RbTree` and `Model/Nested` that change a tree, once more, in a monad that counts the calls of `Node::update_subtree_hash` and
`Node::new`, the only ones that hash (`ic-certification/src/rb_tree/mod.rs`). `Props/RbCost` shows that without the count they are the
functions of those models.
-/

namespace Verif

/-- A computation that may panic, with the number of nodes hashed. -/
def Counted (α : Type) : Type := Option (α × Nat)

namespace Counted

instance : Monad Counted where
  pure a := some (a, 0)
  bind x f := match x with
    | none => none
    | some (a, n) => match f a with
      | none => none
      | some (b, m) => some (b, n + m)

/-- a panic -/
def panic {α : Type} : Counted α := none

/-- a result for which one node was hashed -/
def hashed {α : Type} (a : α) : Counted α := some (a, 1)

/-- a step without hashing -/
def free {α : Type} : Option α → Counted α
  | none => none
  | some a => some (a, 0)

end Counted

namespace Rb
variable {V : Type} [SHA] [AsHashTree V]

/-- `Node::update_subtree_hash` (mod.rs:171-173). -/
def mkC (c : Color) (l : Rb V) (k : Bytes) (v : V) (r : Rb V) : Counted (Rb V) := .hashed (mk c l k v r)

/-- `fn rotate_right` (mod.rs:921-937): two updates. -/
def rotateRightC : Rb V → Counted (Rb V)
  | .node c (.node .red ll lk lv lr _) k v r _ => do
    let h ← mkC .red lr k v r
    mkC c ll lk lv h
  | _ => .panic

/-- `fn rotate_left` (mod.rs:939-954): two updates. -/
def rotateLeftC : Rb V → Counted (Rb V)
  | .node c l k v (.node .red rl rk rv rr _) _ => do
    let h ← mkC .red l k v rl
    mkC c h rk rv rr
  | _ => .panic

/-- `fn balance` (mod.rs:906-919). `flip_colors` does not hash. -/
def balanceC (h : Rb V) : Counted (Rb V) := do
  let h ← if h.right.isRed && !h.left.isRed then rotateLeftC h else pure h
  let h ← if h.left.isRed && h.left.left.isRed then rotateRightC h else pure h
  if h.left.isRed && h.right.isRed then .free (flipColors h) else pure h

/-- `insert`'s inner `go` (mod.rs:735-758). -/
def insertGoC (key : Bytes) (val : V) : Rb V → Counted (Rb V)
  | .nil => .hashed (newNode key val)
  | .node c l k v r _ =>
    match cmpB key k with
    | .eq => do
      let h ← mkC c l k val r
      balanceC h
    | .lt => do
      let l' ← l.insertGoC key val
      let h ← mkC c l' k v r
      balanceC h
    | .gt => do
      let r' ← r.insertGoC key val
      let h ← mkC c l k v r'
      balanceC h

/-- `RbTree::insert` (mod.rs:733-769). -/
def insertC (t : Rb V) (key : Bytes) (val : V) : Counted (Rb V) := do
  let t' ← t.insertGoC key val
  return t'.setColor .black

/-- `RbTree::modify` (mod.rs:372-397), including what the closure counts. -/
def modifyC (key : Bytes) (f : V → Counted V) : Rb V → Counted (Rb V)
  | .nil => pure .nil
  | .node c l k v r _ =>
    match cmpB key k with
    | .eq => do
      let v' ← f v
      mkC c l k v' r
    | .lt => do
      let l' ← l.modifyC key f
      mkC c l' k v r
    | .gt => do
      let r' ← r.modifyC key f
      mkC c l k v r'

/-- `delete`'s `move_red_left` (mod.rs:773-783). -/
def moveRedLeftC (h : Rb V) : Counted (Rb V) := do
  let h ← Counted.free (flipColors h)
  match h with
  | .node c l k v r hh =>
    if r.left.isRed then do
      let r' ← rotateRightC r
      let h ← rotateLeftC (.node c l k v r' hh)
      .free (flipColors h)
    else pure (.node c l k v r hh)
  | .nil => .panic

/-- `delete`'s `move_red_right` (mod.rs:785-794). -/
def moveRedRightC (h : Rb V) : Counted (Rb V) := do
  let h ← Counted.free (flipColors h)
  if h.left.left.isRed then do
    let h ← rotateRightC h
    .free (flipColors h)
  else pure h

/-- `delete_min` (mod.rs:806-820). -/
def deleteMinC : Nat → Rb V → Counted (Rb V)
  | 0, _ => .panic
  | _ + 1, .nil => .panic
  | n + 1, .node c l k v r h =>
    match l with
    | .nil => match r with
      | .nil => pure .nil
      | _ => .panic
    | _ => do
      let h' ← if !l.isRed && !l.left.isRed then moveRedLeftC (.node c l k v r h)
        else pure (.node c l k v r h)
      match h' with
      | .nil => .panic
      | .node c l k v r _ => do
        let l' ← deleteMinC n l
        let h ← mkC c l' k v r
        balanceC h

/-- `delete`'s `go` (mod.rs:822-857). -/
def deleteGoC (key : Bytes) : Nat → Rb V → Counted (Rb V)
  | 0, _ => .panic
  | _ + 1, .nil => .panic
  | n + 1, .node c l k v r h =>
    if ltB key k then
      match l with
      | .nil => .panic
      | _ => do
        let h' ← if !l.isRed && !l.left.isRed then moveRedLeftC (.node c l k v r h)
          else pure (.node c l k v r h)
        match h' with
        | .nil => .panic
        | .node c l k v r _ => do
          let l' ← deleteGoC key n l
          let h ← mkC c l' k v r
          balanceC h
    else do
      let h1 ← if l.isRed then rotateRightC (.node c l k v r h) else pure (.node c l k v r h)
      match h1 with
      | .nil => .panic
      | .node c1 l1 k1 v1 r1 hh1 =>
        match r1 with
        | .nil => if key == k1 then (match l1 with | .nil => pure .nil | _ => .panic) else .panic
        | _ => do
          let h2 ← if !r1.isRed && !r1.left.isRed then moveRedRightC (.node c1 l1 k1 v1 r1 hh1)
            else pure (.node c1 l1 k1 v1 r1 hh1)
          match h2 with
          | .nil => .panic
          | .node c2 l2 k2 v2 r2 _ =>
            if key == k2 then do
              let (k3, v3, r3) ← Counted.free (swapMin k2 v2 r2)
              let r4 ← deleteMinC n r3
              let h ← mkC c2 l2 k3 v3 r4
              balanceC h
            else do
              let r3 ← deleteGoC key n r2
              let h ← mkC c2 l2 k2 v2 r3
              balanceC h

/-- `RbTree::delete` (mod.rs:771-880); the debug assertion at its end does not hash. -/
def deleteC (t : Rb V) (key : Bytes) : Counted (Rb V) :=
  match t.get key with
  | none => pure t
  | some _ => do
    let t1 := if !t.left.isRed && !t.right.isRed then t.setColor .red else t
    let t2 ← deleteGoC key t.size t1
    let t3 := t2.setColor .black
    match t3.get key with
    | none => pure t3
    | some _ => .panic

end Rb

namespace NTree
variable {V : Type} [SHA] [AsHashTree V]

/-- `NestedTree::insert` (nested_rb_tree.rs:96-115). -/
def insertC : List Bytes → V → NTree V → Counted (NTree V)
  | [], v, _ => pure (.leaf v)
  | key :: rest, v, self =>
    let tree : Rb (NTree V) := match self with
      | .leaf _ => .nil
      | .nested t => t
    match tree.get key with
    | some _ => do
      let t ← tree.modifyC key (fun child => insertC rest v child)
      return .nested t
    | none => do
      let tree' ← tree.insertC key default
      match tree'.get key with
      | some _ => do
        let t ← tree'.modifyC key (fun child => insertC rest v child)
        return .nested t
      | none => .panic

/-- `NestedTree::delete` (nested_rb_tree.rs:117-142). -/
def deleteC : List Bytes → NTree V → Counted (NTree V)
  | [], self => pure self.clear
  | _ :: _, .leaf v => pure (.leaf v)
  | key :: rest, .nested tree => do
    let tree' ← tree.modifyC key (fun child => deleteC rest child)
    match tree'.get key with
    | some (.nested .nil) => do
      let t ← tree'.deleteC key
      return .nested t
    | _ => return .nested tree'

end NTree

namespace CertTree
variable [SHA]

/-- `HttpCertificationTree::insert` (certification_tree.rs:50-53). -/
def insertC (t : CertTree) (e : CertEntry) : Counted CertTree := do
  let n ← t.tree.insertC e.toTreePath []
  return ⟨n⟩

/-- `HttpCertificationTree::delete` (certification_tree.rs:58-61). -/
def deleteC (t : CertTree) (e : CertEntry) : Counted CertTree := do
  let n ← t.tree.deleteC e.toTreePath
  return ⟨n⟩

end CertTree
end Verif
