import Verif.Model.RbTree
import Verif.Spec.HashTree

/-!
# Specification vocabulary for the red-black tree

Histories of calls, the ordinary finite map they should behave like, and the contract of the value
type (`AsHashTree`).
-/

namespace Verif

/-- The contract a value type must meet (documented at rb_tree/mod.rs:28-36): its root hash is the digest
of its hash tree, and that tree is a well-formed full tree. -/
class LawfulAsHashTree (V : Type) [SHA] [AsHashTree V] : Prop where
  root : ∀ v : V, rootHash v = (asHashTree v).digest
  wf : ∀ v : V, (asHashTree v).WellFormed

instance [SHA] : LawfulAsHashTree Bytes where
  root _ := rfl
  wf _ := rfl

/-- One call of the public mutating interface of `RbTree`. -/
inductive RbOp (V : Type) where
  | insert (k : Bytes) (v : V)
  | delete (k : Bytes)
  | modify (k : Bytes) (f : V → V)

namespace RbOp
variable {V : Type}

/-- What the call does to the tree (`none` = panic). -/
def run [SHA] [AsHashTree V] (t : Rb V) : RbOp V → Option (Rb V)
  | .insert k v => t.insert k v
  | .delete k => t.delete k
  | .modify k f => t.modify k (fun v => some (f v))

/-- What the call does to an ordinary map. -/
def spec (m : Bytes → Option V) : RbOp V → Bytes → Option V
  | .insert k v => fun k' => if k' = k then some v else m k'
  | .delete k => fun k' => if k' = k then none else m k'
  | .modify k f => fun k' => if k' = k then (m k').map f else m k'

end RbOp

/-- The tree after a history of calls on an empty tree (`none` if one of them panics). -/
def rbRun {V : Type} [SHA] [AsHashTree V] (ops : List (RbOp V)) : Option (Rb V) :=
  ops.foldlM (fun t o => o.run t) .nil

/-- The map after a history of calls on the empty map. -/
def rbSpec {V : Type} (ops : List (RbOp V)) : Bytes → Option V :=
  ops.foldl RbOp.spec (fun _ => none)

namespace Rb
variable {V : Type}

/-- Number of nodes on the longest path. -/
def depth : Rb V → Nat
  | .nil => 0
  | .node _ l _ _ r _ => max l.depth r.depth + 1

/-- Number of black nodes on the leftmost path. -/
def blackDepth : Rb V → Nat
  | .nil => 0
  | .node c l _ _ _ _ => l.blackDepth + (if c = .black then 1 else 0)

/-- Left-leaning red-black shape: red nodes only as left children, never two in a row, and the same
number of black nodes on every path. -/
def LeftLeaning : Rb V → Prop
  | .nil => True
  | .node c l _ _ r _ => r.isRed = false ∧ ¬ (c = .red ∧ l.isRed = true) ∧
      l.blackDepth = r.blackDepth ∧ l.LeftLeaning ∧ r.LeftLeaning

end Rb
end Verif
