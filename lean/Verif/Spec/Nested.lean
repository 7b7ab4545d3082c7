import Verif.Model.Nested
import Verif.Spec.RbTree

/-!
# Specification vocabulary for the nested tree: histories and the map from paths to leaves
-/

namespace Verif

/-- Value types stored as a single leaf node (`Vec<u8>`, `Hash`). -/
class LeafValue (V : Type) [SHA] [AsHashTree V] : Prop extends LawfulAsHashTree V where
  isLeaf : ∀ v : V, ∃ b, asHashTree v = .leaf b

instance [SHA] : LeafValue Bytes where
  isLeaf b := ⟨b, rfl⟩

/-- One call of the mutating interface of `NestedTree`. -/
inductive NOp (V : Type) where
  | insert (path : List Bytes) (v : V)
  | delete (path : List Bytes)
  | clear

namespace NOp
variable {V : Type}

def run [SHA] [AsHashTree V] (t : NTree V) : NOp V → Option (NTree V)
  | .insert p v => t.insert p v
  | .delete p => t.delete p
  | .clear => some t.clear

/-- The map from paths to leaves after the call: inserting at `p` removes every leaf above or below `p` and
puts `v` at `p`; deleting `p` removes every leaf at or below `p`. -/
def spec (m : List Bytes → Option V) : NOp V → List Bytes → Option V
  | .insert p v => fun q => if q = p then some v else if q <+: p ∨ p <+: q then none else m q
  | .delete p => fun q => if p <+: q then none else m q
  | .clear => fun _ => none

end NOp

/-- The tree after a history of calls on `NestedTree::default()`. -/
def nRun {V : Type} [SHA] [AsHashTree V] (ops : List (NOp V)) : Option (NTree V) :=
  ops.foldlM (fun t o => o.run t) NTree.default

/-- The path map after a history of calls. -/
def nSpec {V : Type} (ops : List (NOp V)) : List Bytes → Option V :=
  ops.foldl NOp.spec (fun _ => none)

namespace NTree
variable {V : Type}

/-- The subtree object at a path. -/
def sub : List Bytes → NTree V → Option (NTree V)
  | [], t => some t
  | _ :: _, .leaf _ => none
  | key :: rest, .nested t => match t.forEach.find? (fun e => e.1 = key) with
    | none => none
    | some (_, child) => sub rest child

end NTree
end Verif
