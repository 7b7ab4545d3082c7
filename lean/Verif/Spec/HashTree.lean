import Verif.Model.HashTree

/-!
# Specification vocabulary for hash trees

What it means for a (full) hash tree to hold a node at a path, to be well formed, and for one
tree to be a pruned view of another. Independent of the lookup functions.
-/

namespace Verif.HashTree

/-- `t.HasNode p n`: following the labels `p` from `t` (forks are transparent) one can reach `n`. -/
inductive HasNode : HashTree → List Bytes → HashTree → Prop
  | here (t) : HasNode t [] t
  | left {l r s p n} : HasNode l (s :: p) n → HasNode (.fork l r) (s :: p) n
  | right {l r s p n} : HasNode r (s :: p) n → HasNode (.fork l r) (s :: p) n
  | down {lab t p n} : HasNode t p n → HasNode (.labeled lab t) (lab :: p) n

/-- The tree stores the bytes `v` at path `p`. -/
def HasLeaf (t : HashTree) (p : List Bytes) (v : Bytes) : Prop := HasNode t p (.leaf v)

/-- The labels visible at the top level of a tree, left to right. -/
def labels : HashTree → List Bytes
  | .fork l r => l.labels ++ r.labels
  | .labeled lab _ => [lab]
  | _ => []

/-- Well-formed *full* trees as the IC specification requires them: no pruned nodes; labels under one
node are strictly increasing from left to right; `Empty` and `Leaf` never occur below a fork.
The flag says whether the node is the whole content of a label (or the root). -/
def WF : Bool → HashTree → Prop
  | top, .empty => top = true
  | top, .leaf _ => top = true
  | _, .pruned _ => False
  | _, .labeled _ t => WF true t
  | _, .fork l r => WF false l ∧ WF false r ∧ ∀ a ∈ l.labels, ∀ b ∈ r.labels, a < b

/-- A well-formed full tree. -/
def WellFormed (t : HashTree) : Prop := WF true t

/-- No pruned node anywhere. -/
def Full : HashTree → Prop
  | .empty => True
  | .leaf _ => True
  | .pruned _ => False
  | .labeled _ t => t.Full
  | .fork l r => l.Full ∧ r.Full

section
variable [SHA]

/-- `Prunes w t`: `w` is `t` with some subtrees replaced by a pruned node carrying their digest. -/
inductive Prunes : HashTree → HashTree → Prop
  | prune (t) : Prunes (.pruned t.digest) t
  | empty : Prunes .empty .empty
  | leaf (b) : Prunes (.leaf b) (.leaf b)
  | labeled {lab w t} : Prunes w t → Prunes (.labeled lab w) (.labeled lab t)
  | fork {w₁ w₂ t₁ t₂} : Prunes w₁ t₁ → Prunes w₂ t₂ → Prunes (.fork w₁ w₂) (.fork t₁ t₂)

/-- All the byte strings fed to the hash function when computing the digest of a tree. -/
def hashed : HashTree → List Bytes
  | .empty => [sepEmpty]
  | .fork l r => (sepFork ++ l.digest.1 ++ r.digest.1) :: (l.hashed ++ r.hashed)
  | .labeled lab t => (sepLabeled ++ lab ++ t.digest.1) :: t.hashed
  | .leaf b => [sepLeaf ++ b]
  | .pruned _ => []

end
end Verif.HashTree
