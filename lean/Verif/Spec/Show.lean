import Verif.Spec.Nested

/-!
# Specification vocabulary for what a witness discloses: neighbours of a key in a map, size of a tree
-/

namespace Verif

/-- `x` is the greatest key of the map that is smaller than `k`. -/
def IsPred {V : Type} (m : Bytes → Option V) (k x : Bytes) : Prop :=
  x < k ∧ (m x).isSome ∧ ∀ y, (m y).isSome → y < k → y ≤ x

/-- `x` is the smallest key of the map that is greater than `k`. -/
def IsSucc {V : Type} (m : Bytes → Option V) (k x : Bytes) : Prop :=
  k < x ∧ (m x).isSome ∧ ∀ y, (m y).isSome → k < y → x ≤ y

/-- `x` is the smallest key of the map that is greater than the prefix and than all keys with the prefix. -/
def IsPrefixSucc {V : Type} (m : Bytes → Option V) (pre x : Bytes) : Prop :=
  pre < x ∧ ¬ pre <+: x ∧ (m x).isSome ∧ ∀ y, (m y).isSome → pre < y → ¬ pre <+: y → x ≤ y

/-- Number of nodes of a hash tree. -/
def HashTree.nodes : HashTree → Nat
  | .fork l r => l.nodes + r.nodes + 1
  | .labeled _ t => t.nodes + 1
  | _ => 1

/-- Of two paths, one is a prefix of the other. -/
def OnPath (p q : List Bytes) : Prop := p <+: q ∨ q <+: p

end Verif
