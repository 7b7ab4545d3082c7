import Verif.Spec.Show
import Verif.Spec.CertTree

/-!
# Specification vocabulary for the size of witnesses
-/

namespace Verif

/-- The most nodes a witness spends on one level of a nested tree with at most `k` entries. -/
def perLevel (k : Nat) : Nat := 10 * Nat.log2 (k + 1) + 1

/-- No label and no leaf of the tree is longer than `m` bytes. -/
def HashTree.Within (m : Nat) : HashTree → Prop
  | .fork l r => l.Within m ∧ r.Within m
  | .labeled lab t => lab.length ≤ m ∧ t.Within m
  | .leaf b => b.length ≤ m
  | _ => True

/-- The number of entries of a list whose key satisfies a condition. -/
def countKeys {V : Type} (p : Bytes → Bool) (es : List (Bytes × V)) : Nat := es.countP (fun e => p e.1)

end Verif
