import Verif.Spec.HashTree
import Verif.Spec.Show

/-!
# Specification vocabulary for the cost of reading a response
-/

namespace Verif

/-- The bytes in a tree: labels, contents of leaves, hashes of pruned parts. -/
def HashTree.payload : HashTree → Nat
  | .empty => 0
  | .fork l r => l.payload + r.payload
  | .labeled lab t => lab.length + t.payload
  | .leaf b => b.length
  | .pruned _ => 32

/-- The number of bytes of several texts together. -/
def totalLength (l : List Bytes) : Nat := (l.map List.length).sum

end Verif
