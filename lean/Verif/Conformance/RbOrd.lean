import Verif.Conformance.RbTree
import Verif.Model.RbOrd

/-! # `test_equality` and `test_ordering` of packages/ic-certification/src/rb_tree/tests.rs:355-400 -/

namespace Verif.Conformance
open Verif HashTree Rb
set_option maxRecDepth 100000

section
attribute [local instance] toySHA

def cmpTrees (a b : Option (Rb Bytes)) : Option Ordering := do
  let t ← a
  let t' ← b
  Iter.cmp 1000 200 t.iter t'.iter

def eqTrees (a b : Option (Rb Bytes)) : Option Bool := do
  let t ← a
  let t' ← b
  Iter.eq 1000 200 t.iter t'.iter

def ordTree (ks : List Nat) (d : Nat) : Option (Rb Bytes) := Rb.fromIter (ks.map (fun k => (be8 k, be8 (k + d))))

example : eqTrees (ordTree (List.range 100).reverse 10) (ordTree (List.range 100) 10) = some true := by decide +kernel
example : cmpTrees (ordTree (List.range 100).reverse 10) (ordTree (List.range 100) 10) = some .eq := by decide +kernel
example : cmpTrees (ordTree ((List.range 100).reverse ++ [200]) 10) (ordTree (List.range 100) 10) = some .gt := by
  decide +kernel
example : eqTrees (ordTree ((List.range 100).reverse ++ [200]) 10) (ordTree (List.range 100) 10) = some false := by
  decide +kernel

example : cmpTrees (ordTree (List.range 10) 0) (ordTree (List.range 10) 1) = some .lt := by decide +kernel
example : cmpTrees (ordTree (List.range 10) 0) (ordTree (List.range 5) 0) = some .gt := by decide +kernel
example : cmpTrees (ordTree (List.range 10) 0) (ordTree [1, 2, 3, 4] 0) = some .lt := by decide +kernel
end

end Verif.Conformance
