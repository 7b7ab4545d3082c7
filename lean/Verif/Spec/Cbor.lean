import Verif.Model.Cbor

/-!
# Specification vocabulary for CBOR: sizes, depth, what a map header is
-/

namespace Verif

/-- Lengths the encoding and the machine can represent. -/
def Machine.Fits (m : Machine) (n : Nat) : Prop := n < m.usize ∧ n < 2 ^ 64

/-- All labels and leaves of the tree have representable lengths. -/
def HashTree.Fits (m : Machine) : HashTree → Prop
  | .empty => True
  | .fork l r => l.Fits m ∧ r.Fits m
  | .labeled l t => m.Fits l.length ∧ t.Fits m
  | .leaf b => m.Fits b.length
  | .pruned _ => True

/-- Number of levels of the tree. -/
def HashTree.height : HashTree → Nat
  | .empty => 0
  | .fork l r => max l.height r.height + 1
  | .labeled _ t => t.height + 1
  | .leaf _ => 0
  | .pruned _ => 0

/-- The number written in these bytes, the most significant byte first. -/
def bigEndian : Bytes → Nat
  | [] => 0
  | x :: b => x.toNat * 256 ^ b.length + bigEndian b

/-- `h` is the header of a map declaring `n` pairs. -/
def IsMapHeader (h : Bytes) (n : Nat) : Prop :=
  ∃ e i, h = e :: i ∧ 5 * 32 ≤ e.toNat ∧ e.toNat < 6 * 32 ∧
    ((e.toNat % 32 ≤ 23 ∧ i = [] ∧ n = e.toNat % 32) ∨
     (∃ k, e.toNat % 32 = 24 + k ∧ k ≤ 3 ∧ i.length = 2 ^ k ∧ n = bigEndian i))

/-- The input contains a map header declaring more pairs than the machine can reserve space for. -/
def HugeMap (m : Machine) (i : Bytes) : Prop :=
  ∃ pre h post n, i = pre ++ h ++ post ∧ IsMapHeader h n ∧ m.mapCap < n % m.usize

/-- The value contains no map. -/
inductive CborValue.NoMap : CborValue → Prop
  | unsigned {n} : NoMap (.unsigned n)
  | signed {w n} : NoMap (.signed w n)
  | bytes {b} : NoMap (.bytes b)
  | tag {t} : NoMap (.tag t)
  | array {vs} : (∀ v ∈ vs, NoMap v) → NoMap (.array vs)

end Verif
