import Verif.Model.HashTree

/-!
# Specification vocabulary for text forms
-/

namespace Verif

/-- The number a hexadecimal digit stands for, in either case. -/
def DigitOf (c : UInt8) (n : Nat) : Prop :=
  (48 ≤ c.toNat ∧ c.toNat ≤ 57 ∧ n = c.toNat - 48) ∨ (65 ≤ c.toNat ∧ c.toNat ≤ 70 ∧ n = c.toNat - 55) ∨
  (97 ≤ c.toNat ∧ c.toNat ≤ 102 ∧ n = c.toNat - 87)

/-- `s` is the hexadecimal text of `b`, the high digit of every byte first. -/
inductive HexOf : Bytes → Bytes → Prop
  | nil : HexOf [] []
  | cons {c d x : UInt8} {s b : Bytes} {m n : Nat} (hc : DigitOf c m) (hd : DigitOf d n) (hx : x.toNat = 16 * m + n)
      (h : HexOf s b) : HexOf (c :: d :: s) (x :: b)

/-- All bytes are visible ASCII characters (so not the space). -/
def Visible (b : Bytes) : Prop := ∀ x ∈ b, 33 ≤ x.toNat ∧ x.toNat ≤ 126

end Verif
