import Verif.Basic

/-!
# Specification vocabulary: base64 (RFC 4648, section 4), in terms of bits
-/

namespace Verif

/-- The `w` lowest bits of a number, the highest of them first. -/
def bitsOf (w n : Nat) : List Nat := (List.range w).reverse.map (fun i => n / 2 ^ i % 2)

/-- The bits of a byte string. -/
def Bytes.bits (b : Bytes) : List Nat := b.flatMap (fun x => bitsOf 8 x.toNat)

/-- The symbol for a number below 64: `A`–`Z`, `a`–`z`, `0`–`9`, `+`, `/` (RFC 4648, table 1). -/
def base64Symbol (n : Nat) : Char :=
  if n < 26 then Char.ofNat ('A'.toNat + n)
  else if n < 52 then Char.ofNat ('a'.toNat + (n - 26))
  else if n < 62 then Char.ofNat ('0'.toNat + (n - 52))
  else if n = 62 then '+' else '/'

/-- The text `s` is base64 for the bytes `b`: symbols for six bits each, whose bits are those of `b` and fewer than six further bits, whatever
they are; then, if the symbols do not fill the last group of four, at most as many `=` as are missing. -/
def IsBase64 (s : List Char) (b : Bytes) : Prop :=
  ∃ (v : List Nat) (k : Nat) (extra : List Nat), (∀ n ∈ v, n < 64) ∧ s = v.map base64Symbol ++ List.replicate k '=' ∧
    v.flatMap (bitsOf 6) = b.bits ++ extra ∧ extra.length < 6 ∧ (k = 0 ∨ v.length % 4 ≠ 0 ∧ v.length % 4 + k ≤ 4)

end Verif
