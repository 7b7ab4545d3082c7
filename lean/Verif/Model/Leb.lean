import Verif.Basic

/-!
# Unsigned LEB128 (the external crate `leb128`, version in Cargo.lock)

`leb128::write::unsigned` and `leb128::read::unsigned` at `u64`. These are library functions; they are modelled
because their results are hashed (ic-representation-independent-hash/src/representation_independent_hash.rs:42-46)
and decoded (ic-certificate-verification/src/certificate_verification.rs: time).
-/

namespace Verif

/-- `leb128::write::unsigned`: seven bits at a time, low bits first; the fuel bounds the number of bytes. -/
def lebWrite : Nat → Nat → Bytes
  | 0, _ => []
  | fuel + 1, n => if n < 128 then [n.toUInt8] else (n % 128 + 128).toUInt8 :: lebWrite fuel (n / 128)

/-- A `u64` takes at most 10 bytes. -/
def lebU64 (n : UInt64) : Bytes := lebWrite 10 n.toNat

/-- `leb128::read::unsigned` (leb128 0.2.5) after `shift / 7` bytes; bytes after the last one are not looked at.
`none` = an error (end of input, overflow of 64 bits). The parts `low << shift` occupy different bits, so `|=` is
addition. -/
def lebReadFrom : Nat → Bytes → Option Nat
  | _, [] => none
  | shift, b :: r =>
    if shift = 63 ∧ b ≠ 0 ∧ b ≠ 1 then none
    else if b < 128 then some (b.toNat % 128 * 2 ^ shift)
    else (lebReadFrom (shift + 7) r).map (fun n => b.toNat % 128 * 2 ^ shift + n)

/-- `leb128::read::unsigned`. -/
def lebRead (b : Bytes) : Option Nat := lebReadFrom 0 b

end Verif
