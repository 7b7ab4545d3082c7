import Verif.Basic

/-!
# Base64 as configured by the library

`ic-response-verification/src/base64.rs` (decoding: the standard alphabet, padding optional, trailing bits
ignored) and `general_purpose::STANDARD` used by `ic-http-certification/src/utils/response_header.rs:1-2,85-93`
(encoding, padded). The engine is the external crate base64 0.21.7.
-/

namespace Verif

/-- The standard alphabet (RFC 4648). -/
def b64Alphabet : List Char := "ABCDEFGHIJKLMNOPQRSTUVWXYZabcdefghijklmnopqrstuvwxyz0123456789+/".toList

/-- The symbol of a six-bit value. -/
def b64Char (n : Nat) : Char := b64Alphabet.getD n '='

/-- The six-bit value of a symbol. -/
def b64Val (c : Char) : Option Nat := b64Alphabet.findIdx? (· == c)

/-- `Engine::encode`; `pad` is false for `STANDARD_NO_PAD`. -/
def b64Encode (pad : Bool) : Bytes → List Char
  | a :: b :: c :: rest =>
    b64Char (a.toNat / 4) :: b64Char (a.toNat % 4 * 16 + b.toNat / 16) :: b64Char (b.toNat % 16 * 4 + c.toNat / 64) ::
      b64Char (c.toNat % 64) :: b64Encode pad rest
  | [a, b] =>
    [b64Char (a.toNat / 4), b64Char (a.toNat % 4 * 16 + b.toNat / 16), b64Char (b.toNat % 16 * 4)] ++
      (if pad then ['='] else [])
  | [a] => [b64Char (a.toNat / 4), b64Char (a.toNat % 4 * 16)] ++ (if pad then ['=', '='] else [])
  | [] => []

/-- Four symbols to three bytes. -/
def b64Quad (a b c d : Nat) : Bytes :=
  [(a * 4 + b / 16).toUInt8, (b % 16 * 16 + c / 4).toUInt8, (c % 4 * 64 + d).toUInt8]

/-- The last, possibly incomplete, quad: symbols, then only padding; at least two symbols. Unused low bits are
dropped whatever they are (`with_decode_allow_trailing_bits(true)`), padding is optional
(`DecodePaddingMode::Indifferent`). -/
def b64Last (s : List Char) : Option Bytes :=
  if s = [] then some []
  else if (s.dropWhile (· ≠ '=')).all (· == '=') then
    match (s.takeWhile (· ≠ '=')).mapM b64Val with
    | some [a, b] => some ((b64Quad a b 0 0).take 1)
    | some [a, b, c] => some ((b64Quad a b c 0).take 2)
    | some [a, b, c, d] => some (b64Quad a b c d)
    | _ => none
  else none

/-- `BASE64.decode` (base64.rs:6-12). The crate works on the bytes of the string; a character outside ASCII is an
error wherever it is, so working on characters gives the same result. `none` = `DecodeError`. -/
def b64Decode : List Char → Option Bytes
  | a :: b :: c :: d :: e :: rest => do
    let a ← b64Val a
    let b ← b64Val b
    let c ← b64Val c
    let d ← b64Val d
    let r ← b64Decode (e :: rest)
    return b64Quad a b c d ++ r
  | s => b64Last s

end Verif
