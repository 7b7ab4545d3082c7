import Verif.Model.Http
import Verif.Model.Utf8

/-!
# Specification vocabulary: percent-encoding (RFC 3986), and what is assumed of the URL libraries
-/

namespace Verif

/-- The value of a hexadecimal digit. -/
def hexDigitValue (c : UInt8) : Option UInt8 :=
  if 0x30 ≤ c ∧ c ≤ 0x39 then some (c - 0x30)
  else if 0x41 ≤ c ∧ c ≤ 0x46 then some (c - 0x37)
  else if 0x61 ≤ c ∧ c ≤ 0x66 then some (c - 0x57)
  else none

/-- Percent-decoding: `%` and two hexadecimal digits stand for a byte, everything else for itself. -/
def pctDecode : Bytes → Bytes
  | [] => []
  | [c] => [c]
  | [c, d] => [c, d]
  | c :: a :: b :: r =>
    match c == 0x25, hexDigitValue a, hexDigitValue b with
    | true, some x, some y => (16 * x + y) :: pctDecode r
    | _, _, _ => c :: pctDecode (a :: b :: r)

/-- The characters that need no escape in a path: letters, digits, `-`, `.`, `_`, `~` and the slash. -/
def PathChar (c : UInt8) : Prop :=
  (0x30 ≤ c ∧ c ≤ 0x39) ∨ (0x41 ≤ c ∧ c ≤ 0x5A) ∨ (0x61 ≤ c ∧ c ≤ 0x7A) ∨ c = 0x2D ∨ c = 0x2E ∨ c = 0x5F ∨ c = 0x7E ∨ c = 0x2F

instance (c : UInt8) : Decidable (PathChar c) := by unfold PathChar; infer_instance

/-- An upper case hexadecimal digit. -/
def hexDigit (n : UInt8) : UInt8 := if n < 10 then 0x30 + n else 0x37 + n

/-- The URL for a path: all other bytes are escaped. -/
def pctEncode (p : Bytes) : Bytes :=
  p.flatMap (fun c => if PathChar c then [c] else [0x25, hexDigit (c / 16), hexDigit (c % 16)])

/-- What is assumed of `http::Uri` and `urlencoding::decode`. -/
structure StandardUri [UriLib] : Prop where
  /-- an encoded path is a URL, whose path is itself -/
  path : ∀ u, u.head? = some 0x2F → (∀ c ∈ u, PathChar c ∨ c = 0x25) → u.length < 65534 → UriLib.parse u = some (u, none)
  /-- a space is not allowed in a URL, save in its fragment -/
  space : ∀ u, u.head? = some 0x2F → 0x20 ∈ u → 0x23 ∉ u → UriLib.parse u = none
  /-- decoding is percent-decoding, and fails if the result is no UTF-8 -/
  decode : ∀ b, UriLib.decode b = if (chars (pctDecode b)).isSome then some (pctDecode b) else none

end Verif
