import Verif.Spec.Sha256
import Verif.Model.Cbor

/-!
# Conformance tests

The modules of this directory are not proofs of properties: they evaluate the *model*, in the kernel and with the
real SHA-256, on the inputs of the repository's own unit tests, and check that it gives the results those tests
assert. They support the claim that the model is the code; a transcription error in a definition breaks one of them.
Each example cites the unit test it replays.
-/

namespace Verif.Conformance

deriving instance DecidableEq for Verif.Certificate

def hexDigit (c : Char) : Nat :=
  if '0' ≤ c ∧ c ≤ '9' then c.toNat - 48 else if 'a' ≤ c ∧ c ≤ 'f' then c.toNat - 87 else if 'A' ≤ c ∧ c ≤ 'F' then c.toNat - 55 else 0

def hexPairs : List Char → Bytes
  | a :: b :: r => (hexDigit a * 16 + hexDigit b).toUInt8 :: hexPairs r
  | _ => []

/-- `hex::decode(…).unwrap()`. -/
def hex (s : String) : Bytes := hexPairs s.toList

/-- A 32-byte hash from hexadecimal digits (all zeros if the length is wrong). -/
def hexHash (s : String) : Hash :=
  if h : (hex s).length = 32 then ⟨hex s, h⟩ else ⟨List.replicate 32 0, by simp⟩

/-- `[n; 32]`. -/
def fill (n : UInt8) : Hash := ⟨List.replicate 32 n, by simp⟩

end Verif.Conformance
