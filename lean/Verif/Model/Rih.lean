import Verif.Model.Leb
import Mathlib.Data.List.Sort

/-!
# Model of `ic-representation-independent-hash`

Strings are their UTF-8 bytes.
-/

namespace Verif

/-- `pub enum Value` (representation_independent_hash.rs:6-15). -/
inductive RValue where
  | string (b : Bytes)
  | number (n : UInt64)
  | bytes (b : Bytes)
  | array (es : List RValue)

section
variable [SHA]

mutual
/-- `hash_value` (representation_independent_hash.rs:38-49). -/
def RValue.hash : RValue → Hash
  | .string b => sha b
  | .bytes b => sha b
  | .number n => sha (lebU64 n)
  | .array es => sha (RValue.hashes es)
/-- The bytes fed to the hasher by `hash_array` (representation_independent_hash.rs:52-59). -/
def RValue.hashes : List RValue → Bytes
  | [] => []
  | e :: es => (RValue.hash e).1 ++ RValue.hashes es
end

/-- The derived order on `([u8; 32], [u8; 32])`, as `≤` (representation_independent_hash.rs:27). -/
def pairLe (a b : Hash × Hash) : Prop :=
  cmpB a.1.1 b.1.1 = .lt ∨ (cmpB a.1.1 b.1.1 = .eq ∧ cmpB a.2.1 b.2.1 ≠ .gt)

instance : DecidableRel pairLe := fun a b => by unfold pairLe; infer_instance

/-- The two `hasher.update` calls per pair (representation_independent_hash.rs:29-33). -/
def pairBytes (a : Hash × Hash) : Bytes := a.1.1 ++ a.2.1

/-- `representation_independent_hash` (representation_independent_hash.rs:21-36). `sort_unstable` on a total
order in which equal elements are identical has one possible result, that of any sorting function; insertion
sort is used here. -/
def rih (map : List (Bytes × RValue)) : Hash :=
  let hashes := map.map (fun e => (sha e.1, e.2.hash))
  let hashes := hashes.insertionSort pairLe
  sha (hashes.flatMap pairBytes)

end
end Verif
