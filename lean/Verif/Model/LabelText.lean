import Verif.Model.Serde
import Verif.Model.Utf8

/-!
# Model of the text forms of labels and trees

`Display` and `Debug` of `Label`, `Debug` of `HashTree` (without `#`), and `pruned_from_hex`
(ic-certification/src/hash_tree/mod.rs:108-132, 178-184, 278-290, 322-380). Text is its UTF-8 bytes.
-/

namespace Verif

/-- `char::is_ascii_graphic` (Rust core library). -/
def isGraphic (c : Char) : Bool := decide ('!'.toNat ≤ c.toNat) && decide (c.toNat ≤ '~'.toNat)

/-- `match std::str::from_utf8(v) { Ok(s) if s.chars().all(|c| c.is_ascii_graphic()) => …, _ => … }`
(hash_tree/mod.rs:114-115, 347-348). -/
def isReadable (b : Bytes) : Bool :=
  match chars b with
  | some cs => cs.all isGraphic
  | none => false

/-- `Debug for Label` (hash_tree/mod.rs:128-132). -/
def labelDebug (b : Bytes) : Bytes := hexUpper b

/-- `Display for Label` (hash_tree/mod.rs:108-126). -/
def labelDisplay (b : Bytes) : Bytes :=
  if isReadable b then str "\"" ++ b ++ str "\"" else str "0x" ++ labelDebug b

/-- `hex::encode` (external crate `hex`): two lower-case digits for each byte. -/
def hexLower (b : Bytes) : Bytes :=
  b.flatMap (fun x => [hexDigit (x.toNat / 16), hexDigit (x.toNat % 16)])
where
  hexDigit (n : Nat) : UInt8 := if n < 10 then (48 + n).toUInt8 else (87 + n).toUInt8

/-- `readable_print` (hash_tree/mod.rs:343-356). -/
def readablePrint (b : Bytes) : Bytes :=
  if isReadable b then b
  else if b.length ≤ 32 then str "0x" ++ hexLower b
  else str (Nat.repr b.length) ++ str " bytes"

/-- `Debug for str` (Rust core library) on graphic ASCII characters and spaces. -/
def quoted (b : Bytes) : Bytes :=
  str "\"" ++ b.flatMap (fun x => if x = 0x22 ∨ x = 0x5C then [0x5C, x] else [x]) ++ str "\""

/-- `Debug for HashTreeNode` (hash_tree/mod.rs:322-380), as `{:?}` prints it. -/
def nodeDebug : HashTree → Bytes
  | .empty => str "Empty"
  | .fork l r => str "Fork(" ++ nodeDebug l ++ str ", " ++ nodeDebug r ++ str ")"
  | .leaf b => str "Leaf(" ++ readablePrint b ++ str ")"
  | .labeled l t => str "Label(" ++ quoted (readablePrint l) ++ str ", " ++ nodeDebug t ++ str ")"
  | .pruned h => str "Pruned(" ++ hexLower h.1 ++ str ")"

/-- `Debug for HashTree` (hash_tree/mod.rs:178-184). -/
def treeDebug (t : HashTree) : Bytes := str "HashTree { root: " ++ nodeDebug t ++ str " }"

/-- `FromHexError` (external crate `hex`). -/
inductive HexError where
  | invalidCharacter (c : UInt8) (index : Nat)
  | oddLength
  | invalidStringLength
deriving DecidableEq, Repr

/-- `hex::val` (external crate `hex`). -/
def hexVal (c : UInt8) (index : Nat) : Except HexError UInt8 :=
  if 65 ≤ c ∧ c ≤ 70 then .ok (c - 65 + 10)
  else if 97 ≤ c ∧ c ≤ 102 then .ok (c - 97 + 10)
  else if 48 ≤ c ∧ c ≤ 57 then .ok (c - 48)
  else .error (.invalidCharacter c index)

/-- The loop of `hex::decode_to_slice` from the character at `index` on. -/
def hexPairs (index : Nat) : Bytes → Except HexError Bytes
  | a :: b :: r =>
    match hexVal a index with
    | .error e => .error e
    | .ok x =>
      match hexVal b (index + 1) with
      | .error e => .error e
      | .ok y =>
        match hexPairs (index + 2) r with
        | .error e => .error e
        | .ok bs => .ok ((x <<< 4 ||| y) :: bs)
  | _ => .ok []

/-- `hex::decode_to_slice` (external crate `hex`) into a slice of length `n`. -/
def hexDecode (n : Nat) (s : Bytes) : Except HexError Bytes :=
  if s.length % 2 ≠ 0 then .error .oddLength
  else if s.length / 2 ≠ n then .error .invalidStringLength
  else hexPairs 0 s

/-- `pruned_from_hex` (hash_tree/mod.rs:278-290). The `else` case cannot occur (`C75_pruned_from_hex`). -/
def prunedFromHex (s : Bytes) : Except HexError HashTree :=
  match hexDecode 32 s with
  | .error e => .error e
  | .ok b => if h : b.length = 32 then .ok (.pruned ⟨b, h⟩) else .error .invalidStringLength

end Verif
