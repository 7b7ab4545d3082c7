import Verif.Model.Cbor

/-!
# Model of the serde implementations of `ic-certification`

`Serialize` / `Deserialize` of `Label`, `HashTreeNode`, `Delegation` and `Certificate`
(ic-certification/src/hash_tree/mod.rs:543-775, certificate.rs:1-268, lib.rs:70-114).

The data format is abstracted to serde's data model: a serialiser produces a value of `Sd`, a deserialiser for a
self-describing format (serde_cbor, serde_json) hands such a value to the visitor, whatever hint the `Deserialize`
implementation gives. Formats differ in whether they can lend byte and text strings out of the input (`borrowed`:
serde_cbor reading a slice does, readers and JSON do not), and in whether they reject a sequence from which the
visitor has not taken all elements (serde_cbor does). Errors carry no information: `none`.
-/

namespace Verif

/-- serde's data model, as far as it matters here; `other` is everything else (null, booleans, negative numbers …). -/
inductive Sd where
  | u64 (n : Nat)
  | bytes (borrowed : Bool) (b : Bytes)
  | str (borrowed : Bool) (b : Bytes)
  | seq (xs : List Sd)
  | map (kvs : List (Sd × Sd))
  | other

/-- `VecStorage`, `SliceStorage` or `CowStorage` (lib.rs:77-114); the last two decode through the same type. -/
inductive SdStorage where
  | vec
  | slice
deriving DecidableEq

/-! ## Writing -/

/-- `Label::write_hex` (hash_tree/mod.rs:42-46): two upper-case hexadecimal digits for each byte. -/
def hexUpper (b : Bytes) : Bytes :=
  b.flatMap (fun x => [hexDigit (x.toNat / 16), hexDigit (x.toNat % 16)])
where
  hexDigit (n : Nat) : UInt8 := if n < 10 then (48 + n).toUInt8 else (55 + n).toUInt8

/-- `Serialize for Label` (hash_tree/mod.rs:559-569). -/
def serLabel (humanReadable : Bool) (b : Bytes) : Sd :=
  if humanReadable then .str false (hexUpper b) else .bytes false b

/-- `Serialize for HashTreeNode` (hash_tree/mod.rs:583-626). Labels are written as bytes, not through `Label`. -/
def serTree : HashTree → Sd
  | .empty => .seq [.u64 0]
  | .fork l r => .seq [.u64 1, serTree l, serTree r]
  | .labeled l t => .seq [.u64 2, .bytes false l, serTree t]
  | .leaf b => .seq [.u64 3, .bytes false b]
  | .pruned h => .seq [.u64 4, .bytes false h.1]

/-- Derived `Serialize for Delegation` (certificate.rs:24-36). -/
def serDelegation (d : Delegation) : Sd :=
  .map [(.str false (str "subnet_id"), .bytes false d.subnetId), (.str false (str "certificate"), .bytes false d.certificate)]

/-- Derived `Serialize for Certificate` (certificate.rs:4-22); without a delegation the entry is skipped. -/
def serCertificate (c : Certificate) : Sd :=
  .map ([(.str false (str "tree"), serTree c.tree), (.str false (str "signature"), .bytes false c.signature)] ++
    match c.delegation with
    | none => []
    | some d => [(.str false (str "delegation"), serDelegation d)])

mutual
/-- serde_cbor's `Serializer`: a value of the data model in CBOR (not part of this repository). -/
def Sd.cbor : Sd → Bytes
  | .u64 n => encHead 0 n
  | .bytes _ b => encBytes b
  | .str _ b => encText b
  | .seq xs => encHead 4 xs.length ++ Sd.cborSeq xs
  | .map kvs => encHead 5 kvs.length ++ Sd.cborMap kvs
  | .other => []
def Sd.cborSeq : List Sd → Bytes
  | [] => []
  | x :: xs => x.cbor ++ Sd.cborSeq xs
def Sd.cborMap : List (Sd × Sd) → Bytes
  | [] => []
  | x :: xs => Sd.cborPair x ++ Sd.cborMap xs
def Sd.cborPair : Sd × Sd → Bytes
  | (k, v) => k.cbor ++ v.cbor
end

/-! ## Reading -/

/-- `Deserialize for u8`. -/
def deU8 : Sd → Option UInt8
  | .u64 n => if n < 256 then some n.toUInt8 else none
  | _ => none

/-- `Storage::Temp` (lib.rs:77-114): `ByteBuf` takes byte strings, text and sequences of small numbers; `&Bytes` only
what can be lent out of the input. -/
def deBytes (s : SdStorage) : Sd → Option Bytes
  | .bytes bo b => if s = .vec ∨ bo = true then some b else none
  | .str bo b => if s = .vec ∨ bo = true then some b else none
  | .seq xs => if s = .vec then xs.mapM deU8 else none
  | _ => none

/-- `Deserialize for Label` (hash_tree/mod.rs:570-580): `serde_bytes::deserialize`, human readable or not. -/
def deLabel (s : SdStorage) (d : Sd) : Option Bytes := deBytes s d

/-- `HashTreeNodeVisitor::visit_seq` and the `Deserialize` implementations (hash_tree/mod.rs:628-741): the first
element is the tag, and after the elements belonging to the tag there must be none. The digest of a pruned node is
read as `&Bytes` for every storage. -/
def deTree (s : SdStorage) : Sd → Option HashTree
  | .seq [.u64 0] => some .empty
  | .seq [.u64 1, l, r] => do
    let l ← deTree s l
    let r ← deTree s r
    some (.fork l r)
  | .seq [.u64 2, l, t] => do
    let l ← deBytes s l
    let t ← deTree s t
    some (.labeled l t)
  | .seq [.u64 3, b] => do
    let b ← deBytes s b
    some (.leaf b)
  | .seq [.u64 4, h] => do
    let b ← deBytes .slice h
    if h : b.length = 32 then some (.pruned ⟨b, h⟩) else none
  | _ => none

/-- Derived `Deserialize` of a `field_identifier` enumeration (certificate.rs:50-56, 170-175): the number of the field,
or its name as text or bytes. -/
def deField (names : List Bytes) : Sd → Option Nat
  | .u64 n => if n < names.length then some n else none
  | .str _ b => if names.idxOf b < names.length then some (names.idxOf b) else none
  | .bytes _ b => if names.idxOf b < names.length then some (names.idxOf b) else none
  | _ => none

/-- The loop of `visit_map` (certificate.rs:97-122, 206-225): every key names a field, and none twice. The values are
decoded after the loop instead of inside it; if one cannot be, the result is an error in either order. -/
def visitMap (names : List Bytes) : List (Sd × Sd) → (Nat → Option Sd) → Option (Nat → Option Sd)
  | [], got => some got
  | (k, v) :: rest, got => do
    let i ← deField names k
    if (got i).isSome then none
    else visitMap names rest (fun j => if j = i then some v else got j)

/-- `DelegationVisitor` (certificate.rs:177-232), `deserialize_delegation` (certificate.rs:234-243). `strict`: the
format rejects a sequence that has not been read to its end. -/
def deDelegation (strict : Bool) (s : SdStorage) : Sd → Option Delegation
  | .seq (a :: b :: rest) => do
    let subnetId ← deBytes s a
    let certificate ← deBytes s b
    if strict ∧ rest ≠ [] then none else some { subnetId, certificate }
  | .map kvs => do
    let got ← visitMap [str "subnet_id", str "certificate"] kvs (fun _ => none)
    let subnetId ← (← got 0) |> deBytes s
    let certificate ← (← got 1) |> deBytes s
    some { subnetId, certificate }
  | _ => none

/-- `CertificateVisitor` (certificate.rs:57-129), `deserialize_certificate` (certificate.rs:131-141). -/
def deCertificate (strict : Bool) (s : SdStorage) : Sd → Option Certificate
  | .seq [a, b] => do
    let tree ← deTree s a
    let signature ← deBytes s b
    some { tree, signature, delegation := none }
  | .seq (a :: b :: c :: rest) => do
    let tree ← deTree s a
    let signature ← deBytes s b
    let d ← deDelegation strict s c
    if strict ∧ rest ≠ [] then none else some { tree, signature, delegation := some d }
  | .map kvs => do
    let got ← visitMap [str "tree", str "signature", str "delegation"] kvs (fun _ => none)
    let delegation ← (got 2).elim (some none) (fun d => (deDelegation strict s d).map some)
    let tree ← (← got 0) |> deTree s
    let signature ← (← got 1) |> deBytes s
    some { tree, signature, delegation }
  | _ => none

end Verif
