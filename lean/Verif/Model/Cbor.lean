import Verif.Model.HashTree
import Verif.Model.Utf8

/-!
# Model of the CBOR parser and of the CBOR written by the library

Parsing: `ic-cbor/src/{cbor_parser,cbor_parse_hash_tree,cbor_parse_certificate}.rs` and the nom 7.1.3 combinators
used there. Writing: the `Serialize` implementations of `ic-certification` driven by serde_cbor 0.11.2.
-/

namespace Verif

/-- What the outcome of parsing depends on besides the input. -/
structure Machine where
  /-- the number of values of `usize` (2^64, or 2^32 for wasm32) -/
  usize : Nat
  /-- the largest capacity for which `HashMap::with_capacity` succeeds -/
  mapCap : Nat
  /-- how many nested calls of `parser` fit on the stack -/
  stack : Nat
  /-- how many nested calls of `cel_value` (ic-response-verification/src/cel/parser.rs:150) fit on the stack -/
  celStack : Nat
  /-- enough for the expressions that the library writes -/
  celStack_ok : 10 ≤ celStack

/-- `CborUnsignedInt` (cbor_parser.rs:22-28): the value with the width it was written in (in bits). -/
structure CborUInt where
  width : Nat
  val : Nat
deriving DecidableEq, Repr

/-- `CborHashTree` (cbor_parser.rs:62-69). -/
inductive CborTag where
  | empty | fork | labelled | leaf | pruned
deriving DecidableEq, Repr

/-- `CborValue` (cbor_parser.rs:71-79). A map is the list of its pairs in source order, read with `cborGet`. -/
inductive CborValue where
  | unsigned (n : CborUInt)
  | signed (width : Nat) (n : Int)
  | bytes (b : Bytes)
  | array (vs : List CborValue)
  | map (kvs : List (Bytes × CborValue))
  | tag (t : CborTag)

/-- `HashMap::get` on a map filled by successive insertions: the last value inserted for the key. -/
def cborGet (kvs : List (Bytes × CborValue)) (key : Bytes) : Option CborValue :=
  (kvs.reverse.find? (fun kv => kv.1 == key)).map Prod.snd

/-- Outcome of a parser: success with the remaining input, nom's `Err::Error`, or a crash (panic, stack overflow). -/
inductive CRes (α : Type) where
  | ok (rest : Bytes) (v : α)
  | err
  | crash

/-- Big-endian number (nom `be_u8` … `be_u64`). -/
def beNat (b : Bytes) : Nat := b.foldl (fun acc x => acc * 256 + x.toNat) 0

/-- nom's `take(n)` (complete). -/
def takeB (n : Nat) (i : Bytes) : Option (Bytes × Bytes) :=
  if i.length < n then none else some (i.take n, i.drop n)

/-- `get_cbor_type` (cbor_parser.rs:88-90): the high-order 3 bits. -/
def cborType (e : UInt8) : Nat := e.toNat / 32
/-- `get_cbor_info` (cbor_parser.rs:103-105): the low-order 5 bits. -/
def cborInfo (e : UInt8) : Nat := e.toNat % 32

/-- `extract_cbor_value` (cbor_parser.rs:111-122), after the first byte `e`. -/
def extractValue (e : UInt8) (i : Bytes) : Option (CborUInt × Bytes) :=
  let sized (w : Nat) : Option (CborUInt × Bytes) := (takeB w i).map (fun p => (⟨8 * w, beNat p.1⟩, p.2))
  if cborInfo e ≤ 23 then some (⟨8, cborInfo e⟩, i)
  else if cborInfo e = 24 then sized 1
  else if cborInfo e = 25 then sized 2
  else if cborInfo e = 26 then sized 4
  else if cborInfo e = 27 then sized 8
  else none

/-- `to_usize` (cbor_parser.rs:30-37): `as usize` truncates. -/
def CborUInt.toUsize (m : Machine) (n : CborUInt) : Nat := n.val % m.usize

/-- `n as iN` on N = width bits. -/
def CborUInt.asSigned (n : CborUInt) : Int :=
  if n.val < 2 ^ (n.width - 1) then n.val else (n.val : Int) - 2 ^ n.width

/-- `to_negative` (cbor_parser.rs:44-51). `-1 - x` does not overflow. -/
def CborUInt.toNegative (n : CborUInt) : CborValue := .signed n.width (-1 - n.asSigned)

/-- The interpretation of major type 0 (cbor_parser.rs:145-159). -/
def unsignedValue (n : CborUInt) : CborValue :=
  if n.width = 8 then
    match n.val with
    | 0 => .tag .empty
    | 1 => .tag .fork
    | 2 => .tag .labelled
    | 3 => .tag .leaf
    | 4 => .tag .pruned
    | _ => .unsigned n
  else .unsigned n

/-- nom's `count(parser, n)`. -/
def cborCount (p : Bytes → CRes CborValue) : Nat → Bytes → CRes (List CborValue)
  | 0, i => .ok i []
  | n + 1, i =>
    match p i with
    | .err => .err
    | .crash => .crash
    | .ok i1 v =>
      match cborCount p n i1 with
      | .ok r vs => .ok r (v :: vs)
      | .err => .err
      | .crash => .crash

/-- `extract_key_val_pair` (cbor_parser.rs:124-138). -/
def cborPair (p : Bytes → CRes CborValue) (i : Bytes) : CRes (Bytes × CborValue) :=
  match p i with
  | .err => .err
  | .crash => .crash
  | .ok i1 (.bytes k) =>
    if (chars k).isSome then
      match p i1 with
      | .err => .err
      | .crash => .crash
      | .ok i2 v => .ok i2 (k, v)
    else .err
  | .ok _ _ => .err

/-- nom's `fold_many_m_n(0, n, …)`: stops without error at the first pair that does not parse. A pair always
consumes input, so nom's check against infinite loops never fires (`cborPair_shrinks`). -/
def cborPairs (p : Bytes → CRes CborValue) : Nat → Bytes → CRes (List (Bytes × CborValue))
  | 0, i => .ok i []
  | n + 1, i =>
    match cborPair p i with
    | .err => .ok i []
    | .crash => .crash
    | .ok i1 kv =>
      match cborPairs p n i1 with
      | .ok r kvs => .ok r (kv :: kvs)
      | .err => .err
      | .crash => .crash

/-- `parser` (cbor_parser.rs:140-199). The second argument is the number of further nested calls the stack holds. -/
def cborParser (m : Machine) : Nat → Bytes → CRes CborValue
  | 0, _ => .crash
  | _ + 1, [] => .err
  | s + 1, e :: i =>
    match extractValue e i with
    | none => .err
    | some (n, i) =>
      match cborType e with
      | 0 => .ok i (unsignedValue n)
      | 1 => .ok i n.toNegative
      | 2 | 3 => match takeB (n.toUsize m) i with | some (d, r) => .ok r (.bytes d) | none => .err
      | 4 =>
        match cborCount (cborParser m s) (n.toUsize m) i with
        | .ok r vs => .ok r (.array vs)
        | .err => .err
        | .crash => .crash
      | 5 =>
        if m.mapCap < n.toUsize m then .crash
        else
          match cborPairs (cborParser m s) (n.toUsize m) i with
          | .ok r kvs => .ok r (.map kvs)
          | .err => .err
          | .crash => .crash
      | _ => cborParser m s i

/-- `CborError` (error.rs), without the texts. -/
inductive CborError where
  | malformedCbor
  | malformedRanges
  | unexpectedNodeType
  | utf8
  | malformedCertificate
  | malformedHashTree
  | prunedLength
deriving DecidableEq, Repr

/-- `parse_cbor` (cbor_parser.rs:201-205), the error mapped as by its callers. `none` is a crash. -/
def parseCbor (m : Machine) (i : Bytes) : Option (Except CborError CborValue) :=
  match cborParser m m.stack i with
  | .ok [] v => some (.ok v)
  | .ok _ _ => some (.error .malformedCbor)
  | .err => some (.error .malformedCbor)
  | .crash => none

/-- `parsed_cbor_to_tree` (cbor_parse_hash_tree.rs:18-89). -/
def cborToTree : CborValue → Except CborError HashTree
  | .array (.tag .empty :: _) => .ok .empty
  | .array (.tag .leaf :: .bytes d :: _) => .ok (.leaf d)
  | .array (.tag .pruned :: .bytes d :: _) =>
    if h : d.length = 32 then .ok (.pruned ⟨d, h⟩) else .error .prunedLength
  | .array (.tag .labelled :: .bytes d :: c :: _) =>
    match cborToTree c with
    | .ok t => .ok (.labeled d t)
    | .error e => .error e
  | .array (.tag .fork :: l :: r :: _) =>
    match cborToTree l with
    | .error e => .error e
    | .ok lt =>
      match cborToTree r with
      | .error e => .error e
      | .ok rt => .ok (.fork lt rt)
  | _ => .error .malformedHashTree

/-- `HashTree::from_cbor` (cbor_parse_hash_tree.rs:11-17). -/
def treeFromCbor (m : Machine) (i : Bytes) : Option (Except CborError HashTree) :=
  (parseCbor m i).map (fun r => r >>= cborToTree)

/-- `Delegation` (ic-certification/src/certificate.rs:29-35). -/
structure Delegation where
  subnetId : Bytes
  certificate : Bytes
deriving DecidableEq, Repr

/-- `Certificate` (ic-certification/src/certificate.rs:10-21). -/
structure Certificate where
  tree : HashTree
  signature : Bytes
  delegation : Option Delegation

/-- `parsed_cbor_to_certificate` (cbor_parse_certificate.rs:16-66). -/
def cborToCertificate : CborValue → Except CborError Certificate
  | .map kvs =>
    match cborGet kvs (str "tree") with
    | none => .error .malformedCertificate
    | some tc => do
      let tree ← cborToTree tc
      match cborGet kvs (str "signature") with
      | some (.bytes signature) =>
        match cborGet kvs (str "delegation") with
        | some (.map d) =>
          match cborGet d (str "subnet_id") with
          | some (.bytes subnetId) =>
            match cborGet d (str "certificate") with
            | some (.bytes cert) => return { tree, signature, delegation := some { subnetId, certificate := cert } }
            | _ => .error .malformedCertificate
          | _ => .error .malformedCertificate
        | _ => return { tree, signature, delegation := none }
      | _ => .error .malformedCertificate
  | _ => .error .malformedCertificate

/-- `Certificate::from_cbor` (cbor_parse_certificate.rs:8-14). -/
def certificateFromCbor (m : Machine) (i : Bytes) : Option (Except CborError Certificate) :=
  (parseCbor m i).map (fun r => r >>= cborToCertificate)

/-- `Principal::from_slice` (candid): panics on more than 29 bytes. -/
def principalFromSlice (b : Bytes) : Option Bytes := if b.length ≤ 29 then some b else none

/-- The closure and `collect` of `parse_cbor_principals_array` (cbor_parser.rs:214-231). -/
def cborToRanges : List CborValue → Option (Except CborError (List (Bytes × Bytes)))
  | [] => some (.ok [])
  | .array (.bytes a :: .bytes b :: _) :: vs => do
    let a ← principalFromSlice a
    let b ← principalFromSlice b
    let rest ← cborToRanges vs
    return rest.map (fun r => (a, b) :: r)
  | _ :: _ => some (.error .malformedRanges)

/-- `parse_cbor_principals_array` (cbor_parser.rs:207-232). -/
def rangesFromCbor (m : Machine) (i : Bytes) : Option (Except CborError (List (Bytes × Bytes))) :=
  match parseCbor m i with
  | none => none
  | some (.error e) => some (.error e)
  | some (.ok (.array vs)) => cborToRanges vs
  | some (.ok _) => some (.error .malformedRanges)

/-- The closure and `collect` of `parse_cbor_string_array` (cbor_parser.rs:244-256). -/
def cborToStrings : List CborValue → Except CborError (List Bytes)
  | [] => .ok []
  | .bytes b :: vs => if (chars b).isSome then (cborToStrings vs).map (fun r => b :: r) else .error .utf8
  | _ :: _ => .error .unexpectedNodeType

/-- `parse_cbor_string_array` (cbor_parser.rs:234-257). -/
def stringsFromCbor (m : Machine) (i : Bytes) : Option (Except CborError (List Bytes)) :=
  (parseCbor m i).map (fun r => r >>= fun v =>
    match v with
    | .array vs => cborToStrings vs
    | _ => .error .unexpectedNodeType)

/-! ## Writing -/

/-- `n` as `w` big-endian bytes. -/
def beBytes : Nat → Nat → Bytes
  | 0, _ => []
  | w + 1, n => beBytes w (n / 256) ++ [(n % 256).toUInt8]

/-- serde_cbor's `write_u64(major, n)`: the shortest form. -/
def encHead (major n : Nat) : Bytes :=
  if n ≤ 23 then [(major * 32 + n).toUInt8]
  else if n < 2 ^ 8 then (major * 32 + 24).toUInt8 :: beBytes 1 n
  else if n < 2 ^ 16 then (major * 32 + 25).toUInt8 :: beBytes 2 n
  else if n < 2 ^ 32 then (major * 32 + 26).toUInt8 :: beBytes 4 n
  else (major * 32 + 27).toUInt8 :: beBytes 8 n

/-- `serialize_bytes`. -/
def encBytes (b : Bytes) : Bytes := encHead 2 b.length ++ b
/-- `serialize_str`. -/
def encText (b : Bytes) : Bytes := encHead 3 b.length ++ b

/-- `Serialize for HashTreeNode` (ic-certification/src/hash_tree/mod.rs:581-625). -/
def encTree : HashTree → Bytes
  | .empty => encHead 4 1 ++ encHead 0 0
  | .fork l r => encHead 4 3 ++ (encHead 0 1 ++ (encTree l ++ encTree r))
  | .labeled l t => encHead 4 3 ++ (encHead 0 2 ++ (encBytes l ++ encTree t))
  | .leaf b => encHead 4 2 ++ (encHead 0 3 ++ encBytes b)
  | .pruned h => encHead 4 2 ++ (encHead 0 4 ++ encBytes h.1)

/-- serde_cbor's `self_describe`: tag 55799. -/
def selfDescribe : Bytes := encHead 6 55799

/-- `Serialize` of a list of strings. -/
def encStrings (l : List Bytes) : Bytes := encHead 4 l.length ++ l.flatMap encText

/-- `Serialize` of a list of pairs of principals (as the system writes `canister_ranges`). -/
def encRanges (l : List (Bytes × Bytes)) : Bytes :=
  encHead 4 l.length ++ l.flatMap (fun p => encHead 4 2 ++ (encBytes p.1 ++ encBytes p.2))

/-- Derived `Serialize for Delegation` (ic-certification/src/certificate.rs:24-35). -/
def encDelegation (d : Delegation) : Bytes :=
  encHead 5 2 ++ (encText (str "subnet_id") ++ encBytes d.subnetId ++ encText (str "certificate") ++ encBytes d.certificate)

/-- Derived `Serialize for Certificate` (ic-certification/src/certificate.rs:4-21); no delegation, no entry. -/
def encCertificate (c : Certificate) : Bytes :=
  match c.delegation with
  | none => encHead 5 2 ++ (encText (str "tree") ++ encTree c.tree ++ encText (str "signature") ++ encBytes c.signature)
  | some d =>
    encHead 5 3 ++ (encText (str "tree") ++ encTree c.tree ++ encText (str "signature") ++ encBytes c.signature ++
      encText (str "delegation") ++ encDelegation d)

end Verif
