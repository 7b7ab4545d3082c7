import Verif.Model.Cbor
import Verif.Model.RbTree

/-!
# Model of `certificate-verification-js` and of the certified counter example

`certificate-verification-js/src/index.ts`, `examples/certification/certified-counter`. Of agent-js 1.0.1, `lookup_path`,
`reconstruct`, `compare` and candid's `lebDecode` are modelled; `Certificate.create` (decoding and verifying a certificate)
and `Cbor.decode` are parameters.
-/

namespace Verif

/-- `Certificate.create`: the hash tree of the certificate, if it is valid for the canister and the root key
(`none`: it throws), and `Cbor.decode<HashTree>`. -/
class AgentLib where
  create : (certificate canisterId rootKey : Bytes) → Option HashTree
  decodeTree : Bytes → Option HashTree

/-- agent-js `flatten_forks`. -/
def jsFlatten : HashTree → List HashTree
  | .empty => []
  | .fork l r => jsFlatten l ++ jsFlatten r
  | .labeled l t => [.labeled l t]
  | .leaf b => [.leaf b]
  | .pruned h => [.pruned h]

/-- agent-js `find_label`. -/
def jsFindLabel (l : Bytes) : List HashTree → Option HashTree
  | [] => none
  | .labeled k t :: ts => if l = k then some t else jsFindLabel l ts
  | _ :: ts => jsFindLabel l ts

/-- agent-js `lookup_path`: the node found. -/
def jsLookup : List Bytes → HashTree → Option HashTree
  | [], t => some t
  | l :: p, t =>
    match jsFindLabel l (jsFlatten t) with
    | none => none
    | some t => jsLookup p t

/-- The node found as a buffer: `Certificate.lookup`, and `treeHash instanceof ArrayBuffer` of the counter's frontend. -/
def jsLookupBuffer (p : List Bytes) (t : HashTree) : Option Bytes :=
  match jsLookup p t with
  | some (.leaf b) => some b
  | _ => none

/-- candid's `lebDecode`: unbounded, ignores what follows, throws (`none`) at the end of the buffer. -/
def jsLebDecode : Bytes → Option Nat
  | [] => none
  | b :: bs => if b < 0x80 then some b.toNat else (jsLebDecode bs).map (fun n => b.toNat % 0x80 + 0x80 * n)

/-- What `verifyCertification` throws. -/
inductive JsError where
  | certificate | treeDecoding | timeDecoding | timeFuture | timePast | noCertifiedData | mismatch
deriving DecidableEq, Repr

/-- `validateCertificateTime` (index.ts:42-63). Times and offsets are integers of milliseconds (JS numbers: the time of
a certificate in milliseconds is below 2^53; fractions and `NaN` are not modelled). -/
def jsValidateTime (tree : HashTree) (offset now : Int) : Except JsError Unit :=
  match (jsLookupBuffer [str "time"] tree).bind jsLebDecode with
  | none => .error .timeDecoding
  | some ns =>
    let ms : Int := (ns / 1000000 : Nat)
    if ms - offset > now then .error .timeFuture
    else if ms + offset < now then .error .timePast
    else .ok ()

section
variable [SHA]

/-- `validateTree` (index.ts:65-88); `reconstruct` is the digest. -/
def jsValidateTree (tree cert : HashTree) (canisterId : Bytes) : Except JsError Unit :=
  match jsLookupBuffer [str "canister", canisterId, str "certified_data"] cert with
  | none => .error .noCertifiedData
  | some d => if d = tree.digest.1 then .ok () else .error .mismatch

/-- `verifyCertification` (index.ts:19-40); `now` is `Date.now()`. -/
def verifyCertification [AgentLib] (canisterId certificate encodedTree rootKey : Bytes) (offset now : Int) :
    Except JsError HashTree :=
  match AgentLib.create certificate canisterId rootKey with
  | none => .error .certificate
  | some cert =>
    match AgentLib.decodeTree encodedTree with
    | none => .error .treeDecoding
    | some tree => do
      jsValidateTime cert offset now
      jsValidateTree tree cert canisterId
      return tree

/-! ### The certified counter -/

/-- The state of the counter canister: `COUNTER`, `TREE` (lib.rs:8-11) and the certified data the subnet holds for it. -/
structure Counter where
  count : UInt32
  tree : Rb Bytes
  certifiedData : Bytes

/-- A canister just installed: certified data is empty. -/
def Counter.installed : Counter := ⟨0, .nil, []⟩

/-- `u32::to_be_bytes`. -/
def beU32 (n : UInt32) : Bytes := beBytes 4 n.toNat

/-- `inc_count` (lib.rs:19-34). With overflow checks the call traps at the greatest count, and leaves the state as it
was. `none`: the tree panics. -/
def Counter.inc (checks : Bool) (s : Counter) : Option Counter :=
  if checks && s.count == 0xFFFFFFFF then some s
  else do
    let n := s.count + 1
    let t ← s.tree.insert (str "count") (sha (beU32 n)).1
    return ⟨n, t, t.rootHashRb.1⟩

/-- An upgrade of the canister: the heap is lost, and initialised anew; the subnet keeps the certified data. There is no
`post_upgrade` hook. -/
def Counter.upgrade (s : Counter) : Counter := ⟨0, .nil, s.certifiedData⟩

/-- `get_count` (lib.rs:58-76) with `get_count_witness` (lib.rs:43-56): the count and the encoded witness; the
certificate is added by the subnet. -/
def Counter.get (s : Counter) : Option (UInt32 × Bytes) := do
  let w ← s.tree.witness (str "count")
  return (s.count, selfDescribe ++ encTree w)

/-- What the frontend does with the answer of `get_count` (frontend/src/index.ts:50-80): the count displayed, or `none`
if it throws. -/
def counterShow [AgentLib] (canisterId certificate rootKey : Bytes) (now : Int) (answer : UInt32 × Bytes) : Option UInt32 :=
  match verifyCertification canisterId certificate answer.2 rootKey 50000 now with
  | .error _ => none
  | .ok tree =>
    match jsLookupBuffer [str "count"] tree with
    | none => none
    | some h => if (sha (beU32 answer.1)).1 = h then some answer.1 else none

end
end Verif
