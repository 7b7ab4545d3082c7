import Verif.Model.Header
import Verif.Model.Leb

/-!
# Model of certificate verification

`ic-certificate-verification/src/certificate_verification.rs` and `signature_verification/{mod,signature_cache}.rs`.
-/

namespace Verif

/-- The external BLS library: `core_verify(sig, msg, pk) == BLS_OK`; `none` if the call panics. A parameter. -/
class Bls where
  verify : (pk sig msg : Bytes) → Option Bool

/-- `DER_PREFIX` (certificate_verification.rs:10). -/
def derPrefix : Bytes :=
  [0x30, 0x81, 0x82, 0x30, 0x1d, 0x06, 0x0d, 0x2b, 0x06, 0x01, 0x04, 0x01, 0x82, 0xdc, 0x7c, 0x05, 0x03, 0x01, 0x02,
   0x01, 0x06, 0x0c, 0x2b, 0x06, 0x01, 0x04, 0x01, 0x82, 0xdc, 0x7c, 0x05, 0x03, 0x02, 0x01, 0x03, 0x61, 0x00]

/-- `KEY_LENGTH` (certificate_verification.rs:11). -/
def keyLength : Nat := 96

/-- `extract_der` (certificate_verification.rs:13-32). -/
def extractDer (buf : Bytes) : Except CvError Bytes :=
  if buf.length ≠ derPrefix.length + keyLength then .error .derKeyLength
  else if buf.take derPrefix.length ≠ derPrefix then .error .derPrefix
  else .ok (buf.drop derPrefix.length)

/-- The field `bytes: [u8; 29]` of `candid::Principal`: zero padded. -/
def pad29 (b : Bytes) : Bytes := b ++ List.replicate (29 - b.length) 0

/-- The derived `Ord for Principal` (candid): first the field `len`, then the padded bytes. -/
def principalLe (a b : Bytes) : Bool :=
  if a.length < b.length then true
  else if b.length < a.length then false
  else cmpB (pad29 a) (pad29 b) != .gt

/-- `principal_is_within_ranges` (certificate_verification.rs:34-38). -/
def withinRanges (p : Bytes) (ranges : List (Bytes × Bytes)) : Bool :=
  ranges.any (fun r => principalLe r.1 p && principalLe p r.2)

/-- `a + b` on `u128`: on overflow a panic if overflow checks are on, else wrapping. -/
def addU128 (checks : Bool) (a b : Nat) : Option Nat :=
  if a + b < 2 ^ 128 then some (a + b) else if checks then none else some (a + b - 2 ^ 128)

/-- `a - b` on `u128`. -/
def subU128 (checks : Bool) (a b : Nat) : Option Nat :=
  if b ≤ a then some (a - b) else if checks then none else some (a + 2 ^ 128 - b)

/-- `verify_certificate_time` (certificate_verification.rs:118-160). -/
def verifyTime (checks : Bool) (tree : HashTree) (now off : Nat) : Out CvError Unit :=
  match tree.lookupPath [str "time"] with
  | .found v =>
    match lebRead v with
    | none => .err .timeDecoding
    | some t =>
      match addU128 checks now off with
      | none => .crash
      | some maxT =>
        match subU128 checks now off with
        | none => .crash
        | some minT =>
          if t > maxT then .err .timeFuture
          else if t < minT then .err .timePast
          else .ok ()
  | _ => .err .missingTime

section
variable [SHA] [Bls]

/-- The signed message: `IC_STATE_ROOT_DOMAIN_SEPARATOR` and the digest (certificate_verification.rs:9, 168-171). -/
def stateRootMsg (h : Hash) : Bytes := 0x0d :: str "ic-state-root" ++ h.1

/-- `verify_signature` (signature_verification/mod.rs:13-33) without the cache; C42 shows that the cache does not
change the result. -/
def verifySignature (pk sig msg : Bytes) : Out CvError Unit :=
  match Bls.verify pk sig msg with
  | none => .crash
  | some true => .ok ()
  | some false => .err .signature

/-- `verify_certificate_signature` (certificate_verification.rs:162-176). -/
def verifyCertSignature (c : Certificate) (derKey : Bytes) : Out CvError Unit :=
  Out.ofExcept id (extractDer derKey) >>= fun pk => verifySignature pk c.signature (stateRootMsg c.tree.digest)

/-- `verify_delegation` (certificate_verification.rs:68-116). -/
def verifyDelegation (m : Machine) (d : Delegation) (canisterId rootKey : Bytes) : Out CvError Bytes :=
  Out.ofRun .cbor (certificateFromCbor m d.certificate) >>= fun cert =>
  if cert.delegation.isSome then .err .tooManyDelegations
  else
    verifyCertSignature cert rootKey >>= fun _ =>
    match cert.tree.lookupPath [str "subnet", d.subnetId, str "canister_ranges"] with
    | .found canisterRange =>
      match principalFromSlice canisterId with
      | none => .crash
      | some id =>
        Out.ofRun .cbor (rangesFromCbor m canisterRange) >>= fun ranges =>
        if withinRanges id ranges then
          match cert.tree.lookupPath [str "subnet", d.subnetId, str "public_key"] with
          | .found key => .ok key
          | _ => .err .publicKeyNotFound
        else .err .principalOutOfRange
    | _ => .err .rangesNotFound

/-- `Certificate::verify` (certificate_verification.rs:50-66). -/
def certVerify (m : Machine) (checks : Bool) (c : Certificate) (canisterId rootKey : Bytes) (now off : Nat) :
    Out CvError Unit :=
  verifyTime checks c.tree now off >>= fun _ =>
  (match c.delegation with
    | some d => verifyDelegation m d canisterId rootKey
    | none => .ok rootKey) >>= fun derKey =>
  verifyCertSignature c derKey

end

/-! ## The signature cache -/

/-- `SizedCache` (external crate `cached`): its keys, most recently used first. -/
abbrev SigCache := List Hash

/-- `SignatureCacheEntry::new` (signature_cache.rs:32-40). -/
def cacheKey [SHA] (pk sig msg : Bytes) : Hash := sha (pk ++ sig ++ msg)

/-- `cache_get`: a hit moves the entry to the front. -/
def cacheGet (c : SigCache) (k : Hash) : Bool × SigCache :=
  if k ∈ c then (true, k :: c.erase k) else (false, c)

/-- `cache_set`: at capacity the least recently used entry goes first; an entry already present is kept in place. -/
def cacheSet (cap : Nat) (c : SigCache) (k : Hash) : SigCache :=
  let c := if cap ≤ c.length then c.dropLast else c
  if k ∈ c then c else k :: c

/-- A signature check requested by a thread: public key, signature, message. -/
structure SigReq where
  pk : Bytes
  sig : Bytes
  msg : Bytes
deriving DecidableEq, Repr

/-- The cache and the requests that missed it, passed the BLS check and have not stored their entry yet. The lock
is held during `contains` and during `insert`, not in between (signature_cache.rs:93-107), so other threads may
run there. -/
structure SigState where
  cache : SigCache
  pending : List SigReq

section
variable [SHA] [Bls]

/-- One atomic step of some thread in `verify_signature` (signature_verification/mod.rs:13-33), with the result
returned to the caller if the call ends with the step. -/
inductive SigStep (cap : Nat) : SigState → Option (SigReq × Bool) → SigState → Prop
  /-- `contains` finds the entry: `Ok`. -/
  | hit {s : SigState} {r : SigReq} {c : SigCache} :
      cacheGet s.cache (cacheKey r.pk r.sig r.msg) = (true, c) → SigStep cap s (some (r, true)) { s with cache := c }
  /-- `contains` does not find it, the BLS check fails: `Err`. -/
  | reject {s : SigState} {r : SigReq} {c : SigCache} :
      cacheGet s.cache (cacheKey r.pk r.sig r.msg) = (false, c) → Bls.verify r.pk r.sig r.msg = some false →
      SigStep cap s (some (r, false)) { s with cache := c }
  /-- `contains` does not find it, the BLS check succeeds. -/
  | check {s : SigState} {r : SigReq} {c : SigCache} :
      cacheGet s.cache (cacheKey r.pk r.sig r.msg) = (false, c) → Bls.verify r.pk r.sig r.msg = some true →
      SigStep cap s none { cache := c, pending := r :: s.pending }
  /-- `insert` and `Ok`. -/
  | store {s : SigState} {r : SigReq} : r ∈ s.pending →
      SigStep cap s (some (r, true)) { cache := cacheSet cap s.cache (cacheKey r.pk r.sig r.msg), pending := s.pending.erase r }

/-- Executions: any interleaving of any number of threads; the list holds the results returned so far, newest
first. -/
inductive SigRun (cap : Nat) : List (SigReq × Bool) → SigState → Prop
  | start : SigRun cap [] { cache := [], pending := [] }
  | step {l s o s'} : SigRun cap l s → SigStep cap s o s' → SigRun cap (o.toList ++ l) s'

end
end Verif
