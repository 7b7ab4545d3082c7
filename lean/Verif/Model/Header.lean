import Verif.Model.Out
import Verif.Model.Base64
import Verif.Model.Cbor
import Verif.Model.Cel

/-!
# Model of the `IC-Certificate` header

Reading: `ic-response-verification/src/verification/{certificate_header,certificate_header_field}.rs`. Writing:
`ic-http-certification/src/utils/response_header.rs`. Header texts are lists of characters.
-/

namespace Verif

/-- Rust's `char::is_whitespace` (Unicode `White_Space`). -/
def isWs (c : Char) : Bool :=
  (0x9 ≤ c.toNat && c.toNat ≤ 0xD) || c.toNat == 0x20 || c.toNat == 0x85 || c.toNat == 0xA0 || c.toNat == 0x1680 ||
  (0x2000 ≤ c.toNat && c.toNat ≤ 0x200A) || c.toNat == 0x2028 || c.toNat == 0x2029 || c.toNat == 0x202F ||
  c.toNat == 0x205F || c.toNat == 0x3000

/-- `str::trim`. -/
def trim (s : List Char) : List Char := ((s.dropWhile isWs).reverse.dropWhile isWs).reverse

/-- nom's `opt(char(v))`. -/
def optChar (v : Char) : List Char → List Char
  | c :: r => if c = v then r else c :: r
  | [] => []

/-- `extract_header_field` (certificate_header_field.rs:23-49): the name up to the first `=`; the value, which may be
wrapped in colons; nothing after; both nonempty. -/
def extractHeaderField (s : List Char) : Option (List Char × List Char) :=
  if '=' ∈ s then
    let name := s.takeWhile (· ≠ '=')
    let i := (s.dropWhile (· ≠ '=')).drop 1
    let i := optChar ':' i
    let value := i.takeWhile (· ≠ ':')
    let i := optChar ':' (i.dropWhile (· ≠ ':'))
    if i = [] then
      if name = [] ∨ value = [] then none else some (name, value)
    else none
  else none

/-- `CertificateHeaderField::from` (certificate_header_field.rs:16-20). -/
def headerField (s : List Char) : Option (List Char × List Char) := extractHeaderField (trim s)

/-- `str::parse::<u8>` (Rust core library). -/
def parseU8 (s : List Char) : Option Nat :=
  let d := optChar '+' s
  if d = [] then none
  else if d.all (fun c => '0'.toNat ≤ c.toNat && c.toNat ≤ '9'.toNat) then
    let n := d.foldl (fun acc c => acc * 10 + (c.toNat - '0'.toNat)) 0
    if n ≤ 255 then some n else none
  else none

/-- `CertificateVerificationError` (ic-certificate-verification/src/error.rs), without the data. -/
inductive CvError where
  | derKeyLength | derPrefix | timeFuture | timePast | principalOutOfRange | rangesNotFound | publicKeyNotFound
  | missingTime | timeDecoding | signature | cbor (e : CborError) | tooManyDelegations
deriving DecidableEq, Repr

/-- `ResponseVerificationError` (ic-response-verification/src/error.rs), without the data. -/
inductive RvError where
  | io | unsupportedVersion | versionMismatch | cel (e : CelError) | base64 | parseInt | invalidTree
  | invalidExpressionPath | unexpectedPrefix | unexpectedSuffix | exactNotFound | exactMismatch | exactMightExist
  | wildcardNotFound | wildcardMismatch | moreSpecificMightExist | invalidBody | invalidHashes | missingCertificate
  | missingTree | missingExpressionPath | missingCertification | cbor (e : CborError) | certificate (e : CvError)
  | http (e : HttpError)

/-- `CertificateHeader` (certificate_header.rs:11-26). -/
structure CertHeader where
  certificate : Certificate
  tree : HashTree
  version : Nat
  exprPath : Option (List Bytes)

/-- The four local variables of `CertificateHeader::from` (certificate_header.rs:31-34). -/
structure HeaderAcc where
  certificate : Option Certificate := none
  tree : Option HashTree := none
  version : Option Nat := none
  exprPath : Option (List Bytes) := none

/-- The first occurrence of a field is decoded, later ones are ignored (the `match` on each variable,
certificate_header.rs:40-97). -/
def setOnce {α : Type} (old : Option α) (dec : Out RvError α) : Out RvError (Option α) :=
  match old with
  | some x => .ok (some x)
  | none => dec >>= fun x => .ok (some x)

/-- `decode_base64_header` (certificate_header.rs:118-122). -/
def decodeBase64 (v : List Char) : Out RvError Bytes := .ofOption .base64 (b64Decode v)

/-- certificate_header.rs:42-45. -/
def decodeCertificate (m : Machine) (v : List Char) : Out RvError Certificate :=
  decodeBase64 v >>= fun b => .ofRun .cbor (certificateFromCbor m b)
/-- certificate_header.rs:57-60. -/
def decodeTree (m : Machine) (v : List Char) : Out RvError HashTree :=
  decodeBase64 v >>= fun b => .ofRun .cbor (treeFromCbor m b)
/-- `parse_int_header` (certificate_header.rs:124-128). -/
def decodeVersion (v : List Char) : Out RvError Nat := .ofOption .parseInt (parseU8 v)
/-- certificate_header.rs:86-89. -/
def decodeExprPath (m : Machine) (v : List Char) : Out RvError (List Bytes) :=
  decodeBase64 v >>= fun b => .ofRun .cbor (stringsFromCbor m b)

/-- The body of the loop of `CertificateHeader::from` (certificate_header.rs:36-103) on a parsed field. -/
def headerStep (m : Machine) (acc : HeaderAcc) (f : List Char × List Char) : Out RvError HeaderAcc :=
  if f.1 = "certificate".toList then
    setOnce acc.certificate (decodeCertificate m f.2) >>= fun x => .ok { acc with certificate := x }
  else if f.1 = "tree".toList then
    setOnce acc.tree (decodeTree m f.2) >>= fun x => .ok { acc with tree := x }
  else if f.1 = "version".toList then
    setOnce acc.version (decodeVersion f.2) >>= fun x => .ok { acc with version := x }
  else if f.1 = "expr_path".toList then
    setOnce acc.exprPath (decodeExprPath m f.2) >>= fun x => .ok { acc with exprPath := x }
  else .ok acc

/-- The loop (certificate_header.rs:36-103); fields that do not parse are skipped. -/
def headerLoop (m : Machine) : HeaderAcc → List (List Char × List Char) → Out RvError HeaderAcc
  | acc, [] => .ok acc
  | acc, f :: fs => headerStep m acc f >>= fun acc => headerLoop m acc fs

/-- `CertificateHeader::from` (certificate_header.rs:30-115). `MIN_VERIFICATION_VERSION` is 1. -/
def headerFrom (m : Machine) (s : List Char) : Out RvError CertHeader :=
  headerLoop m {} ((s.splitOn ',').filterMap headerField) >>= fun acc =>
  Out.ofOption .missingCertificate acc.certificate >>= fun certificate =>
  Out.ofOption .missingTree acc.tree >>= fun tree =>
  .ok { certificate, tree, version := acc.version.getD 1, exprPath := acc.exprPath }

/-! ## Writing -/

/-- `cbor_encode(witness)` and `cbor_encode(expr_path)` (response_header.rs:97-107) in base64, and the text of the
header written by `add_v2_certificate_header` (response_header.rs:75-94). -/
def v2HeaderText (dataCertificate : Bytes) (witness : HashTree) (exprPath : List Bytes) : List Char :=
  "certificate=:".toList ++ b64Encode true dataCertificate ++ ":, tree=:".toList ++
  b64Encode true (selfDescribe ++ encTree witness) ++ ":, expr_path=:".toList ++
  b64Encode true (selfDescribe ++ encStrings exprPath) ++ ":, version=2".toList

/-- `add_v2_certificate_header` (response_header.rs:75-94). `add_header` pushes at the end
(http/http_response.rs). -/
def addV2CertificateHeader (dataCertificate : Bytes) (r : HttpResponse) (witness : HashTree) (exprPath : List Bytes) :
    HttpResponse :=
  { r with headers := r.headers ++ [(certHeaderName, utf8 (v2HeaderText dataCertificate witness exprPath))] }

end Verif
