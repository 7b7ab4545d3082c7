import Verif.Model.Verify
import Verif.Model.Utf8

/-!
# Model of the JavaScript bindings of response verification

`ic-response-verification-wasm/src/{lib,request,response}.rs` and the conversions to JavaScript values in
`ic-response-verification/src/types/{verified_response,verification_result}.rs` and `src/error.rs`.
-/

namespace Verif

/-- A JavaScript number: a finite double is a rational number. -/
inductive JsNum where
  | nan | inf | negInf
  | fin (q : Rat)
deriving DecidableEq

/-- JavaScript values, as far as the `Request`, `Response` and `VerificationInfo` interfaces need them. A string is a
sequence of UTF-16 code units; an object is the list of its own enumerable properties with string keys, in the order of
`Object.entries`. -/
inductive JsVal where
  | undef
  | num (x : JsNum)
  | str (s : List UInt16)
  | arr (l : List JsVal)
  | bytes (b : Bytes)
  | obj (props : List (List UInt16 × JsVal))

/-- The JavaScript string with these characters (`JsString::from`, `JsValue::from(&str)`: wasm-bindgen decodes UTF-8). -/
def utf16Char (c : Char) : List UInt16 :=
  if c.toNat < 0x10000 then [c.toNat.toUInt16]
  else [(0xD800 + (c.toNat - 0x10000) / 0x400).toUInt16, (0xDC00 + (c.toNat - 0x10000) % 0x400).toUInt16]

def utf16 (cs : List Char) : List UInt16 := cs.flatMap utf16Char

/-- `as_string` (wasm-bindgen: `TextEncoder`): a pair of surrogates is one character, a lone surrogate becomes U+FFFD. -/
def utf16Decode : List UInt16 → List Char
  | [] => []
  | [u] => [if 0xD800 ≤ u ∧ u ≤ 0xDFFF then Char.ofNat 0xFFFD else Char.ofNat u.toNat]
  | u :: v :: rest =>
    if 0xD800 ≤ u ∧ u ≤ 0xDBFF then
      if 0xDC00 ≤ v ∧ v ≤ 0xDFFF then
        Char.ofNat (0x10000 + (u.toNat - 0xD800) * 0x400 + (v.toNat - 0xDC00)) :: utf16Decode rest
      else Char.ofNat 0xFFFD :: utf16Decode (v :: rest)
    else if 0xDC00 ≤ u ∧ u ≤ 0xDFFF then Char.ofNat 0xFFFD :: utf16Decode (v :: rest)
    else Char.ofNat u.toNat :: utf16Decode (v :: rest)

/-- A string constant as a JavaScript string. -/
def jsText (s : String) : List UInt16 := utf16 s.toList

/-- `.as_string().unwrap()`: `none` (panic) unless the value is a string. -/
def JsVal.asString : JsVal → Option Bytes
  | .str s => some (utf8 (utf16Decode s))
  | _ => none

/-- The number rounded towards zero. -/
def truncRat (q : Rat) : Int := if 0 ≤ q then q.floor else q.ceil

/-- `f64 as u16`: rounds towards zero and saturates; `NaN` gives 0. -/
def JsNum.asU16 : JsNum → UInt16
  | .nan => 0
  | .inf => 65535
  | .negInf => 0
  | .fin q => if truncRat q < 0 then 0 else if 65535 < truncRat q then 65535 else (truncRat q).toNat.toUInt16

/-- `ToUint8` (ECMAScript 7.1.11): rounds towards zero, modulo 256. -/
def JsNum.toUint8 : JsNum → UInt8
  | .fin q => (truncRat q % 256).toNat.toUInt8
  | _ => 0

/-- `Uint8Array::unchecked_from_js(v).to_vec()`: copies a `Uint8Array`, or an array of numbers converting each to a byte
(`TypedArray.prototype.set`). Other values, not allowed by the interface, are not modelled (`none`). -/
def JsVal.toVec : JsVal → Option Bytes
  | .bytes b => some b
  | .arr l => l.mapM fun
    | .num x => some x.toUint8
    | _ => none
  | _ => none

/-- One header: `header.get(0).as_string().unwrap()`, `header.get(1).as_string().unwrap()` (request.rs:51-54,
response.rs:42-45); a missing element is `undefined`. Elements that are not arrays, not allowed by the interface, are not
modelled (`none`). -/
def JsVal.asHeader : JsVal → Option Header
  | .arr l => do
    let name ← (l.getD 0 .undef).asString
    let val ← (l.getD 1 .undef).asString
    pure (name, val)
  | _ => none

/-- The headers (request.rs:47-56, response.rs:38-47). -/
def JsVal.asHeaders : JsVal → Option (List Header)
  | .arr l => l.mapM JsVal.asHeader
  | _ => none

/-- The bytes a method name may consist of (`http` 0.2.12, `METHOD_CHARS`). -/
def tokenByte (b : UInt8) : Bool :=
  (0x30 ≤ b && b ≤ 0x39) || (0x41 ≤ b && b ≤ 0x5A) || (0x61 ≤ b && b ≤ 0x7A) || (str "!#$%&'*+-.^_`|~").contains b

/-- `Method::from_str(..).unwrap()` (request.rs:65; `http` 0.2.12, `Method::from_bytes`): `none` (panic) for the empty
string and for strings with other bytes. -/
def methodFromStr (b : Bytes) : Option Bytes := if b ≠ [] ∧ b.all tokenByte then some b else none

/-- The four local variables of `request_from_js` (request.rs:24-27). -/
structure JsReqAcc where
  method : Bytes := []
  url : Bytes := []
  headers : List Header := []
  body : Bytes := []

/-- The body of the loop over the entries (request.rs:30-61). -/
def jsReqEntry (a : JsReqAcc) (e : List UInt16 × JsVal) : Option JsReqAcc := do
  let a ← if e.1 = jsText "method" then e.2.asString.map (fun x => { a with method := x }) else some a
  let a ← if e.1 = jsText "url" then e.2.asString.map (fun x => { a with url := x }) else some a
  let a ← if e.1 = jsText "headers" then e.2.asHeaders.map (fun x => { a with headers := x }) else some a
  if e.1 = jsText "body" then e.2.toVec.map (fun x => { a with body := x }) else some a

/-- `request_from_js` (request.rs:16-70). `none`: it panics (or the value is not of the interface). -/
def requestFromJs : JsVal → Option HttpRequest
  | .obj props => do
    let a ← props.foldlM jsReqEntry {}
    let m ← methodFromStr a.method
    pure ⟨m, a.url, a.headers, a.body⟩
  | _ => none

/-- The three local variables of `response_from_js` (response.rs:20-22). -/
structure JsResAcc where
  status : UInt16 := 0
  headers : List Header := []
  body : Bytes := []

/-- `Number::unchecked_from_js(..).as_f64().unwrap() as u16` (response.rs:30). -/
def JsVal.asStatus : JsVal → Option UInt16
  | .num x => some x.asU16
  | _ => none

/-- The body of the loop over the entries (response.rs:25-52). -/
def jsResEntry (a : JsResAcc) (e : List UInt16 × JsVal) : Option JsResAcc := do
  let a ← if e.1 = jsText "status_code" then e.2.asStatus.map (fun x => { a with status := x }) else some a
  let a ← if e.1 = jsText "headers" then e.2.asHeaders.map (fun x => { a with headers := x }) else some a
  if e.1 = jsText "body" then e.2.toVec.map (fun x => { a with body := x }) else some a

/-- `response_from_js` (response.rs:13-60); `StatusCode::try_from(u16)` accepts 100 to 999. -/
def responseFromJs : JsVal → Option HttpResponse
  | .obj props => do
    let a ← props.foldlM jsResEntry {}
    if 100 ≤ a.status ∧ a.status < 1000 then some ⟨a.status, a.headers, a.body⟩ else none
  | _ => none

/-- `JsValue::from(&str)`. -/
def jsString (b : Bytes) : JsVal := .str (utf16 ((chars b).getD []))

/-- `From<VerifiedResponse> for JsValue` (types/verified_response.rs:27-54). -/
def verifiedToJs (r : VerifiedResponse) : JsVal :=
  let body := (jsText "body", JsVal.bytes r.body)
  let headers := (jsText "headers", JsVal.arr (r.headers.map fun h => .arr [jsString h.1, jsString h.2]))
  match r.statusCode with
  | some s => .obj [(jsText "statusCode", .num (.fin s.toNat)), body, headers]
  | none => .obj [body, headers]

/-- `From<VerificationInfo> for JsValue` (types/verification_result.rs:27-45); `None` becomes `undefined`. -/
def infoToJs (i : VerificationInfo) : JsVal :=
  .obj [(jsText "response", match i.response with | some r => verifiedToJs r | none => .undef),
    (jsText "verificationVersion", .num (.fin i.version))]

/-- `ResponseVerificationJsErrorCode` (error.rs:181-257). -/
inductive JsErrorCode where
  | ioError | unsupportedVerificationVersion | requestedVerificationVersionMismatch | celError | base64DecodingError
  | parseIntError | invalidTree | invalidExpressionPath | unexpectedExpressionPathPrefix | unexpectedExpressionPathSuffix
  | exactExpressionPathNotFoundInTree | exactExpressionPathMismatch | exactExpressionPathMightExistInTree
  | wildcardExpressionPathNotFoundInTree | wildcardExpressionPathMismatch | moreSpecificWildcardExpressionMightExistInTree
  | invalidResponseBody | invalidResponseHashes | missingCertificate | missingTree | missingCertificateExpressionPath
  | missingCertificateExpression | missingCertification | cborDecodingFailed | certificateVerificationFailed
  | httpCertificationError
deriving DecidableEq

/-- `From<ResponseVerificationError> for ResponseVerificationJsError` (error.rs:274-351): the code. The message is not
modelled. -/
def jsErrorCode : RvError → JsErrorCode
  | .io => .ioError
  | .unsupportedVersion => .unsupportedVerificationVersion
  | .versionMismatch => .requestedVerificationVersionMismatch
  | .cel _ => .celError
  | .base64 => .base64DecodingError
  | .parseInt => .parseIntError
  | .invalidTree => .invalidTree
  | .invalidExpressionPath => .invalidExpressionPath
  | .unexpectedPrefix => .unexpectedExpressionPathPrefix
  | .unexpectedSuffix => .unexpectedExpressionPathSuffix
  | .exactNotFound => .exactExpressionPathNotFoundInTree
  | .exactMismatch => .exactExpressionPathMismatch
  | .exactMightExist => .exactExpressionPathMightExistInTree
  | .wildcardNotFound => .wildcardExpressionPathNotFoundInTree
  | .wildcardMismatch => .wildcardExpressionPathMismatch
  | .moreSpecificMightExist => .moreSpecificWildcardExpressionMightExistInTree
  | .invalidBody => .invalidResponseBody
  | .invalidHashes => .invalidResponseHashes
  | .missingCertificate => .missingCertificate
  | .missingTree => .missingTree
  | .missingExpressionPath => .missingCertificateExpressionPath
  | .missingCertification => .missingCertification
  | .cbor _ => .cborDecodingFailed
  | .certificate _ => .certificateVerificationFailed
  | .http _ => .httpCertificationError

/-- `verifyRequestResponsePair` (lib.rs:44-72). The times are `BigInt`s, of which WebAssembly takes the low 64 bits; the
version is a number, of which the low 8 bits are taken (integers in the model). `crash`: a JavaScript exception other than
a `ResponseVerificationError`. -/
def verifyJs [SHA] [UriLib] [Bls] [Inflate] (m : Machine) (checks : Bool) (req res : JsVal) (canisterId : Bytes)
    (now offset : Int) (rootKey : Bytes) (minVersion : Int) : Out JsErrorCode JsVal :=
  match requestFromJs req with
  | none => .crash
  | some q =>
    match responseFromJs res with
    | none => .crash
    | some r =>
      match verifyPair ⟨m, checks, canisterId, (now % 2 ^ 64).toNat, (offset % 2 ^ 64).toNat, rootKey⟩ q r
          (minVersion % 256).toNat with
      | .ok info => .ok (infoToJs info)
      | .err e => .err (jsErrorCode e)
      | .crash => .crash

end Verif
