import Verif.Model.Builders
import Verif.Model.Wasm

/-!
# Model of the Candid form of requests and responses

`ic-http-certification/src/http/{http_request,http_response}.rs`: the derived `CandidType`/`Deserialize` of the four
message types and the hand-written ones of `MethodWrapper` and `StatusCodeWrapper`.

Modelled at the level of Candid *values*: what `candid::Encode!` writes after the type table and what `candid::Decode!`
(candid 0.10.10) makes of a value that another party encoded at a type of its own choice. The binary form (type table,
LEB128 lengths) is the library's and not modelled. Simplification: an empty vector keeps the shape (bytes or other) it was
encoded with.
-/

namespace Verif

/-- A Candid value as it arrives, with record fields under their numeric ids. `blob` is `vec nat8`; `other` stands for
every value of a type that no modelled field has. -/
inductive CVal where
  | null
  | reserved
  | bool (b : Bool)
  | nat16 (n : UInt16)
  | text (b : Bytes)
  | blob (b : Bytes)
  | vec (xs : List CVal)
  | opt (x : Option CVal)
  | record (fields : List (UInt32 × CVal))
  | other (n : Nat)

/-- `candid::types::leb128/idl_hash`: the id of a field name, `h = h * 223 + byte` modulo 2^32. -/
def idlHash (name : Bytes) : UInt32 := name.foldl (fun h b => h * 223 + b.toUInt32) 0

/-- ids of the fields of `HttpRequest`, `HttpUpdateRequest`, `HttpResponse`, `HttpUpdateResponse`
(http_request.rs:89-105, 640-652, http_response.rs:66-79, 494-503) -/
def fMethod : UInt32 := idlHash (str "method")
def fUrl : UInt32 := idlHash (str "url")
def fHeaders : UInt32 := idlHash (str "headers")
def fBody : UInt32 := idlHash (str "body")
def fCertificateVersion : UInt32 := idlHash (str "certificate_version")
def fStatusCode : UInt32 := idlHash (str "status_code")
def fUpgrade : UInt32 := idlHash (str "upgrade")

/-- Reading the field with this id of a record value (derive(Deserialize) on a struct through candid's `Compound` map
access: wire fields are matched to struct fields by id; unknown ones are skipped). -/
def fieldOf (fs : List (UInt32 × CVal)) (id : UInt32) : Option CVal := (fs.find? (fun p => p.1 == id)).map Prod.snd

/-- `String::deserialize` -/
def decodeText : CVal → Option Bytes
  | .text b => some b
  | _ => none

/-- `Cow<[u8]>::deserialize` -/
def decodeBytes : CVal → Option Bytes
  | .blob b => some b
  | _ => none

/-- `u16::deserialize` -/
def decodeNat16 : CVal → Option UInt16
  | .nat16 n => some n
  | _ => none

/-- `bool::deserialize` -/
def decodeBool : CVal → Option Bool
  | .bool b => some b
  | _ => none

/-- `HeaderField = (String, String)`: a record with fields 0 and 1. -/
def decodeHeader : CVal → Option Header
  | .record fs => do
    let n ← (fieldOf fs 0).bind decodeText
    let v ← (fieldOf fs 1).bind decodeText
    return (n, v)
  | _ => none

/-- `Vec<HeaderField>::deserialize` -/
def decodeHeaders : CVal → Option (List Header)
  | .vec xs => xs.mapM decodeHeader
  | _ => none

/-- `Option<T>::deserialize` through candid (`deserialize_option`): `null`, `reserved` and an absent option give `None`; a
present one is read with `dec`, and so is a value that is no option; one that cannot be read at the expected type gives
`None`, not an error. -/
def decodeOpt {α : Type} (dec : CVal → Option α) : CVal → Option α
  | .null => none
  | .reserved => none
  | .opt none => none
  | .opt (some v) => dec v
  | v => dec v

/-- an optional struct field: `None` if the record has no such field -/
def optField {α : Type} (dec : CVal → Option α) (fs : List (UInt32 × CVal)) (id : UInt32) : Option α :=
  (fieldOf fs id).bind (decodeOpt dec)

/-- `MethodWrapper::deserialize` (http_request.rs:27-38); `Method::from_str` is `methodFromStr` (Model/Wasm): the nine standard
names are recognised, other tokens become extension methods; the text is the same. -/
def decodeMethod (v : CVal) : Option Bytes := (decodeText v).bind methodFromStr

/-- `StatusCodeWrapper::deserialize` (http_response.rs:26-37). -/
def decodeStatus (v : CVal) : Option UInt16 := (decodeNat16 v).bind statusFromWire

/-- `MethodWrapper::idl_serialize` (http_request.rs:19-24). -/
def encodeMethod (m : Bytes) : CVal := .text m
/-- `StatusCodeWrapper::idl_serialize` (http_response.rs:18-23). -/
def encodeStatus (n : UInt16) : CVal := .nat16 n
/-- `Vec<(String, String)>` -/
def encodeHeaders (hs : List Header) : CVal := .vec (hs.map fun h => .record [(0, .text h.1), (1, .text h.2)])

/-- Derived `CandidType for HttpRequest` (http_request.rs:88-105): every field is written, in the order of the ids (the
order plays no role in this model). -/
def encodeRequest (r : FullRequest) : CVal :=
  .record [(fUrl, .text r.url), (fMethod, encodeMethod r.method), (fBody, .blob r.body),
    (fHeaders, encodeHeaders r.headers), (fCertificateVersion, .opt (r.certificateVersion.map .nat16))]

/-- Derived `CandidType for HttpUpdateRequest` (http_request.rs:639-652). -/
def encodeUpdateRequest (r : UpdateRequest) : CVal :=
  .record [(fUrl, .text r.url), (fMethod, encodeMethod r.method), (fBody, .blob r.body), (fHeaders, encodeHeaders r.headers)]

/-- Derived `CandidType for HttpResponse` (http_response.rs:65-79). -/
def encodeResponse (r : FullResponse) : CVal :=
  .record [(fBody, .blob r.body), (fHeaders, encodeHeaders r.headers), (fUpgrade, .opt (r.upgrade.map .bool)),
    (fStatusCode, encodeStatus r.status)]

/-- Derived `CandidType for HttpUpdateResponse` (http_response.rs:493-503). -/
def encodeUpdateResponse (r : UpdateResponse) : CVal :=
  .record [(fBody, .blob r.body), (fHeaders, encodeHeaders r.headers), (fStatusCode, encodeStatus r.status)]

/-- Derived `Deserialize for HttpRequest` (http_request.rs:88-105); `none` is a decoding error. -/
def decodeRequest : CVal → Option FullRequest
  | .record fs => do
    let m ← (fieldOf fs fMethod).bind decodeMethod
    let u ← (fieldOf fs fUrl).bind decodeText
    let h ← (fieldOf fs fHeaders).bind decodeHeaders
    let b ← (fieldOf fs fBody).bind decodeBytes
    return ⟨m, u, h, b, optField decodeNat16 fs fCertificateVersion⟩
  | _ => none

/-- Derived `Deserialize for HttpUpdateRequest` (http_request.rs:639-652). -/
def decodeUpdateRequest : CVal → Option UpdateRequest
  | .record fs => do
    let m ← (fieldOf fs fMethod).bind decodeMethod
    let u ← (fieldOf fs fUrl).bind decodeText
    let h ← (fieldOf fs fHeaders).bind decodeHeaders
    let b ← (fieldOf fs fBody).bind decodeBytes
    return ⟨m, u, h, b⟩
  | _ => none

/-- Derived `Deserialize for HttpResponse` (http_response.rs:65-79). -/
def decodeResponse : CVal → Option FullResponse
  | .record fs => do
    let s ← (fieldOf fs fStatusCode).bind decodeStatus
    let h ← (fieldOf fs fHeaders).bind decodeHeaders
    let b ← (fieldOf fs fBody).bind decodeBytes
    return ⟨s, h, b, optField decodeBool fs fUpgrade⟩
  | _ => none

/-- Derived `Deserialize for HttpUpdateResponse` (http_response.rs:493-503). -/
def decodeUpdateResponse : CVal → Option UpdateResponse
  | .record fs => do
    let s ← (fieldOf fs fStatusCode).bind decodeStatus
    let h ← (fieldOf fs fHeaders).bind decodeHeaders
    let b ← (fieldOf fs fBody).bind decodeBytes
    return ⟨s, h, b⟩
  | _ => none

end Verif
