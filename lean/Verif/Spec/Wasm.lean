import Verif.Model.Wasm

/-!
# Specification vocabulary for the JavaScript bindings

Which JavaScript values stand for a request, a response, a verification result.
-/

namespace Verif

/-- `v` is the JavaScript string with the text `b` (which is UTF-8, as every Rust string). -/
def IsText (v : JsVal) (b : Bytes) : Prop := ∃ cs, v = .str (utf16 cs) ∧ b = utf8 cs

/-- `v` is the array of the headers, each an array of name and value. -/
def IsHeaders (v : JsVal) (hs : List Header) : Prop :=
  ∃ l, v = .arr l ∧ List.Forall₂ (fun x h => ∃ a b, x = .arr [a, b] ∧ IsText a h.1 ∧ IsText b h.2) l hs

/-- `v` is the `Uint8Array` of the bytes, or their array as numbers. -/
def IsBody (v : JsVal) (b : Bytes) : Prop :=
  v = .bytes b ∨ v = .arr (b.map fun x => .num (.fin x.toNat))

/-- An object with these properties (and any others), in any order. -/
def HasProps (o : JsVal) (l : List (String × JsVal)) : Prop :=
  ∃ props, o = .obj props ∧ (props.map Prod.fst).Nodup ∧ ∀ x ∈ l, (utf16 x.1.toList, x.2) ∈ props

/-- `o` is a `Request` object for the request (request.rs:5-14). -/
def IsRequest (o : JsVal) (q : HttpRequest) : Prop :=
  ∃ m u h b, HasProps o [("method", m), ("url", u), ("headers", h), ("body", b)] ∧
    IsText m q.method ∧ IsText u q.url ∧ IsHeaders h q.headers ∧ IsBody b q.body

/-- `o` is a `Response` object (response.rs:4-11) with this status number, these headers and this body. -/
def IsResponse (o : JsVal) (status : JsNum) (hs : List Header) (body : Bytes) : Prop :=
  ∃ h b, HasProps o [("status_code", .num status), ("headers", h), ("body", b)] ∧ IsHeaders h hs ∧ IsBody b body

/-- `o` has exactly these properties. -/
def HasExactly (o : JsVal) (l : List (String × JsVal)) : Prop :=
  ∃ props, o = .obj props ∧ props.Perm (l.map fun x => (utf16 x.1.toList, x.2)) ∧ (props.map Prod.fst).Nodup

/-- `o` is the `VerifiedResponse` object (types/verified_response.rs:6-12): without `statusCode` if there is none. -/
def IsVerified (o : JsVal) (r : VerifiedResponse) : Prop :=
  ∃ h, IsHeaders h r.headers ∧
    HasExactly o ((match r.statusCode with | some s => [("statusCode", .num (.fin s.toNat))] | none => []) ++
      [("body", .bytes r.body), ("headers", h)])

/-- `o` is the `VerificationInfo` object (types/verification_result.rs:8-13). -/
def IsInfo (o : JsVal) (i : VerificationInfo) : Prop :=
  ∃ x, HasExactly o [("response", x), ("verificationVersion", .num (.fin i.version))] ∧
    match i.response with
    | some r => IsVerified x r
    | none => x = .undef

/-- A name a method may have: not empty, of the characters RFC 9110 allows in a token. -/
def IsMethod (b : Bytes) : Prop :=
  b ≠ [] ∧ ∀ x ∈ b, x ∈ str "!#$%&'*+-.^_`|~0123456789ABCDEFGHIJKLMNOPQRSTUVWXYZabcdefghijklmnopqrstuvwxyz"

end Verif
