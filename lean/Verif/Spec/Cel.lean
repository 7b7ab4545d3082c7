import Verif.Model.Cel

/-!
# What a CEL expression means, stated without the code of the mapping
-/

namespace Verif

/-- The header and query parameter names an expression mentions. -/
def CelExpr.names : CelExpr → List Bytes
  | .skip => []
  | .responseOnly (.certifiedHeaders hs) => hs
  | .responseOnly (.headerExclusions hs) => hs
  | .full req (.certifiedHeaders hs) => req.headers ++ req.queryParams ++ hs
  | .full req (.headerExclusions hs) => req.headers ++ req.queryParams ++ hs

/-- ASCII letters, digits and `-`. -/
def PlainNameByte (b : UInt8) : Prop :=
  b = 0x2D ∨ (0x30 ≤ b ∧ b ≤ 0x39) ∨ (0x41 ≤ b ∧ b ≤ 0x5A) ∨ (0x61 ≤ b ∧ b ≤ 0x7A)

instance (b : UInt8) : Decidable (PlainNameByte b) := by unfold PlainNameByte; infer_instance

/-- The names a CEL string can carry: sequences of characters that are `-` or whose code point modulo 256 is the
code of an ASCII letter or digit (the code truncates characters to a byte before it looks at them). -/
def CarriedName (n : Bytes) : Prop :=
  ∃ cs : List Char, n = utf8 cs ∧ ∀ c ∈ cs, c = '-' ∨
    (0x30 ≤ c.toNat % 256 ∧ c.toNat % 256 ≤ 0x39) ∨ (0x41 ≤ c.toNat % 256 ∧ c.toNat % 256 ≤ 0x5A) ∨
    (0x61 ≤ c.toNat % 256 ∧ c.toNat % 256 ≤ 0x7A)

/-- The object has a property `k`, and the one that counts (the last) is `v`. -/
def Property (fs : List (List Char × CelValue)) (k : String) (v : CelValue) : Prop :=
  ∃ pre post, fs = pre ++ (k.toList, v) :: post ∧ ∀ f ∈ post, f.1 ≠ k.toList

/-- The object has no property `k`. -/
def NoProp (fs : List (List Char × CelValue)) (k : String) : Prop := ∀ f ∈ fs, f.1 ≠ k.toList

/-- An array of string literals. -/
def IsNames (v : CelValue) (names : List Bytes) : Prop :=
  ∃ ss : List (List Char), v = .array (ss.map .string) ∧ names = ss.map utf8

/-- What the `Certification` object says about the request. -/
inductive MeansRequest (c : List (List Char × CelValue)) : Option ReqCert → Prop
  | none {v} : Property c "no_request_certification" v → NoProp c "request_certification" → MeansRequest c none
  | some {r hs qs hs' qs'} : NoProp c "no_request_certification" →
      Property c "request_certification" (.object "RequestCertification".toList r) →
      Property r "certified_request_headers" hs → IsNames hs hs' →
      Property r "certified_query_parameters" qs → IsNames qs qs' →
      MeansRequest c (some { headers := hs', queryParams := qs' })

/-- The `ResponseCertification` object lists these names under `k`. -/
def Lists (r : List (List Char × CelValue)) (k : String) (names : List Bytes) : Prop :=
  ∃ o hs, Property r k (.object "ResponseHeaderList".toList o) ∧ Property o "headers" hs ∧ IsNames hs names

/-- The `ResponseCertification` object lists nothing under `k`: there is no such property, or it is a
`ResponseHeaderList` without `headers`. -/
def ListsNothing (r : List (List Char × CelValue)) (k : String) : Prop :=
  NoProp r k ∨ ∃ o, Property r k (.object "ResponseHeaderList".toList o) ∧ NoProp o "headers"

/-- What the `Certification` object says about the response. -/
inductive MeansResponse (c : List (List Char × CelValue)) : RespCert → Prop
  | certified {r hs} : Property c "response_certification" (.object "ResponseCertification".toList r) →
      Lists r "certified_response_headers" hs → ListsNothing r "response_header_exclusions" →
      MeansResponse c (.certifiedHeaders hs)
  | excluded {r hs} : Property c "response_certification" (.object "ResponseCertification".toList r) →
      Lists r "response_header_exclusions" hs → ListsNothing r "certified_response_headers" →
      MeansResponse c (.headerExclusions hs)

/-- The documented certification expressions and their meaning:
`default_certification(ValidationArgs{no_certification: …})` or
`default_certification(ValidationArgs{certification: Certification{…}})`. -/
inductive Means : CelValue → CelExpr → Prop
  | skip {a more v} : Property a "no_certification" v → NoProp a "certification" →
      Means (.function "default_certification".toList (.object "ValidationArgs".toList a :: more)) .skip
  | responseOnly {a more c resp} : NoProp a "no_certification" →
      Property a "certification" (.object "Certification".toList c) → MeansRequest c none → MeansResponse c resp →
      Means (.function "default_certification".toList (.object "ValidationArgs".toList a :: more)) (.responseOnly resp)
  | full {a more c req resp} : NoProp a "no_certification" →
      Property a "certification" (.object "Certification".toList c) → MeansRequest c (some req) → MeansResponse c resp →
      Means (.function "default_certification".toList (.object "ValidationArgs".toList a :: more)) (.full req resp)

end Verif
