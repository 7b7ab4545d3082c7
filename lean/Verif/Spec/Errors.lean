import Verif.Spec.Verify
import Verif.Spec.Header
import Verif.Spec.CelGrammar

/-!
# Specification of the errors: what each one says about the request, the response and the certificate

`CertFault … e` and `Fault … e` give, for each error, the fact it reports. `CertAborts` and `Aborts` list the only
circumstances in which a call does not return.
-/

namespace Verif
open HashTree PathShape

/-- `v` is what the tree's lookup finds at the path (C01-C03). -/
def Shows (t : HashTree) (p : List Bytes) (v : Bytes) : Prop := t.lookupPath p = .found v

/-- The delegation carries this certificate. -/
def Inner (m : Machine) (c inner : Certificate) (subnet : Bytes) : Prop :=
  ∃ d, c.delegation = some d ∧ d.subnetId = subnet ∧ certificateFromCbor m d.certificate = some (.ok inner)

section
variable [SHA] [Bls]

/-- To accept the certificate `c`, the certificate `x` has to be signed with the DER-encoded key `der`: the
certificate inside the delegation with the root key, `c` with the key it delegates to, or, without delegation, `c` with
the root key. -/
inductive Checked (m : Machine) (canisterId rootKey : Bytes) (c : Certificate) : Certificate → Bytes → Prop
  | inner {x subnet} : Inner m c x subnet → Checked m canisterId rootKey c x rootKey
  | delegated {d der} : c.delegation = some d → Delegates m d canisterId rootKey der → Checked m canisterId rootKey c c der
  | direct : c.delegation = none → Checked m canisterId rootKey c c rootKey

/-- What the error `e` of `Certificate::verify` says. -/
def CertFault (m : Machine) (checks : Bool) (c : Certificate) (canisterId rootKey : Bytes) (now off : Nat) (e : CvError) :
    Prop :=
  match e with
  | .missingTime => ∀ v, ¬ Shows c.tree [str "time"] v
  | .timeDecoding => ∃ v, Shows c.tree [str "time"] v ∧ lebRead v = none
  | .timeFuture => ∃ v t, Shows c.tree [str "time"] v ∧ lebRead v = some t ∧
      (now + off < t ∨ (checks = false ∧ 2 ^ 128 ≤ now + off))
  | .timePast => ∃ v t, Shows c.tree [str "time"] v ∧ lebRead v = some t ∧
      (t + off < now ∨ (checks = false ∧ now < off))
  | .derKeyLength => ∃ x der, Checked m canisterId rootKey c x der ∧ der.length ≠ 133
  | .derPrefix => ∃ x der, Checked m canisterId rootKey c x der ∧ der.length = 133 ∧ ¬ derPrefix <+: der
  | .signature => ∃ x der pk, Checked m canisterId rootKey c x der ∧ IsDerKey der pk ∧
      Bls.verify pk x.signature (0x0d :: str "ic-state-root" ++ x.tree.digest.1) = some false
  | .tooManyDelegations => ∃ inner subnet, Inner m c inner subnet ∧ inner.delegation.isSome
  | .cbor e =>
      (∃ d, c.delegation = some d ∧ certificateFromCbor m d.certificate = some (.error e)) ∨
      ∃ inner subnet v, Inner m c inner subnet ∧ Shows inner.tree [str "subnet", subnet, str "canister_ranges"] v ∧
        rangesFromCbor m v = some (.error e)
  | .rangesNotFound => ∃ inner subnet, Inner m c inner subnet ∧ SignedBy inner rootKey ∧
      ∀ v, ¬ Shows inner.tree [str "subnet", subnet, str "canister_ranges"] v
  | .principalOutOfRange => ∃ inner subnet v ranges, Inner m c inner subnet ∧ SignedBy inner rootKey ∧
      Shows inner.tree [str "subnet", subnet, str "canister_ranges"] v ∧ rangesFromCbor m v = some (.ok ranges) ∧
      ∀ lo hi, (lo, hi) ∈ ranges → ¬ (PrincipalLe lo canisterId ∧ PrincipalLe canisterId hi)
  | .publicKeyNotFound => ∃ inner subnet, Inner m c inner subnet ∧ SignedBy inner rootKey ∧
      ∀ v, ¬ Shows inner.tree [str "subnet", subnet, str "public_key"] v

/-- Why `Certificate::verify` may not return: the arithmetic on the clock overflows and overflow checks are on, the
decoder of a part of the delegation does not return (C38), the canister ID has more than 29 bytes, or the BLS library
panics. -/
inductive CertAborts (m : Machine) (checks : Bool) (c : Certificate) (canisterId rootKey : Bytes) (now off : Nat) : Prop
  | clock : checks = true → (2 ^ 128 ≤ now + off ∨ now < off) → CertAborts m checks c canisterId rootKey now off
  | certificate {d} : c.delegation = some d → certificateFromCbor m d.certificate = none →
      CertAborts m checks c canisterId rootKey now off
  | ranges {inner subnet v} : Inner m c inner subnet →
      Shows inner.tree [str "subnet", subnet, str "canister_ranges"] v → rangesFromCbor m v = none →
      CertAborts m checks c canisterId rootKey now off
  | principal : c.delegation.isSome → 29 < canisterId.length → CertAborts m checks c canisterId rootKey now off
  | bls {x der pk} : Checked m canisterId rootKey c x der → IsDerKey der pk →
      Bls.verify pk x.signature (0x0d :: str "ic-state-root" ++ x.tree.digest.1) = none →
      CertAborts m checks c canisterId rootKey now off

end

/-- The first field of that name in the response's IC-Certificate header has this value. -/
def HeaderField (res : HttpResponse) (name : String) (value : List Char) : Prop :=
  ∃ text, LastHeader res.headers (str "IC-Certificate") text ∧ FirstField ((chars text).getD []) name.toList value

/-- The response's IC-Certificate header has no field of that name. -/
def HeaderLacks (res : HttpResponse) (name : String) : Prop :=
  ∃ text, LastHeader res.headers (str "IC-Certificate") text ∧ NoField ((chars text).getD []) name.toList

/-- The tree of the header proves that there is nothing at the path. -/
def ShowsAbsent (t : HashTree) (p : List Bytes) : Prop := t.lookupSubtree p = .absent

/-- The tree of the header shows what is at the path. -/
def ShowsNode (t : HashTree) (p : List Bytes) : Prop := ∃ n, t.lookupSubtree p = .found n

section
variable [SHA] [UriLib] [Bls] [Inflate]

/-- The label that stands for the request in the tree: its hash, or empty if the certification does not cover it. -/
def RequestLabel (req : HttpRequest) (cel : CelExpr) (l : Bytes) : Prop :=
  match cel with
  | .full qc _ => ∃ h, requestHash req qc = .ok h ∧ l = h.1
  | _ => l = []

/-- The response certification of a CEL expression. -/
def RespPart (cel : CelExpr) (rc : RespCert) : Prop :=
  match cel with
  | .skip => False
  | .responseOnly r => rc = r
  | .full _ r => rc = r

/-- The hash the version 1 tree has for the path, or, if it shows none, for `/index.html`. -/
def V1Shows (t : HashTree) (path v : Bytes) : Prop :=
  Shows t [str "http_assets", path] v ∨
  ((∀ w, ¬ Shows t [str "http_assets", path] w) ∧ Shows t [str "http_assets", str "/index.html"] v)

/-- What the error `e` of `verify_request_response_pair` says. -/
def Fault (env : Env) (req : HttpRequest) (res : HttpResponse) (minV : Nat) (e : RvError) : Prop :=
  match e with
  | .missingCertification =>
      NoHeader res.headers (str "IC-Certificate") ∨
      ∃ hdr, CarriesHeader env.machine res hdr ∧ hdr.version = 2 ∧ NoHeader res.headers (str "IC-CertificateExpression")
  | .base64 => ∃ name v, (name = "certificate" ∨ name = "tree" ∨ name = "expr_path") ∧ HeaderField res name v ∧
      b64Decode v = none
  | .parseInt => ∃ v, HeaderField res "version" v ∧ parseU8 v = none
  | .cbor e => ∃ v b, b64Decode v = some b ∧
      ((HeaderField res "certificate" v ∧ certificateFromCbor env.machine b = some (.error e)) ∨
       (HeaderField res "tree" v ∧ treeFromCbor env.machine b = some (.error e)) ∨
       (HeaderField res "expr_path" v ∧ stringsFromCbor env.machine b = some (.error e)))
  | .missingCertificate => HeaderLacks res "certificate"
  | .missingTree => HeaderLacks res "tree"
  | .versionMismatch => ∃ hdr, CarriesHeader env.machine res hdr ∧ hdr.version < minV
  | .unsupportedVersion => ∃ hdr, CarriesHeader env.machine res hdr ∧ minV ≤ hdr.version ∧ hdr.version ≠ 1 ∧
      hdr.version ≠ 2
  | .missingExpressionPath => ∃ hdr, CarriesHeader env.machine res hdr ∧ hdr.version = 2 ∧ HeaderLacks res "expr_path"
  | .cel e => ∃ hdr expr, CarriesHeader env.machine res hdr ∧ hdr.version = 2 ∧
      LastHeader res.headers (str "IC-CertificateExpression") expr ∧ parseCel expr = .error e
  | .http e => req.getPath = .error e
  | .certificate e => ∃ hdr, CarriesHeader env.machine res hdr ∧
      CertFault env.machine env.checks hdr.certificate env.canisterId env.rootKey env.now env.offset e
  | .invalidTree => ∃ hdr, CarriesHeader env.machine res hdr ∧
      ¬ Shows hdr.certificate.tree [str "canister", env.canisterId, str "certified_data"] hdr.tree.digest.1
  | .io => ∃ hdr, CarriesHeader env.machine res hdr ∧ hdr.version = 1 ∧
      ((LastHeader res.headers (str "content-encoding") (str "gzip") ∧ Inflate.gunzip res.body = none) ∨
       (LastHeader res.headers (str "content-encoding") (str "deflate") ∧ Inflate.inflate res.body = none))
  | .invalidBody => ∃ hdr path, CarriesHeader env.machine res hdr ∧ hdr.version = 1 ∧ req.getPath = .ok path ∧
      ∃ decoded, decodeBody res.body (headerGet res.headers (str "content-encoding")) = .ok decoded ∧
        ¬ V1Shows hdr.tree path (sha decoded).1 ∧
        ((∃ v, LastHeader res.headers (str "content-encoding") v) → ¬ V1Shows hdr.tree path (sha res.body).1)
  | .unexpectedPrefix => ∃ hdr p expr cel, Claims env.machine res hdr p expr cel ∧ ¬ [str "http_expr"] <+: p
  | .unexpectedSuffix => ∃ hdr p expr cel, Claims env.machine res hdr p expr cel ∧
      ¬ [str "<$>"] <:+ p ∧ ¬ [str "<*>"] <:+ p
  | .exactNotFound => ∃ hdr p expr cel path, Claims env.machine res hdr p expr cel ∧ req.getPath = .ok path ∧
      p = str "http_expr" :: (ofPath path).labels ++ [str "<$>"] ∧ ¬ ShowsNode hdr.tree p
  | .exactMismatch => ∃ hdr p expr cel path, Claims env.machine res hdr p expr cel ∧ req.getPath = .ok path ∧
      [str "<$>"] <:+ p ∧ p ≠ str "http_expr" :: (ofPath path).labels ++ [str "<$>"]
  | .exactMightExist => ∃ hdr p expr cel path, Claims env.machine res hdr p expr cel ∧ req.getPath = .ok path ∧
      [str "<*>"] <:+ p ∧ ¬ ShowsAbsent hdr.tree (str "http_expr" :: (ofPath path).labels ++ [str "<$>"])
  | .wildcardMismatch => ∃ hdr p expr cel path, Claims env.machine res hdr p expr cel ∧ req.getPath = .ok path ∧
      [str "<*>"] <:+ p ∧
      ∀ w : PathShape, w.Proper → p = str "http_expr" :: w.labels ++ [str "<*>"] → ¬ w.segs <+: (ofPath path).segs
  | .moreSpecificMightExist => ∃ hdr p expr cel path, Claims env.machine res hdr p expr cel ∧ req.getPath = .ok path ∧
      [str "<*>"] <:+ p ∧
      (PlainEndPath path → ∀ w : PathShape, w.Proper → p = str "http_expr" :: w.labels ++ [str "<*>"] →
        ∃ v, Matches v (ofPath path) ∧ (MoreSpecific v w ∨ (w = ⟨(ofPath path).segs, true⟩ ∧ v = ofPath path)) ∧
          ¬ ShowsAbsent hdr.tree (str "http_expr" :: v.labels ++ [str "<*>"]))
  | .wildcardNotFound => ∃ hdr p expr cel path, Claims env.machine res hdr p expr cel ∧ req.getPath = .ok path ∧
      [str "<*>"] <:+ p ∧ ¬ ShowsNode hdr.tree p
  | .invalidExpressionPath => ∃ hdr p expr cel, Claims env.machine res hdr p expr cel ∧ cel = .skip ∧
      ¬ ShowsNode hdr.tree (p ++ [(sha expr).1])
  | .invalidHashes => ∃ hdr p expr cel rc l, Claims env.machine res hdr p expr cel ∧ RespPart cel rc ∧
      RequestLabel req cel l ∧
      hdr.tree.lookupSubtree (p ++ [(sha expr).1, l, (responseHash res rc none).1]) ≠ .found (.leaf [])

/-- Why `verify_request_response_pair` may not return. -/
inductive Aborts (env : Env) (res : HttpResponse) : Prop
  | header {v b} : b64Decode v = some b →
      ((HeaderField res "certificate" v ∧ certificateFromCbor env.machine b = none) ∨
       (HeaderField res "tree" v ∧ treeFromCbor env.machine b = none) ∨
       (HeaderField res "expr_path" v ∧ stringsFromCbor env.machine b = none)) → Aborts env res
  | certificate {hdr} : CarriesHeader env.machine res hdr →
      CertAborts env.machine env.checks hdr.certificate env.canisterId env.rootKey env.now env.offset → Aborts env res
  | expression {hdr text} : CarriesHeader env.machine res hdr → hdr.version = 2 →
      LastHeader res.headers (str "IC-CertificateExpression") (utf8 text) →
      CelGrammar.Deep env.machine.celStack text → Aborts env res

end
end Verif
