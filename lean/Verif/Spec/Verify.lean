import Verif.Model.Verify
import Verif.Spec.Http
import Verif.Spec.HttpPath
import Verif.Spec.HashTree
import Verif.Spec.CertVerify
import Verif.Spec.CertTree

/-!
# Specification vocabulary for response verification
-/

namespace Verif
open HashTree PathShape

/-- `value` is the value of the last header called `name` (up to case). -/
def LastHeader (hs : List Header) (name value : Bytes) : Prop :=
  ∃ pre n post, hs = pre ++ (n, value) :: post ∧ SameName n name ∧ ∀ h ∈ post, ¬ SameName h.1 name

/-- No header is called `name`. -/
def NoHeader (hs : List Header) (name : Bytes) : Prop := ∀ h ∈ hs, ¬ SameName h.1 name

/-- The response's IC-Certificate header (the last one, if repeated) parses to `h`; see C34. -/
def CarriesHeader (m : Machine) (res : HttpResponse) (h : CertHeader) : Prop :=
  ∃ text, LastHeader res.headers (str "IC-Certificate") text ∧ headerFrom m ((chars text).getD []) = .ok h

/-- What a version 2 response claims: its certificate header, expression path and CEL expression. -/
structure Claims (m : Machine) (res : HttpResponse) (hdr : CertHeader) (exprPath : List Bytes) (expr : Bytes)
    (cel : CelExpr) : Prop where
  header : CarriesHeader m res hdr
  version : hdr.version = 2
  path : hdr.exprPath = some exprPath
  expression : LastHeader res.headers (str "IC-CertificateExpression") expr
  parsed : parseCelOn m.celStack expr = some (.ok cel)

section
variable [SHA]

/-- The state tree `S` of the Internet Computer, whose root hash the certificate carries, records the root hash of the
tree `T` as the certified data of the canister. -/
structure Certifies (c : Certificate) (canisterId : Bytes) (S T : HashTree) : Prop where
  stateWF : S.WellFormed
  root : S.digest = c.tree.digest
  data : S.HasLeaf [str "canister", canisterId, str "certified_data"] T.digest.1
  treeWF : T.WellFormed

/-- The certified tree `T` has an entry for this response (and request, if the certification covers it) at the
expression path. -/
def Vouches [UriLib] (T : HashTree) (exprPath : List Bytes) (expr : Bytes) (cel : CelExpr) (req : HttpRequest)
    (res : HttpResponse) : Prop :=
  match cel with
  | .skip => ∃ n, T.HasNode (exprPath ++ [(sha expr).1]) n
  | .responseOnly rc => T.HasLeaf (exprPath ++ [(sha expr).1, [], (responseHash res rc none).1]) []
  | .full qc rc => ∃ qh, requestHash req qc = .ok qh ∧
      T.HasLeaf (exprPath ++ [(sha expr).1, qh.1, (responseHash res rc none).1]) []

end

/-- The last segment of the path is not a terminator. -/
def PlainEndPath (p : Bytes) : Prop :=
  endsWithSlash p = true ∨ (pathSegments p).getLast? ≠ some (str "<$>") ∧ (pathSegments p).getLast? ≠ some (str "<*>")

/-- The expression path is the best one the tree `T` has for a request of the path `p`: the exact path of the
request; or a wildcard that matches the request, the tree having neither an exact path for the request nor a more
specific matching wildcard; or, for a request `/a` without final slash, the wildcard of the directory `/a/`, if there
is neither the exact path nor the wildcard of `/a`. -/
def BestPath (T : HashTree) (exprPath : List Bytes) (p : PathShape) : Prop :=
  exprPath = str "http_expr" :: p.labels ++ [str "<$>"] ∨
  ((¬ ∃ n, T.HasNode (str "http_expr" :: p.labels ++ [str "<$>"]) n) ∧
    ∃ w : PathShape, w.Proper ∧ exprPath = str "http_expr" :: w.labels ++ [str "<*>"] ∧
      ((Matches w p ∧
        ∀ v, Matches v p → MoreSpecific v w → ¬ ∃ n, T.HasNode (str "http_expr" :: v.labels ++ [str "<*>"]) n) ∨
       (w = ⟨p.segs, true⟩ ∧ p.slash = false ∧ ¬ ∃ n, T.HasNode (str "http_expr" :: p.labels ++ [str "<*>"]) n)))

end Verif
