import Verif.Spec.Verify
import Verif.Spec.Cel

/-!
# Specification vocabulary for end-to-end statements: what the canister certified
-/

namespace Verif
open HashTree

section
variable [SHA] [UriLib]

/-- The certification was made by one of the three constructors, for the definition, request and response given; a
precomputed body hash, if given, is the hash of the body. -/
inductive MadeOf : HttpCert → CelExpr → HttpRequest → HttpResponse → Prop
  | skip {q r} : MadeOf .mkSkip .skip q r
  | responseOnly {c q r bh cert} : HttpCert.mkResponseOnly c r bh = .ok cert → (∀ h, bh = some h → h = sha r.body) →
      MadeOf cert (.responseOnly c) q r
  | full {d c q r bh cert} : HttpCert.mkFull d c q r bh = .ok cert → (∀ h, bh = some h → h = sha r.body) →
      MadeOf cert (.full d c) q r

/-- What a certification was made from. -/
structure Origin where
  cel : CelExpr
  request : HttpRequest
  response : HttpResponse

/-- The certification was made from this. -/
def Origin.Made (o : Origin) (cert : HttpCert) : Prop := MadeOf cert o.cel o.request o.response

/-- The certified parts of two requests agree: method, body, certified headers up to order, and the certified part of
the query. -/
def SameRequest (d : ReqCert) (a b : HttpRequest) : Prop :=
  a.method = b.method ∧ a.body = b.body ∧
  (certifiedReqHeaders d a.headers).Perm (certifiedReqHeaders d b.headers) ∧
  ∃ p q, a.getQuery = .ok p ∧ b.getQuery = .ok q ∧
    p.map (fun x => [0x26].intercalate (certifiedParams d x)) = q.map (fun x => [0x26].intercalate (certifiedParams d x))

end

/-- The certified parts of two responses agree: status, body, and certified headers up to order. -/
def SameResponse (c : RespCert) (a b : HttpResponse) : Prop :=
  a.status = b.status ∧ a.body = b.body ∧ (certifiedRespHeaders c a.headers).Perm (certifiedRespHeaders c b.headers)

/-- What a definition says about requests and responses: that they agree in all certified parts. -/
def SameCertified [UriLib] : CelExpr → HttpRequest → HttpRequest → HttpResponse → HttpResponse → Prop
  | .skip, _, _, _, _ => True
  | .responseOnly c, _, _, a, b => SameResponse c a b
  | .full d c, p, q, a, b => SameRequest d p q ∧ SameResponse c a b

/-- The definition does not list the names the library uses internally (they are not valid HTTP header names). -/
def CelExpr.NoPseudo : CelExpr → Prop
  | .full d _ => ∀ n ∈ d.headers, ¬ SameName n (str ":ic-cert-method") ∧ ¬ SameName n (str ":ic-cert-query")
  | _ => True

/-- The response has no header called `:ic-cert-status` (not a valid HTTP header name). -/
def HttpResponse.NoPseudo (r : HttpResponse) : Prop := ∀ x ∈ r.headers, ¬ SameName x.1 (str ":ic-cert-status")

/-- The certification path is the right one to answer a request of the path `path` with, among the paths of the
entries certified after the history: it is the exact path of the request, or a wildcard that matches the request, and
there is neither an exact path for the request nor a more specific matching wildcard. -/
def Responds (ops : List CtOp) (path : Bytes) : HttpPath → Prop
  | .exact p => PathShape.ofPath p = PathShape.ofPath path
  | .wildcard p => PathShape.Matches (PathShape.ofPath p) (PathShape.ofPath path) ∧
      ∀ g, CtOp.insert g ∈ ops → ctSpec ops g.toTreePath →
        match g.path with
        | .exact a => PathShape.ofPath a ≠ PathShape.ofPath path
        | .wildcard v => ¬ (PathShape.Matches (PathShape.ofPath v) (PathShape.ofPath path) ∧
            PathShape.MoreSpecific (PathShape.ofPath v) (PathShape.ofPath p))

/-- All strings hashed to certify a request and a response under a definition. -/
def certHashed [SHA] [UriLib] (x : CelExpr) (q : HttpRequest) (r : HttpResponse) : List Bytes :=
  match x with
  | .skip => []
  | .responseOnly c => responseHashed r c
  | .full d c => responseHashed r c ++
      match q.getQuery with
      | .ok p => requestHashed q d p
      | .error _ => []

end Verif
