import Verif.Props.Errors
import Verif.Props.EndToEndExamples

set_option linter.unusedSimpArgs false

/-!
# C71 and C72: the hypotheses are met
-/

namespace Verif.Props
open Verif HashTree PathShape

section
attribute [local instance] toySHA toyUri toyBls toyInflate

deriving instance DecidableEq for RvError

/-- The error returned, if any. -/
def exErrorOf (env : Env) (url : Bytes) (res : HttpResponse) (minV : Nat) : Option RvError :=
  match verifyPair env ⟨str "GET", url, [], []⟩ res minV with
  | .err e => some e
  | _ => none

theorem exV1_pair (env : Env) (hm : env.machine = exMachine) (req : HttpRequest) (body : Bytes) :
    verifyPair env req (exV1Response body) 1 =
      v1Verification env req (exV1Response body) exAssetTree (exStateCert exAssetTree.digest.1) none := by
  obtain ⟨text, h1, h2⟩ := exV1_header body
  have h3 : headerGet (exV1Response body).headers certHeaderName = some text := headerGet_some.2 h1
  have h4 : headerGet (exV1Response body).headers (str "content-encoding") = none :=
    headerGet_none.2 (by intro h hh; simp [exV1Response] at hh; subst hh; decide)
  unfold verifyPair
  simp only [h3, hm, h2, Out.ok_bind, h4]
  rfl

/-- The error returned, or `true` if the call does not return. -/
def exV1Error (env : Env) (body : Bytes) : Option RvError × Bool :=
  match v1Verification env ⟨str "GET", str "/a.js", [], []⟩ (exV1Response body) exAssetTree
    (exStateCert exAssetTree.digest.1) none with
  | .ok _ => (none, false)
  | .err e => (some e, false)
  | .crash => (none, true)

/-- Errors of version 1 responses (`exV1_pair`): wrong body, certificate too old, too new, other canister, other root
key. With the clock smaller than the offset and overflow checks, the call does not return. -/
example : exV1Error exEnv (str "ho") = (some .invalidBody, false) ∧
    exV1Error exEnv (str "hi") = (none, false) ∧
    exV1Error { exEnv with now := 111 } (str "hi") = (some (.certificate .timePast), false) ∧
    exV1Error { exEnv with now := 89 } (str "hi") = (some (.certificate .timeFuture), false) ∧
    exV1Error { exEnv with canisterId := [6] } (str "hi") = (some .invalidTree, false) ∧
    exV1Error { exEnv with rootKey := [6] } (str "hi") = (some (.certificate .derKeyLength), false) ∧
    exV1Error { exEnv with rootKey := exSubnetKey } (str "hi") = (some (.certificate .signature), false) ∧
    exV1Error { exEnv with now := 5 } (str "hi") = (none, true) := by decide +kernel

/-- Missing and malformed headers. -/
example : exErrorOf exEnv (str "/a.js") { exV1Response (str "hi") with headers := [] } 1 = some .missingCertification ∧
    exErrorOf exEnv (str "/a.js") { exV1Response (str "hi") with headers := [(str "ic-certificate", str "tree=!")] } 1 =
      some .base64 ∧
    exErrorOf exEnv (str "/a.js") { exV1Response (str "hi") with headers := [(str "ic-certificate", str "version=256")] } 1 =
      some .parseInt ∧
    exErrorOf exEnv (str "/a.js") { exV1Response (str "hi") with headers := [(str "ic-certificate", str "version=2")] } 1 =
      some .missingCertificate := by decide +kernel

def exNoCert : Bytes := str "default_certification(ValidationArgs{no_certification:Empty{}})"

/-- A version 2 tree with the wildcards of `/a` and `/a/b`. -/
def exWildTree : HashTree :=
  .labeled (str "http_expr") (.labeled (str "a") (.fork
    (.labeled (str "<*>") (.labeled (sha exNoCert).1 (.leaf [])))
    (.labeled (str "b") (.labeled (str "<*>") (.labeled (sha exNoCert).1 (.leaf []))))))

def exWildResponse (t : HashTree) (p : List Bytes) (expr : Bytes) : HttpResponse :=
  { status := 200, body := [],
    headers := [(str "IC-Certificate", utf8 (v2HeaderText (encCertificate (exStateCert t.digest.1)) t p)),
      (str "IC-CertificateExpression", expr)] }

def exPathError (t : HashTree) (p : List Bytes) (path : Bytes) : Option RvError :=
  match validateExprPath p path t with
  | .err e => some e
  | _ => none

/-- Errors of version 2 responses about the expression path. -/
example :
    exPathError exWildTree [str "a", str "<*>"] (str "/a") = some .unexpectedPrefix ∧
    exPathError exWildTree [str "http_expr", str "a"] (str "/a") = some .unexpectedSuffix ∧
    exPathError exWildTree [str "http_expr", str "a", str "<$>"] (str "/a") = some .exactNotFound ∧
    exPathError exWildTree [str "http_expr", str "a", str "<$>"] (str "/b") = some .exactMismatch ∧
    exPathError exWildTree [str "http_expr", str "a", str "b", str "<*>"] (str "/a/c") = some .wildcardMismatch ∧
    exPathError exWildTree [str "http_expr", str "a", str "<*>"] (str "/a/b/c") = some .moreSpecificMightExist ∧
    exPathError exWildTree [str "http_expr", str "a", str "b", str "c", str "<*>"] (str "/a/b/c") = some .wildcardNotFound ∧
    exPathError exWildTree [str "http_expr", str "a", str "<*>"] (str "/a/c") = none ∧
    exPathError (.labeled (str "http_expr") (.pruned ⟨List.replicate 32 0, rfl⟩)) [str "http_expr", str "a", str "<*>"]
      (str "/a/c") = some .exactMightExist := by decide +kernel

/-- A whole response with such an error. -/
example : exErrorOf exEnv (str "/a/b/c") (exWildResponse exWildTree [str "http_expr", str "a", str "<*>"] exNoCert) 2 =
    some .moreSpecificMightExist := by decide +kernel

/-- A response with so many brackets for an expression, and no certificate worth the name, brings the verifier down (`C72_expression`). -/
example : (match verifyPair { exEnv with machine := ⟨2 ^ 64, 2 ^ 40, 1000, 30, by decide⟩ } ⟨str "GET", str "/a", [], []⟩
    (exWildResponse (.leaf []) [] (List.replicate 30 0x5B)) 2 with
  | .crash => true
  | _ => false) = true := by decide +kernel

/-- One certified URL, `/x/<$>/` followed by the bytes of the (toy) hash of the skip expression; its certification is of a response. -/
def exHiddenOps : List CtOp := [.insert ⟨.exact (str "/x/<$>/" ++ (sha CelExpr.skip.toBytes).1), .responseOnly h1 h0⟩]

/-- The proviso of `C27_end_to_end` is needed: with that single entry, for which certification is not skipped, any response for `/x` is
accepted that claims that certification is skipped there. -/
theorem C27_counterexample_hidden : ∃ t, ctRun exHiddenOps = some t ∧
    (match verifyPair exEnv ⟨str "GET", str "/x", [], []⟩
        (exWildResponse t.full [str "http_expr", str "x", str "<$>"] CelExpr.skip.toBytes) 2 with
      | .ok info => decide (info.response.isNone = true ∧ info.version = 2)
      | _ => false) = true ∧
    ∀ f, CtOp.insert f ∈ exHiddenOps → f.cert.isSkip = false ∧ f.path.toExprPath ≠ [str "http_expr", str "x", str "<$>"] := by
  have h : (match ctRun exHiddenOps with
    | some t => (match verifyPair exEnv ⟨str "GET", str "/x", [], []⟩
        (exWildResponse t.full [str "http_expr", str "x", str "<$>"] CelExpr.skip.toBytes) 2 with
      | .ok info => decide (info.response.isNone = true ∧ info.version = 2)
      | _ => false)
    | none => false) = true := by decide +kernel
  cases ht : ctRun exHiddenOps with
  | none => rw [ht] at h; cases h
  | some t =>
    rw [ht] at h
    refine ⟨t, rfl, h, fun f hf => ?_⟩
    simp only [exHiddenOps, List.mem_singleton, CtOp.insert.injEq] at hf
    subst hf
    exact ⟨rfl, by decide +kernel⟩

end
end Verif.Props
