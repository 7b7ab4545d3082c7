import Verif.Props.AssetVerifyExamples

set_option linter.unusedSimpArgs false
set_option linter.unusedSectionVars false

/-!
# The provisos of C49 are needed

For each proviso of `C49_verifies_partial` on the request and on the asset URLs, a site and a request that violates only it, and whose
answer does not verify.
-/

namespace Verif.Props
open Verif HashTree PathShape

/-- The answer to a request is refused because of the place of its certification. -/
theorem refused_path [SHA] [UriLib] [GlobLib] [UnstableSort] [Bls] [Inflate] {env : Env} {calls : List RouterCall}
    {r : Router} {req : HttpRequest} {path dataCert : Bytes} {c : Certificate} {x : CertifiedResponse} {w : HashTree} {e : RvError}
    (hr : routerRun calls = some r) (hpath : req.getPath = .ok path) (hrange : rangeBegin env.machine req = .ok none)
    (hx : r.assetForRequest path (preferredEncodings req) none = some x)
    (hw : r.tree.witness x.entry path = some (.ok w))
    (hm : 32 < env.machine.usize) (hcert : certificateFromCbor env.machine dataCert = some (.ok c))
    (hver : env.verifyCert c = .ok ()) (hroot : validateTree env.canisterId c w = true)
    (hxh : x.response.headers.getLast? = some (str "IC-CertificateExpression", celOfWholes.toBytes))
    (hurl : (chars x.entry.path.url).isSome ∧ env.machine.Fits (x.entry.path.url.length + 9))
    (hfit : w.Fits env.machine ∧ w.height + 3 ≤ env.machine.stack)
    (hv : validateExprPath x.entry.path.toExprPath path w = .err e) :
    ∃ res, r.serveAsset env.machine dataCert req = some (.ok res) ∧ res.status = x.response.status ∧
      verifyPair env req res 2 = .err e := by
  refine ⟨addV2CertificateHeader dataCert x.response w x.entry.path.toExprPath, ?_, rfl, ?_⟩
  · unfold Router.serveAsset
    simp only [hpath, hrange, hx, hw]
  · have hclaims := served_claims (env := env) (dataCert := dataCert) (i := .redirect [] [] .permanent) (x := x) (w := w)
      hm hcert hxh hurl hfit
    rw [verifyPair_claims hclaims _ (by decide)]
    unfold v2Verification
    simp only [hpath, hver, hroot, hv, Out.ofExcept, bind, Out.bind]
    simp

/-- The answer to a request is refused because the certification was made for another request. -/
theorem refused_request [SHA] [UriLib] [GlobLib] [UnstableSort] [Bls] [Inflate] {env : Env} {calls : List RouterCall}
    {r : Router} {req : HttpRequest} {path dataCert : Bytes} {c : Certificate} {x : CertifiedResponse} {w n : HashTree} {l : Bytes}
    {h : Hash}
    (hr : routerRun calls = some r) (hpath : req.getPath = .ok path) (hrange : rangeBegin env.machine req = .ok none)
    (hx : r.assetForRequest path (preferredEncodings req) none = some x)
    (hw : r.tree.witness x.entry path = some (.ok w))
    (hm : 32 < env.machine.usize) (hcert : certificateFromCbor env.machine dataCert = some (.ok c))
    (hver : env.verifyCert c = .ok ()) (hroot : validateTree env.canisterId c w = true)
    (hxh : x.response.headers.getLast? = some (str "IC-CertificateExpression", celOfWholes.toBytes))
    (hurl : (chars x.entry.path.url).isSome ∧ env.machine.Fits (x.entry.path.url.length + 9))
    (hfit : w.Fits env.machine ∧ w.height + 3 ≤ env.machine.stack)
    (hv : validateExprPath x.entry.path.toExprPath path w = .ok ())
    (hh : requestHash req { headers := [], queryParams := [] } = .ok h)
    (hn : validateExprHash x.entry.path.toExprPath (sha celOfWholes.toBytes) w = some (.labeled l n)) (hl : l ≠ h.1) :
    ∃ res, r.serveAsset env.machine dataCert req = some (.ok res) ∧ res.status = x.response.status ∧
      verifyPair env req res 2 = .err .invalidHashes := by
  refine ⟨addV2CertificateHeader dataCert x.response w x.entry.path.toExprPath, ?_, rfl, ?_⟩
  · unfold Router.serveAsset
    simp only [hpath, hrange, hx, hw]
  · have hclaims := served_claims (env := env) (dataCert := dataCert) (i := .redirect [] [] .permanent) (x := x) (w := w)
      hm hcert hxh hurl hfit
    rw [verifyPair_claims hclaims _ (by decide)]
    have hf : ∀ y, validateHashes (sha celOfWholes.toBytes) (some h) y x.entry.path.toExprPath w celOfWholes = false := by
      intro y
      unfold validateHashes
      rw [hn]
      simp only [celOfWholes, lookupSubtree, lookupLabel]
      cases hc : cmpB h.1 l with
      | lt => rfl
      | gt => rfl
      | eq => exact absurd (cmpB_eq.1 hc).symm hl
    unfold v2Verification
    simp only [hpath, hver, hroot, hv, Out.ofExcept, bind, Out.bind]
    simp only [Item.cel, not_true_eq_false, if_false, v2Verification.finish]
    have := hf (sha ((responseHeadersHash (addV2CertificateHeader dataCert x.response w x.entry.path.toExprPath).status.toUInt64
      (filterResponseHeaders (addV2CertificateHeader dataCert x.response w x.entry.path.toExprPath) (.headerExclusions []))).1 ++
      (sha (addV2CertificateHeader dataCert x.response w x.entry.path.toExprPath).body).1))
    unfold celOfWholes at this
    simp only [hh, this]
    rfl

section
attribute [local instance] toySHA toyUri toyGlob mergeSorting toyBls toyInflate

/-- The places where the answers to the requests below are refused. -/
inductive Refusal where
  | exact | wildcard

def Refusal.error : Refusal → RvError
  | .exact => .exactMightExist
  | .wildcard => .moreSpecificMightExist

def exRefused (calls : List RouterCall) (path : Bytes) (p : HttpPath) (f : Refusal) : Bool :=
  match routerRun calls with
  | some r => (match r.assetForRequest path [] none with
    | some x => decide (x.response.status = 404 ∧ x.entry.path = p ∧
        x.response.headers.getLast? = some (str "IC-CertificateExpression", celOfWholes.toBytes)) &&
      (match r.tree.witness x.entry path with
      | some (.ok w) => validateTree [5] (exStateCert (rootOf calls)) w &&
          decide (w.Fits exMachine ∧ w.height + 3 ≤ exMachine.stack) &&
          (match f, validateExprPath p.toExprPath path w with
          | .exact, .err .exactMightExist => true
          | .wildcard, .err .moreSpecificMightExist => true
          | _, _ => false)
      | _ => false)
    | none => false)
  | none => false

theorem exRefused_claim {calls : List RouterCall} {path : Bytes} {p : HttpPath} {f : Refusal}
    (ht : exRefused calls path p f = true)
    (hpath : (exAsk path []).getPath = .ok path)
    (hurl : (chars p.url).isSome ∧ exMachine.Fits (p.url.length + 9)) :
    ∃ r res, routerRun calls = some r ∧
      r.serveAsset exMachine (encCertificate (exStateCert r.rootHash.1)) (exAsk path []) = some (.ok res) ∧ res.status = 404 ∧
      verifyPair exEnv (exAsk path []) res 2 = .err f.error := by
  unfold exRefused at ht
  obtain ⟨r, hr⟩ := routerRun_some calls
  have hroot : rootOf calls = r.rootHash.1 := by unfold rootOf; rw [hr]
  rw [hr, hroot] at ht
  dsimp only at ht
  split at ht
  swap
  · cases ht
  rename_i x hx
  rw [Bool.and_eq_true, decide_eq_true_eq] at ht
  obtain ⟨⟨x1, x2, x3⟩, ht⟩ := ht
  split at ht
  swap
  · cases ht
  rename_i w hw
  rw [Bool.and_eq_true, Bool.and_eq_true, decide_eq_true_eq] at ht
  obtain ⟨⟨w1, w2⟩, ht⟩ := ht
  have hv : validateExprPath x.entry.path.toExprPath path w = .err f.error := by
    rw [x2]
    split at ht
    · assumption
    · assumption
    · cases ht
  have hlen : r.rootHash.1.length = 32 := r.rootHash.2
  have hf : (exStateCert r.rootHash.1).tree.Fits exMachine := by
    simp only [exStateCert, HashTree.Fits, Machine.Fits, hlen]
    decide +kernel
  have hcert := (C37_certificate_roundtrip exMachine (exStateCert r.rootHash.1) (by decide) (by decide) hf
    (by simp only [exStateCert]; decide +kernel) (by intro d hd; simp [exStateCert] at hd) (by simp only [exStateCert, HashTree.height]; decide)).1
  obtain ⟨res, g1, g2, g3⟩ := refused_path (env := exEnv) (req := exAsk path []) hr hpath rfl (by exact hx) hw (by decide) hcert
    (verifyCert_ok.2 (exCert_verifies _)) w1 x3 (by rw [x2]; exact hurl) w2 hv
  exact ⟨r, res, hr, g1, by rw [g2, x1], g3⟩

/-- One asset, which is the fallback for everything. -/
def exPlainConfigs : List AssetConfig := [.file (str "a") none [] [⟨str "/", some 404⟩] [] []]
def exPlainAssets : List Asset := [Asset.new (str "a") (str "hello")]
def exPlainCalls : List RouterCall := [.certify exPlainAssets exPlainAssets exPlainConfigs]

/-- C49 is false of the code for requests with repeated slashes: `//a` is answered with the fallback, though its certification path
is that of the asset `/a`; this answer does not verify. -/
theorem C49_counterexample_slashes : ∃ r res, routerRun exPlainCalls = some r ∧
    r.serveAsset exMachine (encCertificate (exStateCert r.rootHash.1)) (exAsk (str "//a") []) = some (.ok res) ∧ res.status = 404 ∧
    verifyPair exEnv (exAsk (str "//a") []) res 2 = .err .exactMightExist :=
  exRefused_claim (p := .wildcard (str "/")) (f := .exact) (by decide +kernel) rfl ⟨chars_str (by decide), by decide⟩

/-- Assets in a directory called `http_expr`. -/
def exDirAssets : List Asset := [Asset.new (str "a") (str "hello"), Asset.new (str "http_expr/b") (str "1"),
  Asset.new (str "http_expr/c") (str "2"), Asset.new (str "http_expr/n") (str "3"), Asset.new (str "http_expr/z") (str "4")]
def exDirCalls : List RouterCall := [.certify exDirAssets exDirAssets exPlainConfigs]

/-- C49 is false of the code for requests into a directory called `http_expr`: the answer with the fallback does not verify. -/
theorem C49_counterexample_first : ∃ r res, routerRun exDirCalls = some r ∧
    r.serveAsset exMachine (encCertificate (exStateCert r.rootHash.1)) (exAsk (str "/http_expr/m") []) = some (.ok res) ∧
    res.status = 404 ∧ verifyPair exEnv (exAsk (str "/http_expr/m") []) res 2 = .err .moreSpecificMightExist :=
  exRefused_claim (p := .wildcard (str "/")) (f := .wildcard) (by decide +kernel) rfl ⟨chars_str (by decide), by decide⟩

/-- Two scopes, with and without a final slash. -/
def exSlashConfigs : List AssetConfig := [.file (str "a") none [] [⟨str "/d/", some 404⟩, ⟨str "/d", some 404⟩] [] []]
def exSlashCalls : List RouterCall := [.certify exPlainAssets exPlainAssets exSlashConfigs]

/-- C49 is false of the code for requests of a name `<*>`: the answer with the fallback for `/d/` does not verify. -/
theorem C49_counterexample_last : ∃ r res, routerRun exSlashCalls = some r ∧
    r.serveAsset exMachine (encCertificate (exStateCert r.rootHash.1)) (exAsk (str "/d/<*>") []) = some (.ok res) ∧
    res.status = 404 ∧ verifyPair exEnv (exAsk (str "/d/<*>") []) res 2 = .err .moreSpecificMightExist :=
  exRefused_claim (p := .wildcard (str "/d/")) (f := .wildcard) (by decide +kernel) rfl ⟨chars_str (by decide), by decide⟩

end

/-- A hash function for this example: unlike `toySHA` its first byte depends on all bytes. -/
@[instance_reducible] def mixSHA : SHA :=
  ⟨fun b => ⟨(b.foldl (fun a x => a * 31 + x + 7) 0 :: b.reverse ++ List.replicate 32 0).take 32, by simp⟩⟩

section
attribute [local instance] mixSHA toyUri toyGlob mergeSorting toyBls toyInflate

/-- An asset whose URL has a query; it is the fallback for everything. -/
def exQueryConfigs : List AssetConfig := [.file (str "a?x") none [] [⟨str "/", some 404⟩] [] []]
def exQueryAssets : List Asset := [Asset.new (str "a?x") (str "hello")]
def exQueryCalls : List RouterCall := [.certify exQueryAssets exQueryAssets exQueryConfigs]

def exQueryRefused : Bool :=
  match routerRun exQueryCalls with
  | some r => (match r.assetForRequest (str "/m") [] none with
    | some x => decide (x.response.status = 404 ∧ x.entry.path = .wildcard (str "/") ∧
        x.response.headers.getLast? = some (str "IC-CertificateExpression", celOfWholes.toBytes)) &&
      (match r.tree.witness x.entry (str "/m") with
      | some (.ok w) => validateTree [5] (exStateCert r.rootHash.1) w &&
          decide (w.Fits exMachine ∧ w.height + 3 ≤ exMachine.stack) &&
          (match validateExprPath (HttpPath.wildcard (str "/")).toExprPath (str "/m") w,
             requestHash (exAsk (str "/m") []) { headers := [], queryParams := [] },
             validateExprHash (HttpPath.wildcard (str "/")).toExprPath (sha celOfWholes.toBytes) w with
          | .ok (), .ok h, some (.labeled l _) => decide (l ≠ h.1)
          | _, _, _ => false)
      | _ => false)
    | none => false)
  | none => false

/-- C49 is false of the code for fallback assets whose URL has a query: the certification is made for a request with that query, so the
answer to a request without query does not verify. -/
theorem C49_counterexample_query : ∃ r res, routerRun exQueryCalls = some r ∧
    r.serveAsset exMachine (encCertificate (exStateCert r.rootHash.1)) (exAsk (str "/m") []) = some (.ok res) ∧
    res.status = 404 ∧ verifyPair exEnv (exAsk (str "/m") []) res 2 = .err .invalidHashes := by
  have ht : exQueryRefused = true := by decide +kernel
  unfold exQueryRefused at ht
  obtain ⟨r, hr⟩ := routerRun_some exQueryCalls
  rw [hr] at ht
  dsimp only at ht
  split at ht
  swap
  · cases ht
  rename_i x hx
  rw [Bool.and_eq_true, decide_eq_true_eq] at ht
  obtain ⟨⟨x1, x2, x3⟩, ht⟩ := ht
  split at ht
  swap
  · cases ht
  rename_i w hw
  rw [Bool.and_eq_true, Bool.and_eq_true, decide_eq_true_eq] at ht
  obtain ⟨⟨w1, w2⟩, ht⟩ := ht
  split at ht
  swap
  · cases ht
  rename_i h l n hv hh hn
  have hlen : r.rootHash.1.length = 32 := r.rootHash.2
  have hf : (exStateCert r.rootHash.1).tree.Fits exMachine := by
    simp only [exStateCert, HashTree.Fits, Machine.Fits, hlen]
    decide +kernel
  have hcert := (C37_certificate_roundtrip exMachine (exStateCert r.rootHash.1) (by decide) (by decide) hf
    (by simp only [exStateCert]; decide +kernel) (by intro d hd; simp [exStateCert] at hd) (by simp only [exStateCert, HashTree.height]; decide)).1
  obtain ⟨res, g1, g2, g3⟩ := refused_request (env := exEnv) (req := exAsk (str "/m") []) hr rfl rfl (by exact hx) hw (by decide) hcert
    (verifyCert_ok.2 (C40_accepts exMachine true (exStateCert r.rootHash.1) [5] exRootKey 110 10 100 (lebU64 100) rfl (by decide)
      (by decide) (by decide) ⟨by decide, by decide⟩ (by decide) (.inl ⟨rfl, ⟨_, ⟨rfl, by simp⟩, congrArg some (beq_self_eq_true _)⟩⟩))) w1 x3 (by rw [x2]; exact ⟨chars_str (by decide), by decide⟩) w2
    (by rw [x2]; exact hv) hh (by rw [x2]; exact hn) (of_decide_eq_true ht)
  exact ⟨r, res, hr, g1, by rw [g2, x1], g3⟩

end
end Verif.Props
