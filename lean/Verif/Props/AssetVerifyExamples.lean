import Verif.Props.CelGrammar
import Verif.Props.AssetOnly
import Verif.Props.AssetExamples

set_option linter.unusedSimpArgs false
set_option linter.unusedSectionVars false

/-!
# C49, C50: concrete cases, and the proviso of C49
-/

namespace Verif.Props
open Verif HashTree PathShape

/-- A version 2 response is verified according to its claims. -/
theorem verifyPair_claims [SHA] [UriLib] [Bls] [Inflate] {env : Env} {res : HttpResponse}
    {hdr : CertHeader} {e : List Bytes} {expr : Bytes} {cel : CelExpr} (hc : Claims env.machine res hdr e expr cel)
    (req : HttpRequest) {minV : Nat} (hmin : minV ≤ 2) :
    verifyPair env req res minV = v2Verification env req res hdr.tree hdr.certificate e (sha expr) cel := by
  obtain ⟨text, h1, h2⟩ := hc.header
  unfold verifyPair
  have e1 : headerGet res.headers certHeaderName = some text := headerGet_some.2 h1
  have e2 : headerGet res.headers certExprHeaderName = some expr := headerGet_some.2 hc.expression
  have hv := hc.version
  have hp := hc.path
  simp only [e1, h2, e2, hc.parsed]
  have : ¬ 2 < minV := by omega
  simp [bind, Out.bind, this, Out.ofRun, hv, hp]

/-- The claims of a response of the router, served with a witness. -/
theorem served_claims [SHA] [UriLib] {env : Env} {i : Item} {x : CertifiedResponse} {w : HashTree} {dataCert : Bytes}
    {c : Certificate} (hm : 32 < env.machine.usize) (hcert : certificateFromCbor env.machine dataCert = some (.ok c))
    (hx : x.response.headers.getLast? = some (str "IC-CertificateExpression", i.cel.toBytes))
    (hurl : (chars x.entry.path.url).isSome ∧ env.machine.Fits (x.entry.path.url.length + 9))
    (hfit : w.Fits env.machine ∧ w.height + 3 ≤ env.machine.stack) :
    Claims env.machine (addV2CertificateHeader dataCert x.response w x.entry.path.toExprPath)
      { certificate := c, tree := w, version := 2, exprPath := some x.entry.path.toExprPath } x.entry.path.toExprPath
      i.cel.toBytes i.cel := by
  obtain ⟨hs, e1⟩ := List.getLast?_eq_some_iff.1 hx
  obtain ⟨hs1, hs2⟩ := exprPath_ok hurl.1 hurl.2
  have hhdr := C34_roundtrip env.machine dataCert _ w x.entry.path.toExprPath hm hcert hfit.1 hfit.2 hs1 hs2
  refine ⟨⟨_, ⟨x.response.headers, certHeaderName, [], rfl, by decide, by simp⟩, ?_⟩, rfl, rfl, ?_, ?_⟩
  · rw [chars_utf8]; exact hhdr
  · refine ⟨hs, str "IC-CertificateExpression", [(certHeaderName, utf8 (v2HeaderText dataCert w x.entry.path.toExprPath))], ?_, by decide, ?_⟩
    · show x.response.headers ++ [_] = _
      rw [e1, List.append_assoc]
      rfl
    · intro h hh
      rw [List.mem_singleton] at hh
      subst hh
      show ¬ SameName certHeaderName (str "IC-CertificateExpression")
      decide
  · exact C78_written _ _ (item_names i).1

section
attribute [local instance] toySHA toyUri toyGlob mergeSorting toyBls toyInflate

def rootOf (calls : List RouterCall) : Bytes :=
  match routerRun calls with
  | some r => r.rootHash.1
  | none => []

theorem rootOf_eq {calls : List RouterCall} {r : Router} (h : routerRun calls = some r) : rootOf calls = r.rootHash.1 := by
  unfold rootOf; rw [h]

/-! ## A page, an encoding, an alias, a fallback, a redirect -/

def exRouterCalls : List RouterCall :=
  [.certify (exAssets (str "hello")) (exAssets (str "hello")).reverse exConfigs]

def exMissing : HttpRequest := exAsk (str "/missing/page") []

def exDataCert : Bytes := encCertificate (exStateCert (rootOf exRouterCalls))

theorem exRouter_step {r : Router} (hr : routerRun exRouterCalls = some r) : InStep exRouterCalls r :=
  C49_in_step (by
    intro c hc
    rw [exRouterCalls, List.mem_singleton] at hc
    exact .inr ⟨_, _, _, hc, exValues _, hc ▸ exCertifies _⟩) hr

theorem exRouter_calls : ∀ c ∈ exRouterCalls, c.Faithful ∧ ∀ o, c ≠ .shared o := by
  intro c hc
  rw [exRouterCalls, List.mem_singleton] at hc
  subst hc
  exact ⟨exValues _, by simp⟩

def exPaths : List HttpPath :=
  [.exact (str "/a.txt.gz"), .exact (str "/a.txt"), .exact (str "/alias"), .exact (str "/old"), .wildcard (str "/")]

theorem exRouter_paths : ∀ c ∈ exRouterCalls, ∀ i, c.About i → i.certPath ∈ exPaths ∧
    i.url ∈ [str "/a.txt.gz", str "/a.txt", str "/alias", str "/old"] := by
  intro c hc i hi
  rw [exRouterCalls, List.mem_singleton] at hc
  subst hc
  have hp : ∀ {u : Bytes} {p : Page}, i ∈ pageItems u p → i.certPath = .exact u ∧ i.url = u := by
    intro u p h
    rcases mem_pageItems.1 h with rfl | ⟨-, n, rfl, -⟩ <;> exact ⟨rfl, rfl⟩
  rcases (exAnnounced _ i).1 hi with h | h | rfl | h | h | rfl | h | rfl <;>
    first
    | (obtain ⟨h1, h2⟩ := hp h; rw [h1, h2]; decide)
    | (refine ⟨?_, ?_⟩ <;> simp [Item.certPath, Item.url, exPaths])

def noDouble : Bytes → Bool
  | x :: y :: r => !(x == slashByte && y == slashByte) && noDouble (y :: r)
  | _ => true

theorem noDouble_ne : ∀ (a b : Bytes), noDouble (a ++ slashByte :: slashByte :: b) = false
  | [], b => by simp [noDouble]
  | [x], b => by simp [noDouble]
  | x :: y :: a, b => by
    have := noDouble_ne (y :: a) b
    simp only [List.cons_append] at this ⊢
    rw [noDouble, this]
    simp

theorem normal_of_bool {p : Bytes} (h : (p.head? == some slashByte && noDouble p) = true) : NormalPath p := by
  rw [Bool.and_eq_true, beq_iff_eq] at h
  refine ⟨h.1, ?_⟩
  rintro a b rfl
  rw [noDouble_ne] at h
  exact absurd h.2 (by simp)

theorem exPaths_ok : ∀ p ∈ exPaths, NormalPath p.url ∧ p.Clean ∧ (chars p.url).isSome ∧ exMachine.Fits (p.url.length + 9) := by
  intro p hp
  refine ⟨normal_of_bool ?_, ?_, ?_, ?_⟩
  · revert p; decide
  · unfold HttpPath.Clean; revert p; decide
  · simp only [exPaths, List.mem_cons, List.not_mem_nil, or_false] at hp
    rcases hp with rfl | rfl | rfl | rfl | rfl <;> exact chars_str (by decide)
  · revert p; decide

/-- All hypotheses of C49 are met, and the response to a request of a path that does not exist verifies. -/
theorem exMissing_verifies : ∃ r res info, routerRun exRouterCalls = some r ∧
    r.serveAsset exMachine exDataCert exMissing = some (.ok res) ∧ res.status = 404 ∧ res.body = str "hello" ∧
    verifyPair exEnv exMissing res 2 = .ok info ∧ info.version = 2 := by
  obtain ⟨r, hr⟩ := routerRun_some exRouterCalls
  have t1 : (match routerRun exRouterCalls with
    | some r => (match r.serveAsset exMachine exDataCert exMissing with
      | some (.ok res) => decide (res.status = 404 ∧ res.body = str "hello")
      | _ => false)
    | none => false) = true := by decide +kernel
  have t2 : (match routerRun exRouterCalls with
    | some r => decide (r.tree.full.Fits exMachine ∧ r.tree.full.height + 3 ≤ exMachine.stack ∧
        r.fallbacks ⟨str "/missing/page", none, none⟩ = none)
    | none => false) = true := by decide +kernel
  rw [hr] at t1 t2
  simp only [decide_eq_true_eq] at t2
  dsimp only at t1
  split at t1
  swap
  · cases t1
  rename_i res hres
  rw [decide_eq_true_eq] at t1
  obtain ⟨info, v, h1, h2, -, -⟩ := C49_verifies_partial (env := exEnv) (minV := 2) (path := str "/missing/page")
    (c := exStateCert (rootOf exRouterCalls)) exRouter_calls hr (exRouter_step hr)
    (by
      intro c hc i hi
      obtain ⟨p1, p2⟩ := exRouter_paths c hc i hi
      obtain ⟨p3, p4, -⟩ := exPaths_ok _ p1
      refine ⟨p3, p4, ?_⟩
      simp only [List.mem_cons, List.not_mem_nil, or_false] at p2
      rcases p2 with h | h | h | h <;> rw [h] <;> rfl)
    rfl rfl rfl rfl (by simp [exMissing, exAsk]) (by simp [exMissing, exAsk]) (normal_of_bool (by decide)) (by decide)
    (.inr ⟨by decide, by decide⟩) (.inr t2.2.2) hres
    (C37_certificate_roundtrip exMachine (exStateCert (rootOf exRouterCalls)) (by decide +kernel) (by decide +kernel)
      (by decide +kernel) (by decide +kernel) (by intro d hd; simp [exStateCert] at hd) (by decide +kernel)).1
    (exCert_verifies _) (by rw [← rootOf_eq hr]; rfl) (by decide)
    (fun c hc i hi => (exPaths_ok _ (exRouter_paths c hc i hi).1).2.2) ⟨t2.1, t2.2.1⟩ (by decide)
  exact ⟨r, res, info, hr, hres, t1.1, t1.2, h1, h2⟩

/-- All hypotheses of C50 are met, by the same response. -/
theorem exMissing_claims : ∃ r res info hdr e expr cel, routerRun exRouterCalls = some r ∧
    Claims exEnv.machine res hdr e expr cel ∧ verifyPair exEnv exMissing res 2 = .ok info ∧
    hdr.certificate = exStateCert (rootOf exRouterCalls) ∧
    Certifies hdr.certificate exEnv.canisterId (exStateCert (rootOf exRouterCalls)).tree r.tree.full ∧
    (∀ assets values configs, RouterCall.certify assets values configs ∈ exRouterCalls → ∀ i, Announces assets configs i →
      i.certPath.Clean ∧ i.response.NoPseudo) := by
  obtain ⟨r, res, info, hr, hs, -, -, h5, -⟩ := exMissing_verifies
  have t1 : (match routerRun exRouterCalls with
    | some r => (match r.assetForRequest (str "/missing/page") [] none with
      | some x => decide (x.entry.path = .wildcard (str "/") ∧
          x.response.headers.getLast? = some (str "IC-CertificateExpression", celOfWholes.toBytes)) &&
        (match r.tree.witness x.entry (str "/missing/page") with
        | some (.ok w) => decide (w.Fits exMachine ∧ w.height + 3 ≤ exMachine.stack)
        | _ => false)
      | none => false)
    | none => false) = true := by decide +kernel
  rw [hr] at t1
  dsimp only at t1
  split at t1
  swap
  · cases t1
  rename_i x hx
  rw [Bool.and_eq_true, decide_eq_true_eq] at t1
  obtain ⟨⟨x2, x3⟩, t1⟩ := t1
  split at t1
  swap
  · cases t1
  rename_i w hw
  rw [decide_eq_true_eq] at t1
  have hserve : r.serveAsset exMachine exDataCert exMissing =
      some (.ok (addV2CertificateHeader exDataCert x.response w x.entry.path.toExprPath)) := by
    unfold Router.serveAsset
    have e1 : exMissing.getPath = .ok (str "/missing/page") := rfl
    have e2 : rangeBegin exMachine exMissing = .ok none := rfl
    have e3 : preferredEncodings exMissing = [] := rfl
    simp only [e1, e2, e3, hx, hw]
  rw [hserve] at hs
  simp only [Option.some.injEq, Except.ok.injEq] at hs
  subst hs
  have hcert := (C37_certificate_roundtrip exMachine (exStateCert (rootOf exRouterCalls)) (by decide +kernel) (by decide +kernel)
      (by decide +kernel) (by decide +kernel) (by intro d hd; simp [exStateCert] at hd) (by decide +kernel)).1
  have hclaims := served_claims (env := exEnv) (dataCert := exDataCert) (i := .redirect [] [] .permanent) (x := x) (w := w)
    (by decide) hcert x3 (by rw [x2]; exact ⟨chars_str (by decide), by decide⟩) t1
  obtain ⟨hct, -, -⟩ := routerRun_iff.1 hr
  obtain ⟨-, hv⟩ := ctRun_valid hct
  refine ⟨r, _, info, _, _, _, _, hr, hclaims, h5, rfl, ⟨?_, rfl, ?_, NTree.wf_tree hv⟩, ?_⟩
  · unfold WellFormed exStateCert; simp only [WF, HashTree.labels]; decide
  · have hd : w.digest = r.rootHash ∧ w.digest = r.tree.full.digest := by
      obtain ⟨w', ws, k1, k2, k3, -⟩ := C21_wildcard_witness hct (str "/") x.entry.cert (str "/missing/page") (by decide)
      rw [← x2] at k1
      have k1 : r.tree.witness x.entry (str "/missing/page") = _ := k1
      rw [hw] at k1
      simp only [Option.some.injEq, Except.ok.injEq] at k1
      subst k1
      exact ⟨k2, k3.digest_eq⟩
    rw [← hd.2, hd.1, ← rootOf_eq hr]
    exact .left (.down (.down (.down (.here _))))
  · intro assets values configs hc i hi
    obtain ⟨p1, -⟩ := exRouter_paths _ hc i hi
    refine ⟨(exPaths_ok _ p1).2.1, ?_⟩
    rw [exRouterCalls, List.mem_singleton, RouterCall.certify.injEq] at hc
    obtain ⟨rfl, rfl, rfl⟩ := hc
    have hn : ∀ n ∈ str "content-length" :: str "IC-CertificateExpression" :: str "cache-control" :: ownNames,
        ¬ SameName n (str ":ic-cert-status") := by decide
    intro h hh
    refine hn _ ?_
    simp only [Item.response, List.mem_append, List.mem_cons, List.not_mem_nil, or_false] at hh
    rcases hh with (rfl | hh) | rfl
    · exact List.mem_cons_self
    · exact List.mem_cons_of_mem _ (List.mem_cons_of_mem _ (exHeaderNames _ i hi h hh))
    · exact List.mem_cons_of_mem _ List.mem_cons_self

/-! ## The proviso: a request for a scope itself -/

def exScopeConfigs : List AssetConfig :=
  [.file (str "a.txt") none [] [⟨str "/js", none⟩, ⟨str "/", some 404⟩] [] []]

def exScopeCalls : List RouterCall := [.certify [Asset.new (str "a.txt") (str "hello")] [Asset.new (str "a.txt") (str "hello")] exScopeConfigs]

def exScopeCert : Bytes := encCertificate (exStateCert (rootOf exScopeCalls))

/-- C49 is false of the code without its proviso on scopes. With fallbacks for the scopes `/js` and `/`, a request of
`/js` is answered with the fallback for `/`, and this answer does not verify. -/
theorem C49_counterexample_scope : ∃ r res, routerRun exScopeCalls = some r ∧ InStep exScopeCalls r ∧
    r.serveAsset exMachine exScopeCert (exAsk (str "/js") []) = some (.ok res) ∧ res.status = 404 ∧
    verifyPair exEnv (exAsk (str "/js") []) res 2 = .err .moreSpecificMightExist := by
  obtain ⟨r, hr⟩ := routerRun_some exScopeCalls
  have hstep : InStep exScopeCalls r := by
    refine C49_in_step ?_ hr
    intro c hc
    rw [exScopeCalls, List.mem_singleton] at hc
    refine .inr ⟨_, _, _, hc, ?_, ?_⟩
    · intro a
      rw [List.mem_singleton]
      constructor
      · rintro rfl
        exact ⟨[], [], rfl, by simp⟩
      · rintro ⟨pre, post, h, -⟩
        cases pre with
        | nil => simp at h; exact h.1.symm
        | cons _ pre => simp at h
    · subst hc
      have : (match (certifyAssets [Asset.new (str "a.txt") (str "hello")] [Asset.new (str "a.txt") (str "hello")] exScopeConfigs).2 with
        | .ok () => true
        | .error _ => false) = true := by decide +kernel
      unfold RouterCall.Succeeds RouterCall.effects
      dsimp only
      revert this
      generalize (certifyAssets [Asset.new (str "a.txt") (str "hello")] [Asset.new (str "a.txt") (str "hello")] exScopeConfigs).2 = z
      rcases z with _ | ⟨⟩
      · simp
      · simp
  have t1 : (match routerRun exScopeCalls with
    | some r => (match r.assetForRequest (str "/js") [] none with
      | some x => decide (x.response.status = 404 ∧ x.entry.path = .wildcard (str "/") ∧
          x.response.headers.getLast? = some (str "IC-CertificateExpression", celOfWholes.toBytes)) &&
        (match r.tree.witness x.entry (str "/js") with
        | some (.ok w) => validateTree [5] (exStateCert (rootOf exScopeCalls)) w &&
            (match validateExprPath (HttpPath.wildcard (str "/")).toExprPath (str "/js") w with
            | .err .moreSpecificMightExist => decide (w.Fits exMachine ∧ w.height + 3 ≤ exMachine.stack)
            | _ => false)
        | _ => false)
      | none => false)
    | none => false) = true := by decide +kernel
  rw [hr] at t1
  dsimp only at t1
  split at t1
  swap
  · cases t1
  rename_i x hx
  rw [Bool.and_eq_true, decide_eq_true_eq] at t1
  obtain ⟨⟨x1, x2, x3⟩, t1⟩ := t1
  split at t1
  swap
  · cases t1
  rename_i w hw
  rw [Bool.and_eq_true] at t1
  obtain ⟨w1, t1⟩ := t1
  split at t1
  swap
  · cases t1
  rename_i hv
  rw [decide_eq_true_eq] at t1
  have hserve : r.serveAsset exMachine exScopeCert (exAsk (str "/js") []) =
      some (.ok (addV2CertificateHeader exScopeCert x.response w x.entry.path.toExprPath)) := by
    unfold Router.serveAsset
    have e1 : (exAsk (str "/js") []).getPath = .ok (str "/js") := rfl
    have e2 : rangeBegin exMachine (exAsk (str "/js") []) = .ok none := rfl
    have e3 : preferredEncodings (exAsk (str "/js") []) = [] := rfl
    simp only [e1, e2, e3, hx, hw]
  refine ⟨r, _, hr, hstep, hserve, x1, ?_⟩
  have hcert := (C37_certificate_roundtrip exMachine (exStateCert (rootOf exScopeCalls)) (by decide +kernel) (by decide +kernel)
      (by decide +kernel) (by decide +kernel) (by intro d hd; simp [exStateCert] at hd) (by decide +kernel)).1
  have hclaims := served_claims (env := exEnv) (dataCert := exScopeCert) (i := .redirect [] [] .permanent) (x := x) (w := w) (by decide) hcert x3
    (by rw [x2]; exact ⟨chars_str (by decide), by decide⟩) t1
  rw [verifyPair_claims hclaims _ (by decide)]
  unfold v2Verification
  have e1 : (exAsk (str "/js") []).getPath = .ok (str "/js") := rfl
  have e2 : exEnv.verifyCert (exStateCert (rootOf exScopeCalls)) = .ok () := verifyCert_ok.2 (exCert_verifies _)
  have e3 : validateTree exEnv.canisterId (exStateCert (rootOf exScopeCalls)) w = true := w1
  simp only [e1, e2, e3, x2, hv, Out.ofExcept, bind, Out.bind]
  simp

end
end Verif.Props
