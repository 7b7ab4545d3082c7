import Verif.Props.Network
import Verif.Props.AssetOnly

set_option linter.unusedSimpArgs false
set_option linter.unusedSectionVars false

/-!
# C79 for responses without certification and for the asset router
-/

namespace Verif.Props
open Verif HashTree PathShape NTree

section
variable [SHA] [UriLib] [Bls] [Inflate]

/-- What the verified certificate shows, in terms of the tree of that time. -/
theorem fresh_certifies {net : Network} {env : Env} {req : HttpRequest} {res : HttpResponse} {minV : Nat} {info : VerificationInfo}
    {hdr : CertHeader} (hn : net.Honest env.machine env.canisterId env.rootKey) (hf : net.NoForgery env.machine env.rootKey hdr.certificate)
    (hc : CarriesHeader env.machine res hdr) (h : verifyPair env req res minV = .ok info)
    {hist : Nat → List CtOp} (hh : CertifiesTree net hist) :
    (∃ t T key S, InWindow t env.now env.offset ∧ ctRun (hist t) = some T ∧ net.data t = T.rootHash.1 ∧ net.signed key S ∧
      S.digest = hdr.certificate.tree.digest ∧ Certifies hdr.certificate env.canisterId S T.full) ∨
    net.Collision env.machine hdr.certificate := by
  rcases fresh_state hn hf hc h with ⟨t, key, S, h1, h2, h3, h4, h5⟩ | h
  swap
  · exact .inr h
  obtain ⟨T, hT, hd⟩ := hh t
  have hv := (ctRun_valid hT).2
  have hroot : T.rootHash = T.full.digest := by
    show labeledHash pathPrefix (AsHashTree.rootHash T.tree) = _; rw [root_eq_digest hv]; rfl
  exact .inl ⟨t, T, key, S, h1, hT, hd, h2, h3, hn.complete key S h2, h3, by rw [← hroot, ← hd, h5]; exact h4, wf_tree hv⟩

/-- **C79**, version 2 without certification: if a response whose expression asks for no certification is accepted, then at some time in
the window there was an entry at its expression path, inserted and not deleted since, that says so. -/
theorem C79_skip {net : Network} {env : Env} {req : HttpRequest} {res : HttpResponse} {minV : Nat} {info : VerificationInfo}
    {hdr : CertHeader} {e : List Bytes} {expr : Bytes}
    (hn : net.Honest env.machine env.canisterId env.rootKey) (hf : net.NoForgery env.machine env.rootKey hdr.certificate)
    (hc : Claims env.machine res hdr e expr .skip) (h : verifyPair env req res minV = .ok info)
    {hist : Nat → List CtOp} (hh : CertifiesTree net hist)
    (kind : CertEntry → CelExpr) (made : ∀ t f, CtOp.insert f ∈ hist t → ¬ f.path.Hides (sha expr) ∧ MadeFor f.cert (kind f) ∧
      ∀ n ∈ (kind f).names, CarriedName n) :
    (∃ t f, InWindow t env.now env.offset ∧ CtOp.insert f ∈ hist t ∧ ctSpec (hist t) f.toTreePath ∧ f.path.toExprPath = e ∧
      kind f = .skip ∧ f.cert = .mkSkip) ∨
    net.Collision env.machine hdr.certificate ∨
    ∃ t T, InWindow t env.now env.offset ∧ ctRun (hist t) = some T ∧ (CollisionIn hdr.tree.hashed T.full.hashed ∨
      ∃ f, CtOp.insert f ∈ hist t ∧ ctSpec (hist t) f.toTreePath ∧ f.path.toExprPath = e ∧ CollisionIn [(kind f).toBytes] [expr]) := by
  rcases fresh_certifies hn hf hc.header h hh with ⟨t, T, key, S, h1, h2, -, h3, h4, h5⟩ | h
  swap
  · exact .inr (.inl h)
  rcases C27_end_to_end hc h h2 h5 kind (made t) with ⟨f, g⟩ | g | g | g
  · exact .inl ⟨t, f, h1, g⟩
  · exact .inr (.inl (.outer h3 h4 g))
  · exact .inr (.inr ⟨t, T, h1, h2, .inl g⟩)
  · exact .inr (.inr ⟨t, T, h1, h2, .inr g⟩)

variable [GlobLib]

/-- **C79** for the asset router: let the canister certify the root hash of a router, on which it has made the calls `hist t` until
time `t`. If a version 2 response is accepted, then at some time in the window it was one that a call of `certify_assets` had announced at
the claimed path and whose entry had not been deleted: with the same status, body and headers, for a GET request. -/
theorem C79_router {net : Network} {env : Env} {req : HttpRequest} {res : HttpResponse} {minV : Nat} {info : VerificationInfo}
    {hdr : CertHeader} {e : List Bytes} {expr : Bytes} {cel : CelExpr}
    (hn : net.Honest env.machine env.canisterId env.rootKey) (hf : net.NoForgery env.machine env.rootKey hdr.certificate)
    (hc : Claims env.machine res hdr e expr cel) (h : verifyPair env req res minV = .ok info)
    {hist : Nat → List RouterCall} (hh : ∀ t, ∃ r, routerRun (hist t) = some r ∧ net.data t = r.rootHash.1)
    (hcalls : ∀ t, ∀ c ∈ hist t, c.Faithful ∧ ∀ o, c ≠ .shared o)
    (hitems : ∀ t assets values configs, RouterCall.certify assets values configs ∈ hist t → ∀ i, Announces assets configs i →
      ¬ i.certPath.Hides (sha expr) ∧ i.response.NoPseudo) :
    (∃ t assets values configs, InWindow t env.now env.offset ∧ RouterCall.certify assets values configs ∈ hist t ∧
      ∃ i, Announces assets configs i ∧
      (∃ x, i.Answer x ∧ ctSpec (treeLog (hist t)) x.entry.toTreePath) ∧ i.certPath.toExprPath = e ∧
      res.status = i.status ∧ res.body = i.body ∧
      (certifiedRespHeaders (.headerExclusions []) i.response.headers).Perm (certifiedRespHeaders (.headerExclusions []) res.headers) ∧
      req.method = str "GET" ∧ req.body = []) ∨
    net.Collision env.machine hdr.certificate ∨
    ∃ t r, InWindow t env.now env.offset ∧ routerRun (hist t) = some r ∧ (CollisionIn hdr.tree.hashed r.tree.full.hashed ∨
      ∃ assets values configs, RouterCall.certify assets values configs ∈ hist t ∧ ∃ i, Announces assets configs i ∧
      (∃ x, i.Answer x ∧ ctSpec (treeLog (hist t)) x.entry.toTreePath) ∧ i.certPath.toExprPath = e ∧
      (CollisionIn [i.cel.toBytes] [expr] ∨
       CollisionIn (certHashed i.cel { method := str "GET", url := i.url, headers := [], body := [] } i.response)
         (certHashed cel req res))) := by
  have hh' : CertifiesTree net (fun t => treeLog (hist t)) := by
    intro t
    obtain ⟨r, h1, h2⟩ := hh t
    exact ⟨r.tree, (routerRun_iff.1 h1).1, h2⟩
  rcases fresh_certifies hn hf hc.header h hh' with ⟨t, T, key, S, h1, h2, -, h3, h4, h5⟩ | h
  swap
  · exact .inr (.inl h)
  obtain ⟨r, hr, -⟩ := hh t
  have : T = r.tree := by
    have := (routerRun_iff.1 hr).1
    rw [h2] at this
    exact Option.some.inj this
  subst this
  rcases C50_only_announced (hcalls t) hr (hitems t) hc h h5 with ⟨a, v, c, k1, i, k2, k3, k4, k5, k6, k7, k8, k9, -⟩ | g | g | g
  · exact .inl ⟨t, a, v, c, h1, k1, i, k2, k3, k4, k5, k6, k7, k8, k9⟩
  · exact .inr (.inl (.outer h3 h4 g))
  · exact .inr (.inr ⟨t, r, h1, hr, .inl g⟩)
  · exact .inr (.inr ⟨t, r, h1, hr, .inr g⟩)

end
end Verif.Props
